import Verif.Spec.Outcome
import Verif.Model.Shared
/-!
# Specification: which callbacks `arg_parse` calls, and in which order

The entries of a table may be of types that the program defines itself.  Their callbacks are arbitrary functions on the
memory `W` of the program, which all of them share.  The scan functions have to leave getopt's variables alone.  The
reset and the check functions may do with them what they like: they may themselves call `arg_parse`.
-/

namespace Argtable.Spec

variable {W : Type}

/-- An entry of a table: what it declares, and its callbacks, which are functions on the memory of the program.  `resetG`
and `checkG` say what becomes of getopt's variables. -/
structure Entry (W : Type) where
  decl : Decl
  reset : Option (W → M W)
  scan : Option (W → Option CStr → M (W × Int))
  check : Option (W → M (W × Int))
  resetG : W → GState → GState := fun _ g => g
  checkG : W → GState → GState := fun _ g => g

/-- The header of the entry. -/
def Entry.hdr (e : Entry W) : SHdr W :=
  { hasValue := e.decl.hasValue, hasOptValue := e.decl.hasOptValue, shortopts := e.decl.short, longopts := e.decl.long
    resetfn := e.reset.map fun f w g => (f w).map fun w' => (w', e.resetG w g)
    scanfn := e.scan.map fun f w g a => (f w a).map fun r => (r.1, g, r.2)
    checkfn := e.check.map fun f w g => (f w).map fun r => (r.1, e.checkG w g, r.2) }

/-- The entry takes operands. -/
def Entry.plain (e : Entry W) : Prop := e.decl.long = none ∧ e.decl.short = none ∧ e.scan ≠ none

/-- The callbacks always return. -/
structure Total (es : List (Entry W)) : Prop where
  reset : ∀ e ∈ es, ∀ f, e.reset = some f → ∀ w, ∃ r, f w = .ok r
  scan : ∀ e ∈ es, ∀ f, e.scan = some f → ∀ w a, ∃ r, f w a = .ok r
  check : ∀ e ∈ es, ∀ f, e.check = some f → ∀ w, ∃ r, f w = .ok r

/-- A call of a callback: that of entry number `i`. -/
inductive Call where
  | reset (i : Nat)
  | scan (i : Nat) (arg : Option CStr)
  | check (i : Nat)
deriving DecidableEq, Repr

/-- The effect of a call on the memory, and the code that it returns (0 for the reset functions, which return nothing). -/
def called (es : List (Entry W)) (w : W) : Call → Option (M (W × Int))
  | .reset i => (es[i]?.bind (·.reset)).map fun f => (f w).map fun w' => (w', 0)
  | .scan i a => (es[i]?.bind (·.scan)).map fun f => f w a
  | .check i => (es[i]?.bind (·.check)).map fun f => f w

/-- The calls, which return the given codes, lead from one state of the memory to another. -/
inductive Performs (es : List (Entry W)) : W → List (Call × Int) → W → Prop
  | nil {w : W} : Performs es w [] w
  | cons {w w1 w2 : W} {c : Call} {n : Int} {l : List (Call × Int)} :
      called es w c = some (.ok (w1, n)) → Performs es w1 l w2 → Performs es w ((c, n) :: l) w2

/-- The calls of the reset functions: one for each entry that has one, in the order of the table. -/
def resetCalls : List (Entry W) → (i : Nat) → List (Call × Int)
  | [], _ => []
  | e :: es, i => (if e.reset.isSome then [(.reset i, 0)] else []) ++ resetCalls es (i + 1)

/-- The calls for the options that were read from the command line, and the errors that are recorded: each option is
handed to its entry, in the order of the command line, and a code other than 0 is recorded as an error. -/
inductive OptionCalls (es : List (Entry W)) : List Ev → List (Call × Int) → List ErrRec → Prop
  | nil : OptionCalls es [] [] []
  | fail {code : Int} {a : Option CStr} {evs : List Ev} {l : List (Call × Int)} {errs : List ErrRec} :
      OptionCalls es evs l errs → OptionCalls es (.fail code a :: evs) l (⟨code, .endt, a⟩ :: errs)
  | skip {i : Nat} {e : Entry W} {a : Option CStr} {evs : List Ev} {l : List (Call × Int)} {errs : List ErrRec} :
      es[i]? = some e → e.scan = none → OptionCalls es evs l errs → OptionCalls es (.deliver i a :: evs) l errs
  | accept {i : Nat} {a : Option CStr} {evs : List Ev} {l : List (Call × Int)} {errs : List ErrRec} :
      OptionCalls es evs l errs → OptionCalls es (.deliver i a :: evs) ((.scan i a, 0) :: l) errs
  | reject {i : Nat} {a : Option CStr} {n : Int} {evs : List Ev} {l : List (Call × Int)} {errs : List ErrRec} :
      n ≠ 0 → OptionCalls es evs l errs → OptionCalls es (.deliver i a :: evs) ((.scan i a, n) :: l) (⟨n, .entry i, a⟩ :: errs)

/-- The calls for the operands, from entry number `i` on: an entry that takes operands gets them one after the other until
it rejects one, which is then offered to the following entries.  `last` is the last rejection. -/
inductive OperandCalls (es : List (Entry W)) :
    (i : Nat) → (last : Option (Int × Nat)) → List CStr → List (Call × Int) → List ErrRec → Prop
  | exhausted {i : Nat} {last : Option (Int × Nat)} {ops : List CStr} :
      i = es.length → OperandCalls es i last ops [] (leftover last ops)
  | done {i : Nat} {last : Option (Int × Nat)} : i < es.length → OperandCalls es i last [] [] []
  | skip {i : Nat} {e : Entry W} {last : Option (Int × Nat)} {ops : List CStr} {l : List (Call × Int)}
      {errs : List ErrRec} :
      es[i]? = some e → ¬ e.plain → ops ≠ [] → OperandCalls es (i + 1) last ops l errs → OperandCalls es i last ops l errs
  | accept {i : Nat} {e : Entry W} {last : Option (Int × Nat)} {a : CStr} {ops : List CStr} {l : List (Call × Int)}
      {errs : List ErrRec} :
      es[i]? = some e → e.plain → OperandCalls es i none ops l errs →
      OperandCalls es i last (a :: ops) ((.scan i (some a), 0) :: l) errs
  | reject {i : Nat} {e : Entry W} {last : Option (Int × Nat)} {a : CStr} {ops : List CStr} {n : Int}
      {l : List (Call × Int)} {errs : List ErrRec} :
      es[i]? = some e → e.plain → n ≠ 0 → OperandCalls es (i + 1) (some (n, i)) (a :: ops) l errs →
      OperandCalls es i last (a :: ops) ((.scan i (some a), n) :: l) errs

/-- The calls of the check functions, one for each entry that has one, in the order of the table, and the errors. -/
inductive CheckCalls : List (Entry W) → (i : Nat) → List (Call × Int) → List ErrRec → Prop
  | nil {i : Nat} : CheckCalls [] i [] []
  | skip {i : Nat} {e : Entry W} {es : List (Entry W)} {l : List (Call × Int)} {errs : List ErrRec} :
      e.check = none → CheckCalls es (i + 1) l errs → CheckCalls (e :: es) i l errs
  | accept {i : Nat} {e : Entry W} {es : List (Entry W)} {l : List (Call × Int)} {errs : List ErrRec} :
      e.check ≠ none → CheckCalls es (i + 1) l errs → CheckCalls (e :: es) i ((.check i, 0) :: l) errs
  | reject {i : Nat} {e : Entry W} {es : List (Entry W)} {n : Int} {l : List (Call × Int)} {errs : List ErrRec} :
      e.check ≠ none → n ≠ 0 → CheckCalls es (i + 1) l errs →
      CheckCalls (e :: es) i ((.check i, n) :: l) (⟨n, .entry i, none⟩ :: errs)

/-- All calls for a command line that reads as `evs` and `ops`, and all errors: first the reset functions, then the
options, then the operands, and, if there were no errors until then, the check functions. -/
inductive CallsFor (es : List (Entry W)) (evs : List Ev) (ops : List CStr) : List (Call × Int) → List ErrRec → Prop
  | checked {opt opr chk : List (Call × Int)} {errs : List ErrRec} :
      OptionCalls es evs opt [] → OperandCalls es 0 none ops opr [] → CheckCalls es 0 chk errs →
      CallsFor es evs ops (resetCalls es 0 ++ opt ++ opr ++ chk) errs
  | failed {opt opr : List (Call × Int)} {errs errs' : List ErrRec} :
      OptionCalls es evs opt errs → OperandCalls es 0 none ops opr errs' → errs ++ errs' ≠ [] →
      CallsFor es evs ops (resetCalls es 0 ++ opt ++ opr) (errs ++ errs')

/-- The entry number `i` of a table of distinct objects (Model/Parse.lean), as an entry whose memory is the list of all
objects of the table. -/
def ownEntry {σ : Type} (i : Nat) (h : Hdr σ) : Entry (List σ) :=
  { decl := declOf h
    reset := h.resetfn.map fun f w =>
      match w[i]? with
      | none => .error (.ub "no such object")
      | some p => (f p).map fun p' => w.set i p'
    scan := h.scanfn.map fun f w a =>
      match w[i]? with
      | none => .error (.ub "no such object")
      | some p => (f p a).map fun r => (w.set i r.1, r.2)
    check := h.checkfn.map fun f w =>
      match w[i]? with
      | none => .error (.ub "no such object")
      | some p => .ok (w, f p) }

/-- A table of distinct objects. -/
def ownTable {σ : Type} (es : List (Hdr σ)) : List (Entry (List σ)) := es.mapIdx ownEntry

/-- The objects of the table. -/
def objects {σ : Type} (es : List (Hdr σ)) : List σ := es.map Hdr.parent

/-- `arg_parse` returns `r`. -/
def ReturnsShared (env : Bool) (argv : List CStr) (hs : List (SHdr W)) (s : SState W) (r : Nat × SState W) : Prop :=
  ∃ fuel, sParse hs env fuel argv s = .ok r

end Argtable.Spec
