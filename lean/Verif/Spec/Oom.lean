import Verif.Spec.Memory
import Verif.Spec.WellFormed
import Verif.Model.ParseOom
/-!
# Running out of memory, as the program sees it

`AtWorkOom sup h f`: `f` is the scan function of the entry `h`, as the function at work when memory is supplied as `sup`
says: that of an `arg_rex` allocates memory, those of the other entries do not.
-/

namespace Argtable.Spec

variable {δ : Type} {σ : Type}

/-- The scan function of an entry, with its use of memory, which may run out. -/
inductive AtWorkOom (sup : Supply) : Hdr (Obj δ) → Option (OScanFn (Obj δ)) → Prop
  | rex {pat : CStr} {ic : Bool} {h : Hdr (Obj δ)} {o : StrObj} : RexEntry pat ic h o → AtWorkOom sup h (some fun
      | .rex o, a, heap => do
        let ((o, e), heap) ← within (fun (q : StrObj × Heap) => (.rex q.1, q.2)) (rexScanOom sup pat ic h.maxcount o a heap)
        .ok ((.rex o, e), heap)
      | _, _, _ => up confused)
  | other {h : Hdr (Obj δ)} : (∀ o, h.parent ≠ .rex o) → AtWorkOom sup h (h.scanfn.map fun f p a heap => do
      let r ← up (f p a)
      .ok (r, heap))

/-- `fns` are the scan functions of all entries. -/
def AllAtWorkOom (sup : Supply) (fns : List (Option (OScanFn (Obj δ)))) (es : List (Hdr (Obj δ))) : Prop :=
  fns.length = es.length ∧
    ∀ (i : Nat) (h : Hdr (Obj δ)) (f : Option (OScanFn (Obj δ))), es[i]? = some h → fns[i]? = some f → AtWorkOom sup h f

/-- `heap'` has the blocks of `heap`, none of them changed or released, and at most `n` more. -/
def Grown (n : Nat) (heap heap' : Heap) : Prop := ∃ l, heap' = heap ++ l ∧ (liveBlocks l).length ≤ n

/-- Memory never runs out. -/
def Plenty (sup : Supply) : Prop := (∀ heap n, sup.malloc heap n = true) ∧ ∀ heap pat, sup.grow heap pat = true

/-- `arg_parse` ends in the panic function, when things stand as `c` says. -/
def Panics (sup : Supply) (env : Bool) (argv : List CStr) (t : Table (Obj δ)) (g : GState) (heap : Heap)
    (c : Crash (Obj δ)) : Prop :=
  ∃ fns fuel, AllAtWorkOom sup fns t.entries ∧ argParseOom sup fns env fuel argv t g heap = .error (.panic c)

/-- `arg_parse` returns, with return value, table and state of getopt `r` and the memory `heap'`. -/
def ReturnsOom (sup : Supply) (env : Bool) (argv : List CStr) (t : Table (Obj δ)) (g : GState) (heap : Heap)
    (r : Nat × Table (Obj δ) × GState) (heap' : Heap) : Prop :=
  ∃ fns fuel, AllAtWorkOom sup fns t.entries ∧ argParseOom sup fns env fuel argv t g heap = .ok (r, heap')

/-- `t'` is what `t` has become after any number of calls of `arg_parse`, each of which has returned or has run out of
memory, with any command lines, settings of POSIXLY_CORRECT, states of getopt's variables and supplies of memory. -/
inductive AfterOom (t : Table (Obj δ)) : Table (Obj δ) → Prop
  | refl : AfterOom t t
  | returned {t' : Table (Obj δ)} {sup : Supply} {env : Bool} {argv : List CStr} {g : GState} {heap heap' : Heap}
      {r : Nat × Table (Obj δ) × GState} :
      AfterOom t t' → CArgs argv.tail → ReturnsOom sup env argv t' g heap r heap' → AfterOom t r.2.1
  | panicked {t' : Table (Obj δ)} {sup : Supply} {env : Bool} {argv : List CStr} {g : GState} {heap : Heap}
      {c : Crash (Obj δ)} : AfterOom t t' → CArgs argv.tail → Panics sup env argv t' g heap c → AfterOom t c.t

end Argtable.Spec
