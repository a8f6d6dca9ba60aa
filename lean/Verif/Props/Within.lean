import Verif.Proofs.ObjPtr
import Verif.Props.Demo
/-!
# C68: pointers stay inside the arguments
-/

namespace Argtable

open Spec

variable {δ : Type} {m : Strs} {emsg : CPtr} {argv : List CPtr}

theorem run_sim (H : Strings m emsg argv) (nargc : Nat) (ops : List GetoptOp) {s : PtrState} (hn : ∀ p ∈ s.nargv, p ∈ argv)
    (hp : s.optreset = false → s.optind ≠ 0 → PlaceOK m argv s ∧ Behind m s) :
    Follows (fun x y => y.1 = x.1.map (fun r => (r.1, r.2.map (strAt m))) ∧ y.2 = asText m x.2 ∧
        (∀ c p, (c, some p) ∈ x.1 → Within m argv p) ∧ ∀ p ∈ x.2.nargv, p ∈ argv)
      (callsPtr m emsg nargc ops s) (callsText nargc ops (asText m s)) := by
  induction ops generalizing s with
  | nil => exact ⟨rfl, rfl, fun _ _ h => (by cases h), hn⟩
  | cons op ops ih =>
    cases op with
    | restart i => exact ih (s := { s with optreset := true, optind := i }) hn (fun h => by cases h)
    | call fn env opts =>
      have hs : SameRes m argv (fn.callPtr m emsg env nargc opts s) (fn.call env nargc opts (asText m s)) := by
        cases fn with
        | getopt => exact getoptInternal_sim H env nargc opts none false false hn hp
        | getoptLong longs => exact getoptInternal_sim H env nargc opts (some longs) true false hn hp
        | getoptLongOnly longs => exact getoptInternal_sim H env nargc opts (some longs) true true hn hp
      rw [callsPtr, callsText]
      cases hc : fn.callPtr m emsg env nargc opts s with
      | error e =>
        rw [hc] at hs
        have hs : _ = _ := hs
        rw [hs]
        rfl
      | ok r =>
        obtain ⟨c, s1⟩ := r
        rw [hc] at hs
        obtain ⟨h1, h2, h3, h4⟩ := hs
        rw [h1, ebind, ebind]
        refine (ih h2.nargv fun _ _ => ⟨h3, h4⟩).bind ?_
        rintro ⟨l, s2⟩ ⟨l', g2⟩ ⟨k1, k2, k3, k4⟩
        refine ⟨?_, k2, ?_, k4⟩
        · have k1 : l' = _ := k1
          rw [k1]; rfl
        · intro c' p hm
          have hm : (c', some p) ∈ (c, s1.optarg) :: l := hm
          rcases List.mem_cons.1 hm with h | h
          · exact h2.optarg p (congrArg Prod.snd h).symm
          · exact k3 c' p h

/-- A program calls `getopt`, `getopt_long` and `getopt_long_only` on an argument vector as often as it likes, with any
option strings and long options, and starts again when it likes.  The functions read the strings through pointers,
character by character; still they never read before the start of an argument or behind its NUL, that is, they go wrong
only if the calls with strings do; they return the same numbers; each `optarg` is a pointer into a string of the vector and
the string there is the one the calls with strings give. -/
theorem C68_getopt (H : Strings m emsg argv) (nargc : Nat) (ops : List GetoptOp) {s : PtrState} (hn : s.nargv = argv)
    (h0 : s.optind = 0 ∨ s.optreset = true ∨ s.place = emsg) :
    (∀ e, callsPtr m emsg nargc ops s = .error e ↔ callsText nargc ops (asText m s) = .error e) ∧
    ∀ l s', callsPtr m emsg nargc ops s = .ok (l, s') →
      callsText nargc ops (asText m s) = .ok (l.map (fun r => (r.1, r.2.map (strAt m))), asText m s') ∧
      (∀ c p, (c, some p) ∈ l → Within m argv p) ∧ ∀ p ∈ s'.nargv, p ∈ argv := by
  have := run_sim H nargc ops (s := s) (fun p hp => hn ▸ hp) (fun h1 h2 => by
    rcases h0 with h | h | h
    · exact absurd h h2
    · rw [h] at h1; cases h1
    · exact placeOK_emsg H h)
  refine ⟨fun e => this.error_iff e, fun l s' h => ?_⟩
  rw [h] at this
  cases hr : callsText nargc ops (asText m s) with
  | error e => rw [hr] at this; exact this.elim
  | ok r =>
    obtain ⟨l', g'⟩ := r
    rw [hr] at this
    obtain ⟨k1, k2, k3, k4⟩ := this
    have k1 : l' = _ := k1
    have k2 : g' = _ := k2
    exact ⟨by rw [k1, k2], k3, k4⟩

/-- `arg_parse` on any table of objects made by the constructors and any argument vector.  With pointers it goes wrong only
where it does with strings, and never because a string is read outside its bounds.  The number of errors and all values are
the same.  Each pointer kept in `sval`, `filename`, `basename` or `extension` was there before, or is the empty string that
`arg_str` puts there, or points into an argument, to the text that the value has.  So do the pointers kept with errors. -/
theorem C68_parse (H : Strings m emsg argv) (env : Bool) (fuel : Nat) {fns : List (Option (ScanPtr (PObj δ)))}
    {t' : PTable (PObj δ)} {t : Table (Obj δ)} (HT : PtrTable m emsg fns t'.entries t.entries)
    (hmax : t'.fin.maxcount = t.fin.maxcount) (hlen : t'.fin.slots.length = t.fin.slots.length) (s : PtrState) :
    (∀ e, argParsePtr m emsg fns env fuel argv t' s = .error e ↔
      argParse env fuel (argv.map (strAt m)) t (asText m s) = .error e) ∧
    ∀ n t1' s1, argParsePtr m emsg fns env fuel argv t' s = .ok (n, t1', s1) →
      ∃ t1, argParse env fuel (argv.map (strAt m)) t (asText m s) = .ok (n, t1, asText m s1) ∧
        PtrTable m emsg fns t1'.entries t1.entries ∧ ErrorsShow m argv t1'.fin t1.fin ∧
        t1'.entries.length = t'.entries.length ∧
        ∀ (i : Nat) h k, t'.entries[i]? = some h → t1'.entries[i]? = some k →
          k = { h with parent := k.parent } ∧ Points m emsg argv h.parent k.parent := by
  have := argParse_obj H env fuel HT hmax hlen s
  refine ⟨fun e => this.error_iff e, fun n t1' s1 h => ?_⟩
  rw [h] at this
  cases hr : argParse env fuel (argv.map (strAt m)) t (asText m s) with
  | error e => rw [hr] at this; exact this.elim
  | ok r =>
    obtain ⟨n', t1, g1⟩ := r
    rw [hr] at this
    obtain ⟨k1, k2, k3, k4, k5, -⟩ := this
    have k1 : n = n' := k1
    have k6 : g1 = asText m s1 := k5
    subst k1
    exact ⟨t1, by rw [k6], k2, k3, k4.1, k4.2⟩

/-- The permuted copy of the vector has the caller's pointers, and so `optarg` and the operands. -/
theorem C68_state (H : Strings m emsg argv) (env : Bool) (fuel : Nat) {fns : List (Option (ScanPtr (PObj δ)))}
    {t' : PTable (PObj δ)} {t : Table (Obj δ)} (HT : PtrTable m emsg fns t'.entries t.entries)
    (hmax : t'.fin.maxcount = t.fin.maxcount) (hlen : t'.fin.slots.length = t.fin.slots.length) (s : PtrState)
    (ha : argv ≠ []) {n : Nat} {t1' : PTable (PObj δ)} {s1 : PtrState}
    (h : argParsePtr m emsg fns env fuel argv t' s = .ok (n, t1', s1)) :
    (∀ p ∈ s1.nargv, p ∈ argv) ∧ ∀ p, s1.optarg = some p → Within m argv p := by
  have := argParse_obj H env fuel HT hmax hlen s
  rw [h] at this
  cases hr : argParse env fuel (argv.map (strAt m)) t (asText m s) with
  | error e => rw [hr] at this; exact this.elim
  | ok r =>
    rw [hr] at this
    obtain ⟨-, -, -, -, -, k⟩ := this
    exact ⟨(k ha).nargv, (k ha).optarg⟩

/-! ### Examples -/

namespace Demo

/-- Five arguments; the last string is the empty one. -/
def mem68 : Strs := ["prog", "-oout", "src/main.tar.gz", "--number=x", "--paint=", ""].map cs

def argv68 : List CPtr := [⟨0, 0⟩, ⟨1, 0⟩, ⟨2, 0⟩, ⟨3, 0⟩, ⟨4, 0⟩]

theorem strings68 : Strings mem68 ⟨5, 0⟩ argv68 where
  noNul := by decide
  emsg := ⟨⟨[], rfl, Nat.le_refl _⟩, rfl⟩
  argv := by
    intro p hp
    simp only [argv68, List.mem_cons, List.not_mem_nil, or_false] at hp
    rcases hp with rfl | rfl | rfl | rfl | rfl <;> exact ⟨_, rfl, Nat.zero_le _⟩

/-- `-n`, `-o` and `-p` and the file of the table `entries`, with pointers. -/
def entries68 : List (Hdr (PObj Unit)) :=
  [plainHdrPtr n, strHdrPtr ⟨5, 0⟩ { o with hasOptValue := false } ⟨0, [⟨5, 0⟩]⟩,
    strHdrPtr ⟨5, 0⟩ { p with hasOptValue := true } ⟨0, [⟨5, 0⟩]⟩,
    fileHdrPtr { f with hasOptValue := false } ⟨0, [⟨9, 9⟩, ⟨9, 9⟩, ⟨9, 9⟩], [⟨9, 9⟩, ⟨9, 9⟩, ⟨9, 9⟩], [⟨9, 9⟩, ⟨9, 9⟩, ⟨9, 9⟩]⟩]

def fns68 : List (Option (ScanPtr (PObj Unit))) :=
  [n.scanfn.map (plainScanPtr mem68), some (strFnPtr o.maxcount), some (strFnPtr p.maxcount), some (fileFnPtr mem68 f.maxcount)]

def table68 : PTable (PObj Unit) := ⟨entries68, ⟨4, List.replicate 4 ⟨77, .endt, some ⟨9, 9⟩⟩, 0⟩⟩

def s68 : PtrState :=
  { optind := 7, opterr := true, optopt := 120, optreset := false, optarg := some ⟨9, 9⟩, place := ⟨9, 9⟩,
    nonoptStart := some 3, nonoptEnd := some 5, posixly := some true, getoptval := 99, nargv := [], stderr := [] }

theorem cells68 (q : CPtr) (hq : strAt mem68 q = [] ∨ ¬ Valid mem68 q) (k : Nat) :
    CellsShow mem68 (List.replicate k q) (List.replicate k []) := by
  refine ⟨by simp, fun i p v h1 h2 hv => ?_⟩
  rw [List.getElem?_replicate] at h1 h2
  split at h1
  · rename_i h
    rw [if_pos h] at h2
    cases h1; cases h2
    rcases hq with h | h
    · exact h
    · exact absurd hv h
  · cases h1

theorem paired68 : PtrTable mem68 ⟨5, 0⟩ fns68 entries68 [n, o, p, f] := by
  have hbad : ¬ Valid mem68 ⟨9, 9⟩ := by rintro ⟨s, h, -⟩; cases h
  refine ⟨rfl, rfl, fun i h' h h1 h2 => ?_⟩
  match i with
  | 0 =>
    cases h1; cases h2
    refine .plain ⟨rfl, ?_, ?_⟩
    · intro k x a x' e hk hx hr
      cases hk
      cases x <;> first | (cases hx; done) | (cases hr; done) | skip
      revert hr
      dsimp only
      intro hr
      cases hi : intScan (foolproof 0 2) _ a with
      | error e => rw [hi] at hr; cases hr
      | ok r => rw [hi] at hr; cases hr; rfl
    · intro k x x' hk hx hr
      cases hk
      cases x <;> first | (cases hx; done) | (cases hr; done) | skip
      cases hr; rfl
  | 1 =>
    cases h1; cases h2
    exact PtrEntry.str (so := some (cs "o")) (lo := some (cs "out,output")) (dt := none) (mn := 0) (mx := 1) (gl := none)
      (h := o) (o := ⟨0, [[]]⟩) rfl (.str _ _ rfl (cells68 ⟨5, 0⟩ (.inl rfl) 1))
  | 2 =>
    cases h1; cases h2
    exact PtrEntry.str (so := some (cs "p")) (lo := some (cs "paint")) (dt := none) (mn := 0) (mx := 1) (gl := none)
      (h := made (argStrn (some (cs "p")) (some (cs "paint")) none 0 1 none)) (ov := true) (o := ⟨0, [[]]⟩) rfl
      (.str _ _ rfl (cells68 ⟨5, 0⟩ (.inl rfl) 1))
  | 3 =>
    cases h1; cases h2
    exact PtrEntry.file (so := none) (lo := none) (dt := some (cs "FILE")) (mn := 1) (mx := 3)
      (gl := some (cs "input files")) (h := f) (o := ⟨0, [[], [], []], [[], [], []], [[], [], []]⟩) rfl
      (.file _ _ rfl (cells68 _ (.inr hbad) 3) (cells68 _ (.inr hbad) 3) (cells68 _ (.inr hbad) 3))
  | i + 4 => cases h1

/-- What the program sees afterwards. -/
def seen68 (x : M (Nat × PTable (PObj Unit) × PtrState)) : Option (Nat × List (Nat × List (List CPtr)) × List PRec) :=
  match x with
  | .ok (k, t, _) => some (k, t.entries.map (fun h => (h.parent.count, arrays h.parent)), t.fin.slots.take t.fin.count)
  | .error _ => none

/-- The pointers kept: `out` is at offset 2 of the first argument, `main.tar.gz` and `.gz` are at 4 and 12 of the second;
the errors are at `x` in the third and at the fourth; the value of the fourth is its end. -/
example : seen68 (argParsePtr mem68 ⟨5, 0⟩ fns68 false 10 argv68 table68 s68) =
    some (2, [(0, []), (1, [[⟨1, 2⟩]]), (1, [[⟨4, 8⟩]]),
        (1, [[⟨2, 0⟩, ⟨9, 9⟩, ⟨9, 9⟩], [⟨2, 4⟩, ⟨9, 9⟩, ⟨9, 9⟩], [⟨2, 12⟩, ⟨9, 9⟩, ⟨9, 9⟩]])],
      [⟨3, .entry 0, some ⟨3, 9⟩⟩, ⟨ARG_EMISSARG, .endt, some ⟨4, 0⟩⟩]) := by
  with_unfolding_all rfl

example (k : Nat) (t : PTable (PObj Unit)) (s : PtrState)
    (h : argParsePtr mem68 ⟨5, 0⟩ fns68 false 10 argv68 table68 s68 = .ok (k, t, s)) :
    ∃ t1, argParse false 10 (["prog", "-oout", "src/main.tar.gz", "--number=x", "--paint="].map cs) ⟨[n, o, p, f], fin⟩
        (asText mem68 s68) = .ok (k, t1, asText mem68 s) ∧ ErrorsShow mem68 argv68 t.fin t1.fin := by
  obtain ⟨t1, h1, -, h2, -⟩ := (C68_parse (t := ⟨[n, o, p, f], fin⟩) strings68 false 10 paired68 rfl rfl s68).2 k t s h
  exact ⟨t1, h1, h2⟩

/-- A program that uses `getopt_long` on the same vector, and then starts again with `getopt`. -/
example : (match callsPtr mem68 ⟨5, 0⟩ 5 (List.replicate 4 (.call (.getoptLong [⟨cs "number", 1, false, 7⟩, ⟨cs "paint", 2, false, 8⟩])
          false (cs "o:")) ++ [.restart 1, .call .getopt false (cs "o:"), .call .getopt false (cs "o:")])
        { s68 with nargv := argv68, optind := 0 } with
      | .ok (l, _) => some l
      | .error _ => none) =
    some [(111, some ⟨1, 2⟩), (7, some ⟨3, 9⟩), (8, some ⟨4, 8⟩), (-1, none), (111, some ⟨1, 2⟩), (63, none)] := by
  decide +kernel

end Demo

end Argtable
