import Verif.Spec.Within
import Verif.Proofs.Getopt
/-!
# The getopt with pointers does what the getopt with strings does
-/

namespace Argtable

open Spec

/-! ## Reading -/

section reads
variable {m : Strs} {emsg : CPtr} {argv : List CPtr}

theorem valid_text {p : CPtr} (hp : Valid m p) : ∃ s, m[p.str]? = some s ∧ p.off ≤ s.length ∧ strAt m p = s.drop p.off := by
  obtain ⟨s, hs, ho⟩ := hp
  refine ⟨s, hs, ho, ?_⟩
  simp [strAt, hs]

theorem text_noNul (hm : ∀ s ∈ m, '\x00' ∉ s) {p : CPtr} (hp : Valid m p) : '\x00' ∉ strAt m p := by
  obtain ⟨s, hs, ho, ht⟩ := valid_text hp
  rw [ht]
  exact fun h => hm s (List.mem_of_getElem? hs) (List.mem_of_mem_drop h)

theorem readAt_drop {s : CStr} {i : Nat} (h : i ≤ s.length) : readAt s i = .ok ((s.drop i).head?.getD '\x00') := by
  unfold readAt
  by_cases h1 : i < s.length
  · rw [if_pos h1]; simp [List.getElem?_eq_getElem h1]
  · have : i = s.length := by omega
    subst this
    simp

theorem readChar_ok {p : CPtr} (hp : Valid m p) : readChar m p = .ok ((strAt m p).head?.getD '\x00') := by
  obtain ⟨s, hs, ho, ht⟩ := valid_text hp
  simp [readChar, hs, ht, readAt_drop ho]

theorem readChar_nil {p : CPtr} (hp : Valid m p) (h : strAt m p = []) : readChar m p = .ok '\x00' := by
  rw [readChar_ok hp, h]; rfl

theorem readChar_cons {p : CPtr} (hp : Valid m p) {c : Char} {t : CStr} (h : strAt m p = c :: t) :
    readChar m p = .ok c := by
  rw [readChar_ok hp, h]; rfl

theorem readStr_ok {p : CPtr} (hp : Valid m p) : readStr m p = .ok (strAt m p) := by
  obtain ⟨s, hs, ho, ht⟩ := valid_text hp
  simp [readStr, hs, ht, ho]

theorem next_ok {p : CPtr} (hp : Valid m p) {c : Char} {t : CStr} (h : strAt m p = c :: t) :
    Valid m p.next ∧ strAt m p.next = t := by
  obtain ⟨s, hs, ho, ht⟩ := valid_text hp
  have hl : p.off < s.length := by
    rcases Nat.lt_or_ge p.off s.length with h1 | h1
    · exact h1
    · rw [ht, List.drop_eq_nil_of_le h1] at h; cases h
  refine ⟨⟨s, hs, hl⟩, ?_⟩
  have : strAt m p.next = s.drop (p.off + 1) := by simp [strAt, CPtr.next, hs]
  rw [this, ← List.drop_drop, ← ht, h]
  rfl

theorem within_next {p : CPtr} (hw : Within m argv p) {c : Char} {t : CStr} (h : strAt m p = c :: t) :
    Within m argv p.next := by
  obtain ⟨hv, a, ha, hs, ho⟩ := hw
  exact ⟨(next_ok hv h).1, a, ha, hs, Nat.le_succ_of_le ho⟩

theorem findIdx_strchr (s : CStr) (c : Char) :
    strchr s c = ((s.findIdx? (· == c)).map fun k => s.drop k) := by
  induction s with
  | nil => rfl
  | cons d t ih =>
    rw [strchr, List.findIdx?_cons]
    by_cases h : d = c
    · simp [h]
    · simp only [h, if_false, ih, beq_iff_eq, Option.map_map]
      rfl

theorem strchrAt_ok {s : CStr} {i : Nat} {c : Char} (hi : i ≤ s.length) (hc : c ≠ '\x00') :
    ∃ r, strchrAt s i c = .ok r ∧ strchr (s.drop i) c = r.map (fun k => s.drop k) ∧
      ∀ k, r = some k → i ≤ k ∧ k < s.length := by
  refine ⟨_, by rw [strchrAt, if_pos hi, if_neg hc], ?_, ?_⟩
  · rw [findIdx_strchr, Option.map_map]
    congr 1
    funext k
    simp
  · intro k hk
    cases h : (s.drop i).findIdx? (· == c) with
    | none => rw [h] at hk; cases hk
    | some j =>
      rw [h] at hk
      cases hk
      obtain ⟨h1, -⟩ := List.findIdx?_eq_some_iff_getElem.1 h
      simp only [List.length_drop] at h1
      show i ≤ i + j ∧ i + j < _
      omega

theorem takeWhile_findIdx (s : CStr) (c : Char) :
    (s.takeWhile (· != c)).length = ((s.findIdx? (· == c)).getD s.length) := by
  induction s with
  | nil => rfl
  | cons d t ih =>
    rw [List.takeWhile_cons, List.findIdx?_cons]
    by_cases h : d = c
    · simp [h]
    · simp only [bne_iff_ne, ne_eq, h, not_false_iff, if_true, List.length_cons, ih, beq_iff_eq, if_false]
      cases t.findIdx? (· == c) <;> rfl

/-- `strchr(cur, '=')`. -/
theorem strchrPtr_eq {p : CPtr} (hp : Valid m p) :
    ∃ r, strchrPtr m p '=' = .ok r ∧ hasEqual (strAt m p) = (r.map fun q => strAt m q.next) ∧
      curLenPtr p (strAt m p) r = curLen (strAt m p) ∧
      ∀ q, r = some q → Valid m q.next ∧ q.next.str = p.str ∧ p.off ≤ q.next.off := by
  obtain ⟨s, hs, ho, ht⟩ := valid_text hp
  refine ⟨((s.drop p.off).findIdx? (· == '=')).map fun k => { p with off := p.off + k }, ?_, ?_, ?_, ?_⟩
  · simp [strchrPtr, hs, strchrAt, ho, bind, Except.bind, Option.map_map]
    rfl
  · rw [hasEqual, findIdx_strchr, ht, Option.map_map, Option.map_map]
    cases h : (s.drop p.off).findIdx? (· == '=') with
    | none => rfl
    | some k => simp [strAt, CPtr.next, hs, Nat.add_assoc]
  · rw [curLen, takeWhile_findIdx, ht, curLenPtr.eq_def]
    cases h : (s.drop p.off).findIdx? (· == '=') with
    | none => simp
    | some k => simp
  · intro q hq
    cases h : (s.drop p.off).findIdx? (· == '=') with
    | none => rw [h] at hq; cases hq
    | some k =>
      rw [h] at hq
      cases hq
      obtain ⟨h1, -⟩ := List.findIdx?_eq_some_iff_getElem.1 h
      simp only [List.length_drop] at h1
      exact ⟨⟨s, hs, by simp only [CPtr.next]; omega⟩, rfl, by simp only [CPtr.next]; omega⟩

end reads

/-! ## The permutation -/

theorem swapAt_map {α β : Type} (f : α → β) (v : List α) (i j : Nat) :
    swapAt (v.map f) i j = (swapAt v i j).map (List.map f) := by
  unfold swapAt
  simp only [List.getElem?_map]
  cases h1 : v[i]? with
  | none => rfl
  | some x =>
    cases h2 : v[j]? with
    | none => rfl
    | some y => simp [Except.map, List.map_set]

theorem permInner_map {α β : Type} (f : α → β) (ne nn no cst : Nat) (k pos : Nat) (v : List α) :
    permInner ne nn no cst k pos (v.map f) = (permInner ne nn no cst k pos v).map (List.map f) := by
  induction k generalizing pos v with
  | zero => rfl
  | succ k ih =>
    simp only [permInner, swapAt_map]
    generalize (if pos ≥ ne then pos - nn else pos + no) = q
    cases h : swapAt v q cst with
    | error e => rfl
    | ok w => exact ih _ _

theorem permOuter_map {α β : Type} (f : α → β) (ne nn no cl : Nat) (k i : Nat) (v : List α) :
    permOuter ne nn no cl k i (v.map f) = (permOuter ne nn no cl k i v).map (List.map f) := by
  induction k generalizing i v with
  | zero => rfl
  | succ k ih =>
    simp only [permOuter, permInner_map]
    cases h : permInner ne nn no (ne + i) cl (ne + i) v with
    | error e => rfl
    | ok w => exact ih _ _

theorem permuteArgs_map {α β : Type} (f : α → β) (a b c : Nat) (v : List α) :
    permuteArgs a b c (v.map f) = (permuteArgs a b c v).map (List.map f) := by
  unfold permuteArgs
  simp only [permOuter_map]
  cases gcdLoop (b - a) (c - b) <;> rfl

theorem swapAt_sub {α : Type} {v w : List α} {i j : Nat} (h : swapAt v i j = .ok w) :
    w.length = v.length ∧ ∀ x ∈ w, x ∈ v := by
  unfold swapAt at h
  split at h
  · rename_i x y h1 h2
    cases h
    refine ⟨by simp, fun z hz => ?_⟩
    rcases List.mem_or_eq_of_mem_set hz with hz | rfl
    · rcases List.mem_or_eq_of_mem_set hz with hz | rfl
      · exact hz
      · exact List.mem_of_getElem? h2
    · exact List.mem_of_getElem? h1
  · cases h

theorem permInner_sub {α : Type} {ne nn no cst : Nat} {k pos : Nat} {v w : List α}
    (h : permInner ne nn no cst k pos v = .ok w) : w.length = v.length ∧ ∀ x ∈ w, x ∈ v := by
  induction k generalizing pos v with
  | zero => cases h; exact ⟨rfl, fun _ h => h⟩
  | succ k ih =>
    simp only [permInner] at h
    generalize (if pos ≥ ne then pos - nn else pos + no) = q at h
    cases hs : swapAt v q cst with
    | error e => rw [hs] at h; cases h
    | ok u =>
      rw [hs] at h
      obtain ⟨h1, h2⟩ := swapAt_sub hs
      obtain ⟨h3, h4⟩ := ih h
      exact ⟨h3.trans h1, fun x hx => h2 x (h4 x hx)⟩

theorem permOuter_sub {α : Type} {ne nn no cl : Nat} {k i : Nat} {v w : List α}
    (h : permOuter ne nn no cl k i v = .ok w) : w.length = v.length ∧ ∀ x ∈ w, x ∈ v := by
  induction k generalizing i v with
  | zero => cases h; exact ⟨rfl, fun _ h => h⟩
  | succ k ih =>
    simp only [permOuter] at h
    cases hs : permInner ne nn no (ne + i) cl (ne + i) v with
    | error e => rw [hs] at h; cases h
    | ok u =>
      rw [hs] at h
      obtain ⟨h1, h2⟩ := permInner_sub hs
      obtain ⟨h3, h4⟩ := ih h
      exact ⟨h3.trans h1, fun x hx => h2 x (h4 x hx)⟩

theorem permuteArgs_sub {α : Type} {a b c : Nat} {v w : List α} (h : permuteArgs a b c v = .ok w) :
    w.length = v.length ∧ ∀ x ∈ w, x ∈ v := by
  unfold permuteArgs at h
  cases hg : gcdLoop (b - a) (c - b) with
  | error e => simp only [hg] at h; cases h
  | ok n => simp only [hg] at h; exact permOuter_sub h

/-! ## The states -/

/-- The vector and the argument of the option. -/
structure ArgsOK (m : Strs) (argv : List CPtr) (s : PtrState) : Prop where
  nargv : ∀ p ∈ s.nargv, p ∈ argv
  optarg : ∀ p, s.optarg = some p → Within m argv p

/-- `place` can be read. -/
structure PlaceOK (m : Strs) (argv : List CPtr) (s : PtrState) : Prop where
  valid : Valid m s.place
  within : strAt m s.place ≠ [] → Within m argv s.place

/-- `place` is behind the start of the current argument. -/
def Behind (m : Strs) (s : PtrState) : Prop :=
  strAt m s.place ≠ [] → ∃ p, s.nargv[s.optind]? = some p ∧ p.off < s.place.off

/-- The result of a function that returns a number. -/
def SameRes (m : Strs) (argv : List CPtr) : M (Int × PtrState) → M (Int × GState) → Prop
  | .ok (r, s), y => y = .ok (r, asText m s) ∧ ArgsOK m argv s ∧ PlaceOK m argv s ∧ Behind m s
  | .error e, y => y = .error e

/-- The result of `start:`. -/
def SameStart (m : Strs) (argv : List CPtr) : M StartPtr → M Start → Prop
  | .ok (.ret r s), y => y = .ok (.ret r (asText m s)) ∧ ArgsOK m argv s ∧ PlaceOK m argv s ∧ Behind m s
  | .ok (.go s), y => y = .ok (.go (asText m s)) ∧ ArgsOK m argv s ∧ PlaceOK m argv s ∧ Behind m s ∧ strAt m s.place ≠ []
  | .error e, y => y = .error e

section sims
variable {m : Strs} {emsg : CPtr} {argv : List CPtr}

theorem placeOK_emsg (H : Strings m emsg argv) {s : PtrState} (h : s.place = emsg) : PlaceOK m argv s ∧ Behind m s := by
  refine ⟨⟨h ▸ H.emsg.1, fun hc => absurd (h ▸ H.emsg.2) hc⟩, fun hc => absurd (h ▸ H.emsg.2) hc⟩

theorem argsOK_permute {s : PtrState} (hs : ArgsOK m argv s) {a b c : Nat} {w : List CPtr}
    (h : permuteArgs a b c s.nargv = .ok w) {s' : PtrState} (hn : s'.nargv = w) (ho : s'.optarg = s.optarg) :
    ArgsOK m argv s' :=
  ⟨fun p hp => hs.nargv p ((permuteArgs_sub h).2 p (hn ▸ hp)), fun p hp => hs.optarg p (ho ▸ hp)⟩

theorem absS_emsg (H : Strings m emsg argv) (s : PtrState) :
    asText m { s with place := emsg } = { asText m s with place := [] } := by
  simp [asText, H.emsg.2]

theorem endOfArgs_sim (H : Strings m emsg argv) {s : PtrState} (hs : ArgsOK m argv s) :
    SameStart m argv (endOfArgsPtr emsg s) (endOfArgs (asText m s)) := by
  unfold endOfArgsPtr endOfArgs
  have he : (asText m s).nonoptEnd = s.nonoptEnd := rfl
  have hb : (asText m s).nonoptStart = s.nonoptStart := rfl
  have hp : ∀ s' : PtrState, s'.place = emsg → PlaceOK m argv s' ∧ Behind m s' := fun s' => placeOK_emsg H
  dsimp only
  rw [he, hb]
  cases h1 : s.nonoptEnd with
  | some e =>
    cases h2 : s.nonoptStart with
    | some b =>
      dsimp only
      have : (asText m s).nargv = s.nargv.map (strAt m) := rfl
      rw [this, permuteArgs_map]
      have : (asText m s).optind = s.optind := rfl
      rw [this]
      cases h3 : permuteArgs b e s.optind s.nargv with
      | error e => rfl
      | ok w =>
        refine ⟨?_, argsOK_permute hs h3 rfl rfl, hp _ rfl⟩
        simp [asText, H.emsg.2, bind, Except.bind, Except.map]
    | none => rfl
  | none =>
    cases h2 : s.nonoptStart with
    | some b =>
      refine ⟨?_, ⟨hs.nargv, hs.optarg⟩, hp _ rfl⟩
      simp [asText, H.emsg.2]
    | none =>
      refine ⟨?_, ⟨hs.nargv, hs.optarg⟩, hp _ rfl⟩
      simp [asText, H.emsg.2]

theorem foundDashDash_sim (H : Strings m emsg argv) {s : PtrState} (hs : ArgsOK m argv s) :
    SameStart m argv (foundDashDashPtr emsg s) (foundDashDash (asText m s)) := by
  unfold foundDashDashPtr foundDashDash
  have he : (asText m s).nonoptEnd = s.nonoptEnd := rfl
  have hb : (asText m s).nonoptStart = s.nonoptStart := rfl
  have hp : ∀ s' : PtrState, s'.place = emsg → PlaceOK m argv s' ∧ Behind m s' := fun s' => placeOK_emsg H
  dsimp only
  rw [he, hb]
  cases h1 : s.nonoptEnd with
  | some e =>
    cases h2 : s.nonoptStart with
    | some b =>
      dsimp only
      have : (asText m s).nargv = s.nargv.map (strAt m) := rfl
      rw [this, permuteArgs_map]
      have : (asText m s).optind = s.optind := rfl
      rw [this]
      cases h3 : permuteArgs b e (s.optind + 1) s.nargv with
      | error e => rfl
      | ok w =>
        refine ⟨?_, argsOK_permute hs h3 rfl rfl, hp _ rfl⟩
        simp [asText, H.emsg.2, bind, Except.bind, Except.map]
    | none => rfl
  | none =>
    refine ⟨?_, ⟨hs.nargv, hs.optarg⟩, hp _ rfl⟩
    simp [asText, H.emsg.2]

theorem skipOperand_sim {s : PtrState} (hs : ArgsOK m argv s) :
    match skipOperandPtr s with
    | .ok s' => skipOperand (asText m s) = .ok (asText m s') ∧ ArgsOK m argv s' ∧ s'.place = s.place
    | .error e => skipOperand (asText m s) = .error e := by
  unfold skipOperandPtr skipOperand
  have he : (asText m s).nonoptEnd = s.nonoptEnd := rfl
  have hb : (asText m s).nonoptStart = s.nonoptStart := rfl
  rw [he, hb]
  cases h2 : s.nonoptStart with
  | none => exact ⟨rfl, ⟨hs.nargv, hs.optarg⟩, rfl⟩
  | some b =>
    cases h1 : s.nonoptEnd with
    | none => exact ⟨rfl, ⟨hs.nargv, hs.optarg⟩, rfl⟩
    | some e =>
      dsimp only
      have : (asText m s).nargv = s.nargv.map (strAt m) := rfl
      rw [this, permuteArgs_map]
      have : (asText m s).optind = s.optind := rfl
      rw [this]
      cases h3 : permuteArgs b e s.optind s.nargv with
      | error e => rfl
      | ok w => exact ⟨rfl, argsOK_permute hs h3 rfl rfl, rfl⟩

/-- `*p == '\0'` says that the string is at its end. -/
theorem nul_iff (H : Strings m emsg argv) {p : CPtr} (hp : Valid m p) :
    (strAt m p).head?.getD '\x00' = '\x00' ↔ strAt m p = [] := by
  cases h : strAt m p with
  | nil => simp
  | cons c t =>
    have := text_noNul H.noNul hp
    rw [h] at this
    simp only [List.mem_cons, not_or] at this
    simp [Ne.symm this.1]

theorem isOperand_sim (H : Strings m emsg argv) {p : CPtr} (hp : Valid m p) :
    isOperandPtr m p = .ok (decide ((strAt m p).head? ≠ some '-' ∨ (strAt m p).tail = [])) := by
  unfold isOperandPtr
  cases h : strAt m p with
  | nil => simp [readChar_nil hp h, bind, Except.bind]
  | cons c t =>
    obtain ⟨hv, ht⟩ := next_ok hp h
    simp only [readChar_cons hp h, bind, Except.bind, List.head?_cons, List.tail_cons, ne_eq, Option.some.injEq]
    by_cases hc : c = '-'
    · subst hc
      rw [if_neg (by simp), readChar_ok hv]
      have := nul_iff H hv
      rw [ht] at this ⊢
      simp [this]
    · simp [hc]

theorem isDashDash_sim (H : Strings m emsg argv) {p : CPtr} (hp : Valid m p) {c : Char} {t : CStr}
    (h : strAt m p = c :: t) (hne : t ≠ []) :
    isDashDashPtr m p = .ok (decide (t = ['-']), p.next) := by
  unfold isDashDashPtr
  obtain ⟨hv, ht⟩ := next_ok hp h
  cases t with
  | nil => exact absurd rfl hne
  | cons d t =>
    have hd : d ≠ '\x00' := by
      have := text_noNul H.noNul hv
      rw [ht] at this
      simp only [List.mem_cons, not_or] at this
      exact Ne.symm this.1
    simp only [readChar_cons hv ht, bind, Except.bind, if_neg hd]
    by_cases hc : d = '-'
    · subst hc
      obtain ⟨hv2, ht2⟩ := next_ok hv ht
      rw [if_neg (by simp), readChar_ok hv2]
      have := nul_iff H hv2
      rw [ht2] at this ⊢
      simp [this]
    · simp [hc]

theorem needArg_sim (H : Strings m emsg argv) {s : PtrState} (hp : s.optreset = false → Valid m s.place) :
    needArg m s = .ok (s.optreset || (strAt m s.place).isEmpty) := by
  unfold needArg
  cases h : s.optreset with
  | true => simp
  | false =>
    rw [if_neg (by simp), readChar_ok (hp h)]
    have := nul_iff H (hp h)
    simp only [bind, Except.bind, Bool.false_or, this]
    cases strAt m s.place <;> rfl

theorem scanStart_sim (H : Strings m emsg argv) (nargc : Nat) (permute allargs : Bool) {s : PtrState}
    (hs : ArgsOK m argv s) (hp : s.optreset = false → PlaceOK m argv s ∧ Behind m s) :
    SameStart m argv (scanStartPtr m emsg nargc permute allargs s) (scanStart nargc permute allargs (asText m s)) := by
  induction hk : nargc - s.optind using Nat.strongRecOn generalizing s with
  | _ k ih =>
    rw [scanStartPtr, scanStart, needArg_sim H fun h => (hp h).1.valid]
    have hz : (asText m s).optreset = s.optreset := rfl
    have hq : (asText m s).place = strAt m s.place := rfl
    rw [hz, hq]
    cases hc : s.optreset || (strAt m s.place).isEmpty with
    | false =>
      simp only [Bool.or_eq_false_iff] at hc
      obtain ⟨h1, h2⟩ := hp hc.1
      refine ⟨rfl, hs, h1, h2, ?_⟩
      intro h
      rw [h] at hc
      simp at hc
    | true =>
      simp only [if_true]
      have ho : (asText m s).optind = s.optind := rfl
      have hn : (asText m s).nargv = s.nargv.map (strAt m) := rfl
      have hs1 : ArgsOK m argv { s with optreset := false } := ⟨hs.nargv, hs.optarg⟩
      by_cases hge : s.optind ≥ nargc
      · rw [dif_pos hge, dif_pos (ho ▸ hge)]
        exact endOfArgs_sim H hs1
      · rw [dif_neg hge, dif_neg (ho ▸ hge)]
        rw [ho, hn, List.getElem?_map]
        cases harg : s.nargv[s.optind]? with
        | none => rfl
        | some arg =>
          have hmem := hs.nargv arg (List.mem_of_getElem? harg)
          have hv := H.argv arg hmem
          simp only [Option.map_some, isOperand_sim H hv]
          by_cases hop : (strAt m arg).head? ≠ some '-' ∨ (strAt m arg).tail = []
          · simp only [decide_eq_true hop, if_pos hop]
            cases allargs with
            | true =>
              refine ⟨?_, ⟨hs.nargv, ?_⟩, placeOK_emsg H rfl⟩
              · simp [asText, H.emsg.2]
              · intro p hp
                cases hp
                exact ⟨hv, arg, hmem, rfl, Nat.le_refl _⟩
            | false =>
              cases permute with
              | false =>
                refine ⟨?_, ⟨hs.nargv, hs.optarg⟩, placeOK_emsg H rfl⟩
                simp [asText, H.emsg.2]
              | true =>
                simp only [Bool.false_eq_true, if_false, Bool.not_true]
                have key := skipOperand_sim (s := { s with optreset := false, place := emsg }) (m := m) (argv := argv)
                  ⟨hs.nargv, hs.optarg⟩
                have e : asText m { s with optreset := false, place := emsg } =
                    { asText m s with optreset := false, place := [] } := by simp [asText, H.emsg.2]
                rw [e] at key
                split
                · rename_i er h
                  rw [h] at key
                  dsimp only at key
                  split
                  · rename_i er' h'
                    replace h' := key.symm.trans h'
                    cases h'
                    rfl
                  · rename_i g' h'
                    replace h' := key.symm.trans h'
                    cases h'
                · rename_i s' h
                  rw [h] at key
                  dsimp only at key
                  obtain ⟨k1, k2, k3⟩ := key
                  split
                  · rename_i er' h'
                    replace h' := k1.symm.trans h'
                    cases h'
                  · rename_i g' h'
                    replace h' := k1.symm.trans h'
                    cases h'
                    have hx := skipOperandPtr_optind h
                    dsimp only at hx
                    exact ih _ (by omega) k2 (fun _ => placeOK_emsg H k3) rfl
          · simp only [decide_eq_false hop, if_neg hop]
            rw [not_or] at hop
            obtain ⟨hh, ht⟩ := hop
            obtain ⟨c, t, htx⟩ : ∃ c t, strAt m arg = c :: t := by
              cases h : strAt m arg with
              | nil => rw [h] at ht; exact absurd rfl ht
              | cons c t => exact ⟨c, t, rfl⟩
            have htl : (strAt m arg).tail = t := by rw [htx]; rfl
            rw [htl] at ht ⊢
            obtain ⟨hv1, ht1⟩ := next_ok hv htx
            rw [isDashDash_sim H hv htx ht]
            simp only [bind, Except.bind]
            have hw : Within m argv arg.next := within_next ⟨hv, arg, hmem, rfl, Nat.le_refl _⟩ htx
            generalize hs2 : (if (s.nonoptStart.isSome && s.nonoptEnd.isNone) = true
              then ({ s with optreset := false, nonoptEnd := some s.optind } : PtrState)
              else { s with optreset := false }) = s2
            have e2 : asText m { s2 with place := arg.next } =
                { (if (s.nonoptStart.isSome && s.nonoptEnd.isNone) = true
                  then ({ asText m s with optreset := false, nonoptEnd := some s.optind } : GState)
                  else { asText m s with optreset := false }) with place := t } := by
              rw [← hs2]
              split <;> simp [asText, ht1]
            have hs3 : ArgsOK m argv { s2 with place := arg.next } := by
              rw [← hs2]
              split <;> exact ⟨hs.nargv, hs.optarg⟩
            have hn2 : s2.nargv = s.nargv ∧ s2.optind = s.optind := by
              rw [← hs2]
              split <;> exact ⟨rfl, rfl⟩
            by_cases hdd : t = ['-']
            · rw [if_pos hdd]
              simp only [hdd, decide_true, if_true]
              rw [hdd] at e2
              have := foundDashDash_sim H hs3
              rw [e2] at this
              exact this
            · rw [if_neg hdd]
              simp only [hdd, decide_false, Bool.false_eq_true, if_false]
              refine ⟨congrArg (fun x => Except.ok (Start.go x)) e2.symm, hs3, ⟨hv1, fun _ => hw⟩, ?_, ?_⟩
              · intro _
                refine ⟨arg, ?_, Nat.lt_succ_self _⟩
                show s2.nargv[s2.optind]? = _
                rw [hn2.1, hn2.2, harg]
              · show strAt m arg.next ≠ []
                rw [ht1]
                exact ht

theorem headD_iff (l : CStr) {c : Char} (hc : c ≠ '\x00') : l.head?.getD '\x00' = c ↔ l.head? = some c := by
  cases l with
  | nil => simp [Ne.symm hc]
  | cons d t => simp

theorem warn_sim (m : Strs) {opts : CStr} {oo : Nat} (ho : oo ≤ opts.length) (msg : CStr) (s : PtrState) :
    ∃ x, warnPtr opts oo msg s = .ok { s with stderr := x } ∧
      asText m { s with stderr := x } = warn (opts.drop oo) msg (asText m s) := by
  unfold warnPtr warn
  rw [readAt_drop ho]
  have hd := headD_iff (opts.drop oo) (c := ':') (by decide)
  generalize (opts.drop oo).head? = x at *
  have hs : ({ s with stderr := s.stderr } : PtrState) = s := rfl
  cases h : s.opterr with
  | false => exact ⟨s.stderr, by rw [if_neg (by simp), ← h], by simp [asText, h]⟩
  | true =>
    by_cases hc : x = some ':'
    · refine ⟨s.stderr, ?_, ?_⟩
      · simp only [if_true, bind, Except.bind]
        rw [if_neg (fun h => h (hd.2 hc)), ← h]
      · simp [asText, h, hc]
    · refine ⟨s.stderr ++ [msg], ?_, ?_⟩
      · simp only [if_true, bind, Except.bind]
        rw [if_pos (fun h => hc (hd.1 h))]
      · simp [asText, h, hc]

theorem badArg_sim {opts : CStr} {oo : Nat} (ho : oo ≤ opts.length) :
    badArgPtr opts oo = .ok (BADARG (opts.drop oo)) := by
  unfold badArgPtr BADARG
  rw [readAt_drop ho]
  have hd := headD_iff (opts.drop oo) (c := ':') (by decide)
  generalize (opts.drop oo).head? = x at *
  simp [bind, Except.bind, hd]

theorem vecAt_sim (m : Strs) (v : List CPtr) (i : Nat) :
    argvAt (v.map (strAt m)) i = (vecAt v i).map (Option.map (strAt m)) := by
  unfold argvAt vecAt
  simp only [List.length_map, List.getElem?_map]
  split
  · rfl
  · split <;> rfl

theorem vecAt_mem {v : List CPtr} {i : Nat} {p : CPtr} (h : vecAt v i = .ok (some p)) : p ∈ v := by
  unfold vecAt at h
  split at h
  · cases h' : v[i]? with
    | none => rw [h'] at h; cases h
    | some q => rw [h'] at h; cases h; exact List.mem_of_getElem? h'
  · split at h <;> cases h

theorem fetchLong_sim {s : PtrState} (H : Strings m emsg argv) (hs : ArgsOK m argv s) (o : LongOpt) (he : Option CPtr)
    (hw : ∀ p, he = some p → Within m argv p) :
    match fetchLongArgPtr o he s with
    | .ok s' => fetchLongArg o (he.map (strAt m)) (asText m s) = .ok (asText m s') ∧ ArgsOK m argv s' ∧ s'.place = s.place
    | .error e => fetchLongArg o (he.map (strAt m)) (asText m s) = .error e := by
  unfold fetchLongArgPtr fetchLongArg
  by_cases h : o.hasArg = 1 ∨ o.hasArg = 2
  · rw [if_pos h, if_pos h]
    cases he with
    | some v => exact ⟨rfl, ⟨hs.nargv, fun p hp => by cases hp; exact hw _ rfl⟩, rfl⟩
    | none =>
      simp only [Option.map_none]
      by_cases h1 : o.hasArg = 1
      · rw [if_pos h1, if_pos h1]
        have : (asText m s).nargv = s.nargv.map (strAt m) := rfl
        rw [this, vecAt_sim]
        have : (asText m s).optind = s.optind := rfl
        rw [this]
        cases hv : vecAt s.nargv s.optind with
        | error e => rfl
        | ok v =>
          refine ⟨rfl, ⟨hs.nargv, fun p hp => ?_⟩, rfl⟩
          cases hp
          have := hs.nargv _ (vecAt_mem hv)
          exact ⟨H.argv _ this, _, this, rfl, Nat.le_refl _⟩
      · rw [if_neg h1, if_neg h1]
        exact ⟨rfl, hs, rfl⟩
  · rw [if_neg h, if_neg h]
    exact ⟨rfl, hs, rfl⟩

theorem parseLong_sim (H : Strings m emsg argv) {opts : CStr} {oo : Nat} (ho : oo ≤ opts.length)
    (longs : List LongOpt) (shortToo longOnly : Bool) (dash : CStr) {s : PtrState} (hs : ArgsOK m argv s) (hp : PlaceOK m argv s) :
    match parseLongOptionsPtr m opts oo longs shortToo longOnly dash s with
    | .ok (r, s') => parseLongOptions (opts.drop oo) longs shortToo longOnly dash (asText m s) = .ok (r, asText m s') ∧
        ArgsOK m argv s' ∧ (r = -1 → s' = s)
    | .error e => parseLongOptions (opts.drop oo) longs shortToo longOnly dash (asText m s) = .error e := by
  unfold parseLongOptionsPtr parseLongOptions
  obtain ⟨eq, h1, h2, h3, h4⟩ := strchrPtr_eq hp.valid
  have hq : (asText m s).place = strAt m s.place := rfl
  simp only [bind, Except.bind, readStr_ok hp.valid, h1, hq, h3]
  generalize hr : matchLoop (strAt m s.place) (curLen (strAt m s.place)) shortToo longOnly longs none false = r
  have hs1 : ArgsOK m argv { s with optind := s.optind + 1 } := ⟨hs.nargv, hs.optarg⟩
  by_cases hamb : (!r.exact && r.second) = true
  · rw [if_pos hamb, if_pos hamb]
    obtain ⟨x, hx1, hx2⟩ := warn_sim m ho (ambigText dash (curLen (strAt m s.place)) (strAt m s.place)) { s with optind := s.optind + 1 }
    rw [hx1]
    refine ⟨?_, ⟨hs.nargv, hs.optarg⟩, fun h => by simp [BADCH] at h⟩
    have hx2 : _ = warn (opts.drop oo) (ambigText dash (curLen (strAt m s.place)) (strAt m s.place)) { asText m s with optind := s.optind + 1 } := hx2
    show Except.ok (BADCH, { warn (opts.drop oo) (ambigText dash (curLen (strAt m s.place)) (strAt m s.place)) { asText m s with optind := s.optind + 1 } with optopt := 0 }) = _
    rw [← hx2]
    rfl
  · rw [if_neg hamb, if_neg hamb]
    cases r.mtch with
    | none =>
      cases shortToo with
      | true =>
        refine ⟨rfl, ⟨hs.nargv, hs.optarg⟩, fun _ => ?_⟩
        simp
      | false =>
        simp only [Bool.false_eq_true, if_false]
        obtain ⟨x, hx1, hx2⟩ := warn_sim m ho (illoptstring dash (strAt m s.place)) { s with optind := s.optind + 1 }
        rw [hx1]
        refine ⟨?_, ⟨hs.nargv, hs.optarg⟩, fun h => by simp [BADCH] at h⟩
        have hx2 : _ = warn (opts.drop oo) (illoptstring dash (strAt m s.place)) { asText m s with optind := s.optind + 1 } := hx2
        show Except.ok (BADCH, { warn (opts.drop oo) (illoptstring dash (strAt m s.place)) { asText m s with optind := s.optind + 1 }
          with optopt := 0 }) = _
        rw [← hx2]
        rfl
    | some o =>
      have hsome : (hasEqual (strAt m s.place)).isSome = (eq.map CPtr.next).isSome := by
        rw [h2]; cases eq <;> rfl
      simp only [hsome]
      by_cases hna : o.hasArg = 0 ∧ (eq.map CPtr.next).isSome = true
      · rw [if_pos hna, if_pos hna]
        obtain ⟨x, hx1, hx2⟩ := warn_sim m ho (noargText dash (curLen (strAt m s.place)) (strAt m s.place)) { s with optind := s.optind + 1 }
        rw [hx1]
        refine ⟨?_, ⟨hs.nargv, hs.optarg⟩, fun h => by simp [BADCH] at h⟩
        have hx2 : _ = warn (opts.drop oo) (noargText dash (curLen (strAt m s.place)) (strAt m s.place)) { asText m s with optind := s.optind + 1 } := hx2
        show Except.ok (BADCH, { warn (opts.drop oo) (noargText dash (curLen (strAt m s.place)) (strAt m s.place)) { asText m s with optind := s.optind + 1 }
          with optopt := if o.flag then 0 else o.val }) = _
        rw [← hx2]
        rfl
      · rw [if_neg hna, if_neg hna]
        have hf := fetchLong_sim H hs1 o (eq.map CPtr.next) (by
          intro p hpe
          cases eq with
          | none => cases hpe
          | some q =>
            cases hpe
            obtain ⟨k1, k2, k3⟩ := h4 q rfl
            have : strAt m s.place ≠ [] := by
              intro h
              rw [h] at h2
              cases h2
            obtain ⟨-, a, ha, e1, e2⟩ := hp.within this
            exact ⟨k1, a, ha, k2.trans e1, Nat.le_trans e2 k3⟩)
        have e : (eq.map CPtr.next).map (strAt m) = hasEqual (strAt m s.place) := by
          rw [h2, Option.map_map]; rfl
        rw [e] at hf
        have e0 : asText m { s with optind := s.optind + 1 } =
            { asText m s with optind := s.optind + 1, place := strAt m s.place } := rfl
        rw [e0] at hf
        have e1 : (asText m s).optind = s.optind := rfl
        rw [e1]
        cases hfl : fetchLongArgPtr o (eq.map CPtr.next) { s with optind := s.optind + 1 } with
        | error er =>
          rw [hfl] at hf
          dsimp only at hf ⊢
          rw [hf]
        | ok s2 =>
          rw [hfl] at hf
          dsimp only at hf ⊢
          obtain ⟨f1, f2, f3⟩ := hf
          rw [f1]
          dsimp only
          have hoa : (asText m s2).optarg = none ↔ s2.optarg = none := by
            show s2.optarg.map _ = none ↔ _
            simp
          simp only [hoa]
          by_cases hma : o.hasArg = 1 ∧ s2.optarg = none
          · rw [if_pos hma, if_pos hma]
            obtain ⟨x, hx1, hx2⟩ := warn_sim m ho (recargstring dash (strAt m s.place)) s2
            rw [hx1, badArg_sim ho]
            refine ⟨?_, ⟨f2.nargv, f2.optarg⟩, fun h => ?_⟩
            · rw [← hx2]; rfl
            · simp only [BADARG] at h
              split at h <;> cases h
          · rw [if_neg hma, if_neg hma]
            cases hfg : o.flag with
            | true => exact ⟨rfl, ⟨f2.nargv, f2.optarg⟩, fun h => by simp at h⟩
            | false =>
              refine ⟨rfl, f2, fun h => ?_⟩
              omega

theorem findLetter_sim (H : Strings m emsg argv) {opts : CStr} {oo : Nat} (ho : oo ≤ opts.length) {c : Char}
    (hc : c ≠ '\x00') {p : CPtr} (hp : Valid m p) :
    ∃ r, findLetterPtr m opts oo c p = .ok r ∧
      (if c = ':' ∨ (c = '-' ∧ strAt m p ≠ []) then none else strchr (opts.drop oo) c) = r.map (fun k => opts.drop k) ∧
      ∀ k, r = some k → k < opts.length := by
  unfold findLetterPtr
  obtain ⟨r, h1, h2, h3⟩ := strchrAt_ok ho hc
  by_cases hcol : c = ':'
  · exact ⟨none, by rw [if_pos hcol], by rw [if_pos (.inl hcol)]; rfl, fun k h => by cases h⟩
  · rw [if_neg hcol]
    by_cases hd : c = '-'
    · by_cases ht : strAt m p = []
      · refine ⟨r, ?_, ?_, fun k h => (h3 k h).2⟩
        · rw [if_pos hd, readChar_nil hp ht]
          simp [bind, Except.bind, h1]
        · rw [if_neg (by simp [hcol, ht]), h2]
      · refine ⟨none, ?_, ?_, fun k h => by cases h⟩
        · rw [if_pos hd, readChar_ok hp]
          have := (not_congr (nul_iff H hp)).2 ht
          simp only [bind, Except.bind]
          rw [decide_eq_true this]
          rfl
        · rw [if_pos (.inr ⟨hd, ht⟩)]; rfl
    · refine ⟨r, ?_, ?_, fun k h => (h3 k h).2⟩
      · rw [if_neg hd]
        simp [bind, Except.bind, h1]
      · rw [if_neg (by simp [hcol, hd]), h2]

theorem loneDash_sim (H : Strings m emsg argv) {c : Char} {p : CPtr} (hp : Valid m p) :
    loneDashPtr m c p = .ok (decide (c = '-' ∧ strAt m p = [])) := by
  unfold loneDashPtr
  by_cases hd : c = '-'
  · rw [if_pos hd, readChar_ok hp]
    have := nul_iff H hp
    simp only [bind, Except.bind, this]
    simp [hd]
  · rw [if_neg hd]
    simp [hd]

theorem isW_sim {opts : CStr} {long : Bool} {c : Char} {k : Nat} (hk : k < opts.length) :
    isWPtr opts long c k = .ok (decide (long = true ∧ c = 'W' ∧ (opts.drop k).tail.head? = some ';')) := by
  unfold isWPtr
  have e : (opts.drop k).tail = opts.drop (k + 1) := by simp
  rw [e, readAt_drop (show k + 1 ≤ _ from hk)]
  have hd := headD_iff (opts.drop (k + 1)) (c := ';') (by decide)
  generalize (opts.drop (k + 1)).head? = x at *
  cases long <;> by_cases hw : c = 'W' <;> simp [hw, bind, Except.bind, hd]

theorem step_sim (H : Strings m emsg argv) {s : PtrState} (hp : Valid m s.place) :
    stepPtr m s = .ok (if strAt m s.place = [] then { s with optind := s.optind + 1 } else s) := by
  unfold stepPtr
  rw [readChar_ok hp]
  simp only [bind, Except.bind, nul_iff H hp]

theorem shortPart_sim (H : Strings m emsg argv) (nargc : Nat) {opts : CStr} {oo : Nat} (ho : oo ≤ opts.length)
    (longs : Option (List LongOpt)) (longOnly : Bool) {s : PtrState} (hs : ArgsOK m argv s) (hp : PlaceOK m argv s)
    (hb : Behind m s) (hne : strAt m s.place ≠ []) :
    SameRes m argv (shortPartPtr m emsg nargc opts oo longs longOnly s)
      (shortPart nargc (opts.drop oo) longs longOnly (asText m s)) := by
  obtain ⟨c, t, htx⟩ : ∃ c t, strAt m s.place = c :: t := by
    cases h : strAt m s.place with
    | nil => exact absurd h hne
    | cons c t => exact ⟨c, t, rfl⟩
  have hc : c ≠ '\x00' := by
    have := text_noNul H.noNul hp.valid
    rw [htx] at this
    simp only [List.mem_cons, not_or] at this
    exact Ne.symm this.1
  obtain ⟨hv1, ht1⟩ := next_ok hp.valid htx
  have hw1 : Within m argv s.place.next := within_next (hp.within hne) htx
  have hq : (asText m s).place = c :: t := htx
  unfold shortPartPtr shortPart
  rw [readChar_cons hp.valid htx, hq]
  obtain ⟨r, hr1, hr2, hr3⟩ := findLetter_sim H ho hc hv1
  rw [ht1] at hr2
  simp only [bind, Except.bind]
  rw [hr1, hr2]
  have hbn : ∀ s' : PtrState, s'.place = s.place.next → s'.nargv = s.nargv → s'.optind = s.optind →
      PlaceOK m argv s' ∧ Behind m s' := by
    intro s' e1 e2 e3
    refine ⟨⟨e1 ▸ hv1, fun _ => e1 ▸ hw1⟩, fun _ => ?_⟩
    obtain ⟨p, hp1, hp2⟩ := hb hne
    refine ⟨p, by rw [e2, e3, hp1], ?_⟩
    rw [e1]
    exact Nat.lt_succ_of_lt hp2
  have hbe : ∀ s' : PtrState, s'.place = s.place.next → t = [] → PlaceOK m argv s' ∧ Behind m s' := by
    intro s' e1 e
    refine ⟨⟨e1 ▸ hv1, fun _ => e1 ▸ hw1⟩, fun h => ?_⟩
    rw [e1, ht1] at h
    exact absurd e h
  cases r with
  | none =>
    simp only [Option.map_none]
    rw [loneDash_sim H hv1, ht1]
    by_cases hl : c = '-' ∧ t = []
    · simp only [hl, and_self, decide_true, if_true]
      refine ⟨?_, ⟨hs.nargv, hs.optarg⟩, hbe _ rfl hl.2⟩
      simp [asText, ht1, hl.2]
    · simp only [hl, decide_false, Bool.false_eq_true, if_false]
      rw [step_sim H hv1, ht1]
      dsimp only
      by_cases ht : t = []
      · simp only [ht, if_true]
        obtain ⟨x, hx1, hx2⟩ := warn_sim m ho (if s.posixly ≠ some false then illoptchar c else gnuoptchar c) { s with place := s.place.next, optind := s.optind + 1 }
        rw [hx1]
        refine ⟨?_, ⟨hs.nargv, hs.optarg⟩, hbe _ rfl ht⟩
        have e : asText m { s with place := s.place.next, optind := s.optind + 1 } =
            { asText m s with place := [], optind := (asText m s).optind + 1 } := by simp [asText, ht1, ht]
        rw [e] at hx2
        have ep : (if s.posixly ≠ some false then illoptchar c else gnuoptchar c) =
            if (asText m s).posixly ≠ some false then illoptchar c else gnuoptchar c := rfl
        rw [ep] at hx2
        rw [← hx2]
        rfl
      · simp only [ht, if_false]
        obtain ⟨x, hx1, hx2⟩ := warn_sim m ho (if s.posixly ≠ some false then illoptchar c else gnuoptchar c) { s with place := s.place.next }
        rw [hx1]
        refine ⟨?_, ⟨hs.nargv, hs.optarg⟩, hbn _ rfl rfl rfl⟩
        have e : asText m { s with place := s.place.next } = { asText m s with place := t } := by simp [asText, ht1]
        rw [e] at hx2
        have ep : (if s.posixly ≠ some false then illoptchar c else gnuoptchar c) =
            if (asText m s).posixly ≠ some false then illoptchar c else gnuoptchar c := rfl
        rw [ep] at hx2
        rw [← hx2]
        rfl
  | some k =>
    have hk := hr3 k rfl
    simp only [Option.map_some]
    rw [isW_sim hk]
    dsimp only
    by_cases hw : longs.isSome = true ∧ c = 'W' ∧ (opts.drop k).tail.head? = some ';'
    · rw [decide_eq_true hw, if_pos hw, if_pos rfl, readChar_ok hv1]
      have hn := nul_iff H hv1
      rw [ht1] at hn ⊢
      dsimp only
      by_cases ht : t = []
      · rw [if_neg (not_not.2 (hn.2 ht)), if_neg (not_not.2 ht)]
        have e1 : (asText m s).optind = s.optind := rfl
        rw [e1]
        by_cases hge : s.optind + 1 ≥ nargc
        · rw [if_pos hge, if_pos hge]
          obtain ⟨x, hx1, hx2⟩ := warn_sim m ho (recargchar c) { s with place := emsg, optind := s.optind + 1 }
          rw [hx1, badArg_sim ho]
          refine ⟨?_, ⟨hs.nargv, hs.optarg⟩, placeOK_emsg H rfl⟩
          have e : asText m { s with place := emsg, optind := s.optind + 1 } =
              { asText m s with place := [], optind := s.optind + 1 } := by simp [asText, H.emsg.2]
          rw [e] at hx2
          rw [← hx2]
          rfl
        · rw [if_neg hge, if_neg hge]
          have e2 : (asText m s).nargv = s.nargv.map (strAt m) := rfl
          rw [e2, vecAt_sim]
          cases hv : vecAt s.nargv (s.optind + 1) with
          | error e => rfl
          | ok v =>
            cases v with
            | none => rfl
            | some v =>
              dsimp only [Except.map, Option.map_some]
              have hmem := hs.nargv _ (vecAt_mem hv)
              have hl := parseLong_sim H ho (longs.getD []) false longOnly (cs "-W ")
                (s := { s with place := v, optind := s.optind + 1 }) ⟨hs.nargv, hs.optarg⟩
                ⟨H.argv _ hmem, fun _ => ⟨H.argv _ hmem, v, hmem, rfl, Nat.le_refl _⟩⟩
              have e : asText m { s with place := v, optind := s.optind + 1 } =
                  { asText m s with place := strAt m v, optind := s.optind + 1, nargv := s.nargv.map (strAt m) } := rfl
              rw [e] at hl
              cases hpl : parseLongOptionsPtr m opts oo (longs.getD []) false longOnly (cs "-W ")
                  { s with place := v, optind := s.optind + 1 } with
              | error er =>
                rw [hpl] at hl
                dsimp only at hl
                rw [hl]
                rfl
              | ok rs =>
                obtain ⟨r, s'⟩ := rs
                rw [hpl] at hl
                dsimp only at hl
                rw [hl.1]
                refine ⟨?_, ⟨hl.2.1.nargv, hl.2.1.optarg⟩, placeOK_emsg H rfl⟩
                simp [asText, H.emsg.2]
      · rw [if_pos (fun h => ht (hn.1 h)), if_pos ht]
        have hl := parseLong_sim H ho (longs.getD []) false longOnly (cs "-W ")
          (s := { s with place := s.place.next }) ⟨hs.nargv, hs.optarg⟩
          (hbn { s with place := s.place.next } rfl rfl rfl).1
        have e : asText m { s with place := s.place.next } = { asText m s with place := t } := by simp [asText, ht1]
        rw [e] at hl
        cases hpl : parseLongOptionsPtr m opts oo (longs.getD []) false longOnly (cs "-W ") { s with place := s.place.next } with
        | error er =>
          rw [hpl] at hl
          dsimp only at hl
          rw [hl]
          rfl
        | ok rs =>
          obtain ⟨r, s'⟩ := rs
          rw [hpl] at hl
          dsimp only at hl
          rw [hl.1]
          refine ⟨?_, ⟨hl.2.1.nargv, hl.2.1.optarg⟩, placeOK_emsg H rfl⟩
          simp [asText, H.emsg.2]
    · rw [decide_eq_false hw, if_neg hw, if_neg (by simp)]
      have e : (opts.drop k).tail = opts.drop (k + 1) := by simp
      have e' : (opts.drop (k + 1)).tail = opts.drop (k + 2) := by simp
      rw [readAt_drop (show k + 1 ≤ _ from hk), e, e']
      have hd := headD_iff (opts.drop (k + 1)) (c := ':') (by decide)
      dsimp only
      by_cases hcol : (opts.drop (k + 1)).head? = some ':'
      · rw [if_neg (not_not.2 (hd.2 hcol)), if_neg (not_not.2 hcol), readChar_ok hv1]
        have hn := nul_iff H hv1
        rw [ht1] at hn ⊢
        dsimp only
        by_cases ht : t = []
        · rw [if_neg (not_not.2 (hn.2 ht)), if_neg (not_not.2 ht)]
          have hk2 : k + 2 ≤ opts.length := by
            rcases Nat.lt_or_ge (k + 1) opts.length with h | h
            · exact h
            · rw [List.drop_eq_nil_of_le h] at hcol; cases hcol
          rw [readAt_drop hk2]
          have hd2 := headD_iff (opts.drop (k + 2)) (c := ':') (by decide)
          dsimp only
          have e1 : (asText m s).optind = s.optind := rfl
          rw [e1]
          by_cases hcol2 : (opts.drop (k + 2)).head? = some ':'
          · rw [if_neg (not_not.2 (hd2.2 hcol2)), if_neg (not_not.2 hcol2)]
            refine ⟨?_, ⟨hs.nargv, fun p h => by cases h⟩, placeOK_emsg H rfl⟩
            simp [asText, H.emsg.2]
          · rw [if_pos (fun h => hcol2 (hd2.1 h)), if_pos hcol2]
            by_cases hge : s.optind + 1 ≥ nargc
            · rw [if_pos hge, if_pos hge]
              obtain ⟨x, hx1, hx2⟩ := warn_sim m ho (recargchar c)
                { s with place := emsg, optind := s.optind + 1, optarg := none }
              rw [hx1, badArg_sim ho]
              refine ⟨?_, ⟨hs.nargv, fun p h => by cases h⟩, placeOK_emsg H rfl⟩
              have e : asText m { s with place := emsg, optind := s.optind + 1, optarg := none } =
                  { asText m s with place := [], optind := s.optind + 1, optarg := none } := by simp [asText, H.emsg.2]
              rw [e] at hx2
              rw [← hx2]
              rfl
            · rw [if_neg hge, if_neg hge]
              have e2 : (asText m s).nargv = s.nargv.map (strAt m) := rfl
              rw [e2, vecAt_sim]
              cases hv : vecAt s.nargv (s.optind + 1) with
              | error e => rfl
              | ok v =>
                refine ⟨?_, ⟨hs.nargv, fun p h => ?_⟩, placeOK_emsg H rfl⟩
                · simp [asText, H.emsg.2, Except.map]
                · cases h
                  have hmem := hs.nargv _ (vecAt_mem hv)
                  exact ⟨H.argv _ hmem, _, hmem, rfl, Nat.le_refl _⟩
        · rw [if_pos (fun h => ht (hn.1 h)), if_pos ht]
          refine ⟨?_, ⟨hs.nargv, fun p h => ?_⟩, placeOK_emsg H rfl⟩
          · simp [asText, H.emsg.2, ht1]
          · cases h
            exact hw1
      · rw [if_pos (fun h => hcol (hd.1 h)), if_pos hcol, step_sim H hv1, ht1]
        dsimp only
        by_cases ht : t = []
        · rw [if_pos ht, if_pos ht]
          refine ⟨?_, ⟨hs.nargv, hs.optarg⟩, hbe _ rfl ht⟩
          simp [asText, ht1]
        · rw [if_neg ht, if_neg ht]
          refine ⟨?_, ⟨hs.nargv, hs.optarg⟩, hbn _ rfl rfl rfl⟩
          simp [asText, ht1]

theorem tryLong_sim {longOnly : Bool} {s : PtrState} (hp : PlaceOK m argv s) (hb : Behind m s)
    (hne : strAt m s.place ≠ []) :
    tryLongPtr m longOnly s = .ok (decide ((strAt m s.place).head? = some '-') || longOnly) := by
  obtain ⟨p, h1, h2⟩ := hb hne
  unfold tryLongPtr
  have hv : vecAt s.nargv s.optind = .ok (some p) := by
    unfold vecAt
    have hlt : s.optind < s.nargv.length := by
      rcases Nat.lt_or_ge s.optind s.nargv.length with h | h
      · exact h
      · rw [List.getElem?_eq_none h] at h1; cases h1
    rw [if_pos hlt, h1]
  simp only [hv, bind, Except.bind]
  rw [if_neg (by rintro ⟨⟩; omega), readChar_ok hp.valid]
  have hd := headD_iff (strAt m s.place) (c := '-') (by decide)
  simp only [hd]

theorem shortToo_sim {opts : CStr} {oo : Nat} (ho : oo ≤ opts.length) {p : CPtr} (hp : Valid m p) {c : Char} {t : CStr}
    (h : strAt m p = c :: t) (hc : c ≠ '\x00') :
    shortTooPtr m opts oo p = .ok (c != ':' && (strchr (opts.drop oo) c).isSome) := by
  unfold shortTooPtr
  rw [readChar_cons hp h]
  obtain ⟨r, h1, h2, -⟩ := strchrAt_ok ho hc
  simp only [bind, Except.bind]
  by_cases hcol : c = ':'
  · simp [hcol]
  · rw [if_neg hcol, h1, h2]
    cases r <;> simp [hcol]

theorem getoptInternal_sim (H : Strings m emsg argv) (env : Bool) (nargc : Nat) (opts : CStr)
    (longs : Option (List LongOpt)) (permute0 longOnly : Bool) {s : PtrState} (hn : ∀ p ∈ s.nargv, p ∈ argv)
    (hp : s.optreset = false → s.optind ≠ 0 → PlaceOK m argv s ∧ Behind m s) :
    SameRes m argv (getoptInternalPtr m emsg env nargc opts longs permute0 longOnly s)
      (getoptInternal env nargc opts longs permute0 longOnly (asText m s)) := by
  unfold getoptInternalPtr getoptInternal
  have e1 : (asText m s).optind = s.optind := rfl
  rw [readAt_drop (Nat.zero_le _), List.drop_zero]
  have hm := headD_iff opts (c := '-') (by decide)
  have hpl := headD_iff opts (c := '+') (by decide)
  simp only [bind, Except.bind, hm, hpl, e1]
  generalize hs1 : (if s.optind = 0 then ({ s with optind := 1, optreset := true } : PtrState) else s) = s1
  have hg1 : (if s.optind = 0 then ({ asText m s with optind := 1, optreset := true } : GState) else asText m s) =
      asText m s1 := by
    rw [← hs1]; split <;> rfl
  have hn1 : ∀ p ∈ s1.nargv, p ∈ argv := by rw [← hs1]; split <;> exact hn
  have hp1 : s1.optreset = false → PlaceOK m argv s1 ∧ Behind m s1 := by
    rw [← hs1]
    split
    · intro h; cases h
    · rename_i h0; intro h; exact hp h h0
  rw [hg1]
  clear hg1 hs1 hn hp e1
  have e2 : (asText m s1).posixly = s1.posixly := rfl
  have e3 : (asText m s1).optreset = s1.optreset := rfl
  rw [e2, e3]
  generalize hpx : (if s1.posixly = none ∨ s1.optreset = true then env else s1.posixly.getD env) = posix
  generalize hperm : (if opts.head? = some '-' then permute0 else
    if posix = true ∨ opts.head? = some '+' then false else permute0) = permute
  generalize hall : decide (opts.head? = some '-') = allargs
  generalize hs2 : (if s1.optreset = true then
      ({ s1 with posixly := some posix, optarg := none, nonoptStart := none, nonoptEnd := none } : PtrState)
    else { s1 with posixly := some posix, optarg := none }) = s2
  have hg2 : (if s1.optreset = true then
      ({ asText m s1 with optreset := s1.optreset, posixly := some posix, optarg := none, nonoptStart := none, nonoptEnd := none } : GState)
    else { asText m s1 with optreset := s1.optreset, posixly := some posix, optarg := none }) = asText m s2 := by
    rw [← hs2]; split <;> rfl
  rw [hg2]
  have hs : ArgsOK m argv s2 := by
    rw [← hs2]; split <;> exact ⟨hn1, fun p h => by cases h⟩
  have hp2 : s2.optreset = false → PlaceOK m argv s2 ∧ Behind m s2 := by
    rw [← hs2]
    split
    · intro h; exact ⟨⟨(hp1 h).1.valid, (hp1 h).1.within⟩, (hp1 h).2⟩
    · intro h; exact ⟨⟨(hp1 h).1.valid, (hp1 h).1.within⟩, (hp1 h).2⟩
  generalize hoo : (if opts.head? = some '+' ∨ opts.head? = some '-' then 1 else 0) = oo
  have hopt : (if opts.head? = some '+' ∨ opts.head? = some '-' then opts.tail else opts) = opts.drop oo := by
    rw [← hoo]; split <;> simp
  have ho : oo ≤ opts.length := by
    rw [← hoo]
    split
    · rename_i h
      cases opts with
      | nil => simp at h
      | cons c t => simp
    · exact Nat.zero_le _
  rw [hopt]
  have hst := scanStart_sim H nargc permute allargs hs hp2
  clear hopt hoo hp1 hn1 hg2 hs2 hall hperm hpx e2 e3 hm hpl
  cases hsp : scanStartPtr m emsg nargc permute allargs s2 with
  | error e =>
    rw [hsp] at hst
    have hst : _ = _ := hst
    rw [hst]
    rfl
  | ok st =>
    rw [hsp] at hst
    cases st with
    | ret code s3 =>
      obtain ⟨h1, h2⟩ := hst
      rw [h1]
      exact ⟨rfl, h2⟩
    | go s3 =>
      obtain ⟨h1, h2, h3, h4, h5⟩ := hst
      rw [h1]
      dsimp only
      cases longs with
      | none => exact shortPart_sim H nargc ho none longOnly h2 h3 h4 h5
      | some ls =>
        dsimp only
        rw [tryLong_sim h3 h4 h5]
        dsimp only
        have hq : (asText m s3).place = strAt m s3.place := rfl
        have hd := headD_iff (strAt m s3.place) (c := '-') (by decide)
        rw [readChar_ok h3.valid]
        dsimp only
        rw [hq]
        obtain ⟨c, t, htx⟩ : ∃ c t, strAt m s3.place = c :: t := by
          cases h : strAt m s3.place with
          | nil => exact absurd h h5
          | cons c t => exact ⟨c, t, rfl⟩
        have hc : c ≠ '\x00' := by
          have := text_noNul H.noNul h3.valid
          rw [htx] at this
          simp only [List.mem_cons, not_or] at this
          exact Ne.symm this.1
        by_cases hdash : (strAt m s3.place).head? = some '-'
        · rw [decide_eq_true hdash, Bool.true_or, if_pos rfl, if_pos (hd.2 hdash), if_pos hdash]
          obtain ⟨hv1, ht1⟩ := next_ok h3.valid htx
          have hw1 := within_next (h3.within h5) htx
          have htl : (strAt m s3.place).tail = t := by rw [htx]; rfl
          have hn := nul_iff H hv1
          rw [readChar_ok hv1, htl]
          dsimp only
          rw [ht1] at hn ⊢
          have hB : ∀ s' : PtrState, s'.place = s3.place.next → s'.nargv = s3.nargv → s'.optind = s3.optind →
              PlaceOK m argv s' ∧ Behind m s' := by
            intro s' e1 e2 e3
            refine ⟨⟨e1 ▸ hv1, fun _ => e1 ▸ hw1⟩, fun _ => ?_⟩
            obtain ⟨p, hp1, hp2⟩ := h4 h5
            refine ⟨p, by rw [e2, e3, hp1], ?_⟩
            rw [e1]
            exact Nat.lt_succ_of_lt hp2
          have e : asText m { s3 with place := s3.place.next } = { asText m s3 with place := t } := by simp [asText, ht1]
          by_cases ht : t = []
          · rw [if_pos (hn.2 ht), if_pos ht, badArg_sim ho]
            refine ⟨?_, ⟨h2.nargv, h2.optarg⟩, hB _ rfl rfl rfl⟩
            rw [e]
          · rw [if_neg (fun h => ht (hn.1 h)), if_neg ht]
            have hl := parseLong_sim H ho ls false longOnly (cs "--")
              (s := { s3 with place := s3.place.next }) ⟨h2.nargv, h2.optarg⟩
              (hB { s3 with place := s3.place.next } rfl rfl rfl).1
            rw [e] at hl
            cases hpl : parseLongOptionsPtr m opts oo ls false longOnly (cs "--") { s3 with place := s3.place.next } with
            | error er =>
              rw [hpl] at hl
              dsimp only at hl
              rw [hl]
              rfl
            | ok rs =>
              obtain ⟨r, s4⟩ := rs
              rw [hpl] at hl
              dsimp only at hl
              obtain ⟨l1, l2, l3⟩ := hl
              rw [l1]
              dsimp only
              by_cases hr : r = -1
              · rw [if_neg (not_not.2 hr), if_neg (not_not.2 hr)]
                have hs4 := l3 hr
                obtain ⟨q1, q2⟩ := hB s4 (by rw [hs4]) (by rw [hs4]) (by rw [hs4])
                exact shortPart_sim H nargc ho (some ls) longOnly l2 q1 q2 (by rw [hs4]; show strAt m s3.place.next ≠ []; rw [ht1]; exact ht)
              · rw [if_pos hr, if_pos hr]
                refine ⟨?_, ⟨l2.nargv, l2.optarg⟩, placeOK_emsg H rfl⟩
                simp [asText, H.emsg.2]
        · rw [decide_eq_false hdash, Bool.false_or, if_neg hdash, if_neg (fun h => hdash (hd.1 h))]
          cases longOnly with
          | false =>
            simp only [Bool.false_eq_true, if_false]
            exact shortPart_sim H nargc ho (some ls) false h2 h3 h4 h5
          | true =>
            simp only [if_true]
            rw [shortToo_sim ho h3.valid htx hc]
            have hh : (strAt m s3.place).head? = some c := by rw [htx]; rfl
            rw [hh]
            dsimp only
            have hl := parseLong_sim H ho ls (c != ':' && (strchr (opts.drop oo) c).isSome) true (cs "-") h2 h3
            cases hpl : parseLongOptionsPtr m opts oo ls (c != ':' && (strchr (opts.drop oo) c).isSome) true (cs "-") s3 with
            | error er =>
              rw [hpl] at hl
              dsimp only at hl
              rw [hl]
              rfl
            | ok rs =>
              obtain ⟨r, s4⟩ := rs
              rw [hpl] at hl
              dsimp only at hl
              obtain ⟨l1, l2, l3⟩ := hl
              rw [l1]
              dsimp only
              by_cases hr : r = -1
              · rw [if_neg (not_not.2 hr), if_neg (not_not.2 hr)]
                have hs4 := l3 hr
                rw [hs4]
                exact shortPart_sim H nargc ho (some ls) true h2 h3 h4 h5
              · rw [if_pos hr, if_pos hr]
                refine ⟨?_, ⟨l2.nargv, l2.optarg⟩, placeOK_emsg H rfl⟩
                simp [asText, H.emsg.2]

end sims

end Argtable
