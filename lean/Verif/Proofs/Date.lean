import Verif.Spec.Date
import Verif.Proofs.DateSteady
import Verif.Proofs.Scan
import Mathlib.Data.List.Nodup
/-!
# `arg_strptime` implements the grammar of date formats
-/

namespace Argtable

open Spec

/-! ### numbers -/

/-- The number of digits of `q`, where 0 has none. -/
def width (q : Nat) : Nat := if q = 0 then 0 else (Nat.toDigits 10 q).length

theorem width_pos {q : Nat} (h : q ≠ 0) : width q = width (q / 10) + 1 := by
  unfold width
  rw [if_neg h]
  by_cases hlt : q < 10
  · rw [Nat.toDigits_of_lt_base hlt]
    have : q / 10 = 0 := by omega
    simp [this]
  · rw [if_neg (by omega)]
    have hm : q % 10 < 10 := by omega
    have := Nat.toDigits_append_toDigits (b := 10) (n := q / 10) (d := q % 10) (by omega) (by omega) hm
    rw [Nat.div_add_mod] at this
    rw [← this, Nat.toDigits_of_lt_base hm]
    simp

theorem isDigit_iff (c : Char) : isDigit c = isBaseDigit 10 c := by
  unfold isDigit isBaseDigit digitVal
  by_cases h : '0' ≤ c ∧ c ≤ '9'
  · have h2 : c.toNat ≤ 57 := h.2
    simp only [h, and_self, if_true, decide_true, Bool.and_self]
    symm
    rw [decide_eq_true_iff]
    omega
  · have hf : (decide ('0' ≤ c) && decide (c ≤ '9')) = false := by
      rw [Bool.and_eq_false_iff]
      by_cases h1 : '0' ≤ c
      · exact Or.inr (decide_eq_false fun h2 => h ⟨h1, h2⟩)
      · exact Or.inl (decide_eq_false h1)
    rw [hf, if_neg h]
    by_cases ha : 'a' ≤ c ∧ c ≤ 'z'
    · have : 97 ≤ c.toNat := ha.1
      simp [ha]; omega
    · by_cases hb : 'A' ≤ c ∧ c ≤ 'Z'
      · have : 65 ≤ c.toNat := hb.1
        simp [ha, hb]; omega
      · simp [ha, hb]

theorem digitVal_isDigit {c : Char} (h : isDigit c = true) : digitVal c = some (c.toNat - 48) := by
  unfold isDigit at h
  rw [Bool.and_eq_true, decide_eq_true_iff, decide_eq_true_iff] at h
  unfold digitVal
  rw [if_pos h]

/-- The value of digits read after the number `r`. -/
def valFrom (r : Nat) (w : CStr) : Nat := w.foldl (fun v c => v * 10 + (c.toNat - 48)) r

theorem valFrom_cons (r : Nat) (c : Char) (w : CStr) : valFrom r (c :: w) = valFrom (r * 10 + (c.toNat - 48)) w := by
  unfold valFrom; rw [List.foldl_cons]

theorem valFrom_ge (w : CStr) : ∀ r, r ≤ valFrom r w := by
  induction w with
  | nil => intro r; exact Nat.le_refl _
  | cons c w ih => intro r; rw [valFrom_cons]; have := ih (r * 10 + (c.toNat - 48)); omega

theorem numeral_iff (w : CStr) (n : Nat) :
    Numeral 10 w n ↔ w ≠ [] ∧ (∀ c ∈ w, isDigit c = true) ∧ n = valFrom 0 w := by
  have hv : ∀ (w : CStr) r, (∀ c ∈ w, isDigit c = true) →
      w.foldl (fun v c => v * 10 + (digitVal c).getD 0) r = valFrom r w := by
    intro w
    induction w with
    | nil => intro r _; rfl
    | cons c w ih =>
      intro r h
      rw [List.foldl_cons, digitVal_isDigit (h c (by simp)), valFrom_cons]
      exact ih _ fun c' hc => h c' (by simp [hc])
  constructor
  · intro h
    obtain ⟨h1, h2, h3⟩ := numeral_all h (by omega)
    have h2' : ∀ c ∈ w, isDigit c = true := fun c hc => by rw [isDigit_iff]; exact h2 c hc
    exact ⟨h1, h2', by rw [← hv w 0 h2']; exact h3.symm⟩
  · rintro ⟨h1, h2, rfl⟩
    have := numeral_of (base := 10) (by omega) w h1 fun c hc => by rw [← isDigit_iff]; exact h2 c hc
    rw [← hv w 0 h2]
    exact this

theorem convLoop_inv (hi : Nat) (s : CStr) : ∀ r q, ∃ w, s = w ++ (convLoop hi r q s).2 ∧
    (∀ c ∈ w, isDigit c = true) ∧ (convLoop hi r q s).1 = valFrom r w ∧ w.length ≤ width q ∧
    (w.length = width q ∨ hi < (convLoop hi r q s).1 * 10 ∨ Stops isDigit (convLoop hi r q s).2) := by
  induction s with
  | nil =>
    intro r q
    exact ⟨[], rfl, by simp, rfl, by simp, Or.inr (Or.inr fun c t h => by cases h)⟩
  | cons c s ih =>
    intro r q
    rw [convLoop]
    split
    · rename_i hc
      obtain ⟨w, h1, h2, h3, h4, h5⟩ := ih (r * 10 + (c.toNat - 48)) (q / 10)
      refine ⟨c :: w, by rw [List.cons_append, ← h1], ?_, ?_, ?_, ?_⟩
      · intro c' hc'
        rcases List.mem_cons.1 hc' with rfl | hc'
        · exact hc.2.2
        · exact h2 c' hc'
      · rw [valFrom_cons]; exact h3
      · rw [width_pos hc.2.1, List.length_cons]; omega
      · rw [width_pos hc.2.1, List.length_cons]
        rcases h5 with h5 | h5
        · left; omega
        · exact Or.inr h5
    · rename_i hc
      refine ⟨[], rfl, by simp, rfl, by simp, ?_⟩
      by_cases h1 : r * 10 ≤ hi
      · by_cases h2 : q = 0
        · left; simp [width, h2]
        · right; right
          intro c' t h
          cases h
          cases hd : isDigit c with
          | false => rfl
          | true => exact absurd ⟨h1, h2, hd⟩ hc
      · right; left; dsimp only; omega

theorem convLoop_of (hi : Nat) (w : CStr) : ∀ r q s', (∀ c ∈ w, isDigit c = true) → valFrom r w ≤ hi →
    w.length ≤ width q → (w.length = width q ∨ hi < valFrom r w * 10 ∨ Stops isDigit s') →
    convLoop hi r q (w ++ s') = (valFrom r w, s') := by
  induction w with
  | nil =>
    intro r q s' _ _ _ h
    cases s' with
    | nil => rfl
    | cons c s =>
      rw [List.nil_append, convLoop, if_neg]
      · rfl
      · rintro ⟨h1, h2, h3⟩
        rcases h with h | h | h
        · rw [width_pos h2] at h; simp at h
        · change hi < r * 10 at h; omega
        · rw [h c s rfl] at h3; cases h3
  | cons c w ih =>
    intro r q s' h1 h2 h3 h4
    have hq : q ≠ 0 := by rintro rfl; simp [width] at h3
    have hge := valFrom_ge w (r * 10 + (c.toNat - 48))
    rw [valFrom_cons] at h2 h4 ⊢
    rw [width_pos hq, List.length_cons] at h3 h4
    rw [List.cons_append, convLoop, if_pos ⟨by omega, hq, h1 c (by simp)⟩]
    exact ih _ _ _ (fun c' hc => h1 c' (by simp [hc])) h2 (by omega) (by
      rcases h4 with h4 | h4
      · left; omega
      · exact Or.inr h4)

theorem convNum_iff {lo hi : Nat} (hpos : hi ≠ 0) (s : CStr) (n : Nat) (s' : CStr) :
    convNum s lo hi = some (n, s') ↔ Number lo hi s n s' := by
  have hwid : (Nat.toDigits 10 hi).length = width (hi / 10) + 1 := by
    rw [← width_pos hpos]; unfold width; rw [if_neg hpos]
  unfold Number
  rw [hwid]
  constructor
  · intro h
    cases s with
    | nil => cases h
    | cons c s =>
      rw [convNum] at h
      split at h
      · cases h
      · rename_i hd
        have hd : isDigit c = true := by simpa using hd
        obtain ⟨w, h1, h2, h3, h4, h5⟩ := convLoop_inv hi s (c.toNat - 48) (hi / 10)
        dsimp only at h
        split at h
        · cases h
        · rename_i hr
          cases h
          refine ⟨c :: w, by rw [List.cons_append, ← h1], ?_, by omega, by omega, ?_, ?_⟩
          · rw [numeral_iff]
            refine ⟨by simp, ?_, ?_⟩
            · intro c' hc'
              rcases List.mem_cons.1 hc' with rfl | hc'
              · exact hd
              · exact h2 c' hc'
            · rw [valFrom_cons, Nat.zero_mul, Nat.zero_add]; exact h3
          · rw [List.length_cons]; omega
          · rw [List.length_cons]
            rcases h5 with h5 | h5
            · left; omega
            · exact Or.inr h5
  · rintro ⟨w, rfl, hw, h1, h2, h3, h4⟩
    obtain ⟨hne, hd, rfl⟩ := (numeral_iff w n).1 hw
    cases w with
    | nil => exact absurd rfl hne
    | cons c w =>
      rw [valFrom_cons, Nat.zero_mul, Nat.zero_add] at h1 h2 h4 ⊢
      rw [List.length_cons] at h3 h4
      rw [List.cons_append, convNum, if_neg (by simp [hd c (by simp)])]
      rw [convLoop_of hi w _ _ s' (fun c' hc => hd c' (by simp [hc])) h2 (by omega) (by
        rcases h4 with h4 | h4
        · left; omega
        · exact Or.inr h4)]
      dsimp only
      rw [if_neg (by omega)]

/-! ### white space -/

theorem skipWhite_iff (s s' : CStr) : s.dropWhile isSpace = s' ↔ SkipWhite s s' := by
  constructor
  · rintro rfl
    obtain ⟨h1, h2, h3⟩ := takeWhile_split isSpace s
    exact ⟨s.takeWhile isSpace, h1, h2, h3⟩
  · rintro ⟨w, rfl, hw, hs⟩
    exact dropWhile_white hw hs

/-! ### names -/

theorem sameText_nil {a : CStr} : SameText a [] ↔ a = [] := by
  unfold SameText; simp

theorem sameText_cons {a : CStr} {c : Char} {b : CStr} : SameText a (c :: b) ↔
    ∃ d t, a = d :: t ∧ toLower d = toLower c ∧ SameText t b := by
  unfold SameText
  cases a with
  | nil => simp
  | cons d t => simp

theorem sameText_length {a b : CStr} (h : SameText a b) : a.length = b.length := by
  have := congrArg List.length h; simpa using this

theorem sameText_take {a b : CStr} (h : SameText a b) (n : Nat) : SameText (a.take n) (b.take n) := by
  unfold SameText at *
  rw [List.map_take, List.map_take, h]

/-- `s` starts with `f`. -/
def Starts (f s : CStr) : Prop := ∃ w t, s = w ++ t ∧ SameText w f

theorem strncasecmpEq_iff (f : CStr) : ∀ s, strncasecmpEq f s f.length = true ↔ Starts f s := by
  induction f with
  | nil => intro s; simp only [List.length_nil, strncasecmpEq, true_iff]; exact ⟨[], s, rfl, rfl⟩
  | cons c f ih =>
    intro s
    cases s with
    | nil =>
      simp only [List.length_cons, strncasecmpEq, Bool.false_eq_true, false_iff]
      rintro ⟨w, t, h, hs⟩
      obtain ⟨d, w', rfl, _⟩ := sameText_cons.1 hs
      cases h
    | cons d s =>
      rw [List.length_cons, strncasecmpEq]
      split
      · rename_i hcd
        rw [ih s]
        constructor
        · rintro ⟨w, t, rfl, hw⟩
          exact ⟨d :: w, t, rfl, sameText_cons.2 ⟨d, w, rfl, hcd.symm, hw⟩⟩
        · rintro ⟨w, t, h, hw⟩
          obtain ⟨d', w', rfl, hd, hw'⟩ := sameText_cons.1 hw
          obtain ⟨_, h2⟩ := List.cons.inj h
          exact ⟨w', t, h2, hw'⟩
      · rename_i hcd
        simp only [Bool.false_eq_true, false_iff]
        rintro ⟨w, t, h, hw⟩
        obtain ⟨d', w', rfl, hd, hw'⟩ := sameText_cons.1 hw
        obtain ⟨h1, _⟩ := List.cons.inj h
        exact hcd (by rw [h1, hd])

theorem findName_some {s : CStr} (full : List CStr) : ∀ (k i len : Nat),
    findName s full (full.map (List.take 3)) k = some (i, len) →
    ∃ name, k ≤ i ∧ full[i - k]? = some name ∧ (Starts name s ∧ len = name.length ∨
      ¬ Starts name s ∧ Starts (name.take 3) s ∧ len = (name.take 3).length) := by
  induction full with
  | nil => intro k i len h; cases h
  | cons f full ih =>
    intro k i len h
    rw [List.map_cons, findName] at h
    split at h
    · rename_i h1
      cases h
      exact ⟨f, Nat.le_refl _, by simp, Or.inl ⟨(strncasecmpEq_iff _ _).1 h1, rfl⟩⟩
    · rename_i h1
      split at h
      · rename_i h2
        cases h
        exact ⟨f, Nat.le_refl _, by simp, Or.inr ⟨fun h => h1 ((strncasecmpEq_iff _ _).2 h),
          (strncasecmpEq_iff _ _).1 h2, rfl⟩⟩
      · obtain ⟨name, g1, g2, g3⟩ := ih _ _ _ h
        refine ⟨name, by omega, ?_, g3⟩
        have : i - k = (i - (k + 1)) + 1 := by omega
        rw [this]
        simpa using g2

theorem findName_none {s : CStr} (full : List CStr) : ∀ (k : Nat),
    findName s full (full.map (List.take 3)) k = none →
    ∀ name ∈ full, ¬ Starts name s ∧ ¬ Starts (name.take 3) s := by
  induction full with
  | nil => intro k h name hn; cases hn
  | cons f full ih =>
    intro k h name hn
    rw [List.map_cons, findName] at h
    split at h
    · cases h
    · rename_i h1
      split at h
      · cases h
      · rename_i h2
        rcases List.mem_cons.1 hn with rfl | hn
        · exact ⟨fun h => h1 ((strncasecmpEq_iff _ _).2 h), fun h => h2 ((strncasecmpEq_iff _ _).2 h)⟩
        · exact ih _ h name hn

/-- A table of names that can be told apart by three letters. -/
def Distinct (names : List CStr) : Prop :=
  (names.map fun n => (n.take 3).map toLower).Nodup ∧ ∀ n ∈ names, 3 ≤ n.length

theorem named_take {names : List CStr} (hd : Distinct names) {s s' : CStr} {i : Nat} (h : Named names s i s') :
    (names.map fun n => (n.take 3).map toLower)[i]? = some ((s.take 3).map toLower) := by
  obtain ⟨name, w, h1, rfl, h3⟩ := h
  have hlen := hd.2 name (List.mem_of_getElem? h1)
  rw [List.getElem?_map, h1]
  simp only [Option.map_some, Option.some.injEq]
  rcases h3 with h3 | ⟨h3, _⟩
  · have hl := (sameText_length h3)
    rw [List.take_append_of_le_length (by omega)]
    exact (sameText_take h3 3).symm
  · have hl := (sameText_length h3)
    rw [List.length_take] at hl
    rw [List.take_append_of_le_length (by omega)]
    have : w.take 3 = w := List.take_of_length_le (by omega)
    rw [this]; exact h3.symm

theorem append_eq_drop {s w s' : CStr} (h : s = w ++ s') {n : Nat} (hn : w.length = n) : s' = s.drop n := by
  subst h; rw [← hn]; simp

theorem findName_iff {names : List CStr} (hd : Distinct names) (s : CStr) (i : Nat) (s' : CStr) :
    (∃ len, findName s names (names.map (List.take 3)) 0 = some (i, len) ∧ s.drop len = s') ↔
      Named names s i s' := by
  have fwd : ∀ i len, findName s names (names.map (List.take 3)) 0 = some (i, len) →
      Named names s i (s.drop len) := by
    intro i len h
    obtain ⟨name, _, h2, h3⟩ := findName_some names 0 i len h
    rw [Nat.sub_zero] at h2
    rcases h3 with ⟨⟨w, t, rfl, hw⟩, rfl⟩ | ⟨hn, ⟨w, t, rfl, hw⟩, rfl⟩
    · refine ⟨name, w, h2, ?_, Or.inl hw⟩
      rw [← append_eq_drop rfl (sameText_length hw)]
    · refine ⟨name, w, h2, ?_, Or.inr ⟨hw, ?_⟩⟩
      · rw [← append_eq_drop rfl (sameText_length hw)]
      · rintro ⟨v, t', h, hv⟩; exact hn ⟨v, t', h, hv⟩
  constructor
  · rintro ⟨len, h, rfl⟩
    exact fwd i len h
  · intro h
    cases hf : findName s names (names.map (List.take 3)) 0 with
    | none =>
      obtain ⟨name, w, h1, h2, h3⟩ := h
      have := findName_none names 0 hf name (List.mem_of_getElem? h1)
      rcases h3 with h3 | ⟨h3, _⟩
      · exact absurd ⟨w, s', h2, h3⟩ this.1
      · exact absurd ⟨w, s', h2, h3⟩ this.2
    | some p =>
      obtain ⟨j, len⟩ := p
      have hj := fwd j len hf
      have e1 := named_take hd h
      have e2 := named_take hd hj
      have hij : i = j := by
        have hlt : i < (names.map fun n => (n.take 3).map toLower).length := by
          rw [List.getElem?_eq_some_iff] at e1; exact e1.1
        exact (List.Nodup.getElem_inj_iff hd.1 (hi := hlt) (hj := by
          rw [List.getElem?_eq_some_iff] at e2; exact e2.1)).1 (by
            rw [List.getElem?_eq_getElem hlt] at e1
            rw [List.getElem?_eq_some_iff] at e2
            obtain ⟨_, e2⟩ := e2
            exact (Option.some.inj e1).trans e2.symm)
      subst hij
      refine ⟨len, rfl, ?_⟩
      obtain ⟨name, w, h1, h2, h3⟩ := h
      obtain ⟨name', w', g1, g2, g3⟩ := hj
      rw [h1] at g1; cases g1
      have key : w.length = w'.length := by
        rcases h3 with h3 | ⟨h3, h4⟩ <;> rcases g3 with g3 | ⟨g3, g4⟩
        · rw [(sameText_length h3), (sameText_length g3)]
        · exact absurd ⟨w, s', h2, h3⟩ g4
        · exact absurd ⟨w', s.drop len, g2, g3⟩ h4
        · rw [(sameText_length h3), (sameText_length g3)]
      rw [append_eq_drop h2 key, ← append_eq_drop g2 rfl]

theorem distinct_days : Distinct days := ⟨by decide +kernel, by decide +kernel⟩
theorem distinct_months : Distinct months := ⟨by decide +kernel, by decide +kernel⟩
theorem dayNames_eq : dayNames = days := rfl
theorem monNames_eq : monNames = months := rfl
theorem abdayNames_eq : abdayNames = days.map (List.take 3) := by decide +kernel
theorem abmonNames_eq : abmonNames = months.map (List.take 3) := by decide +kernel

theorem strcasecmpEq_iff (a : CStr) : ∀ s, strcasecmpEq a s = true ↔ SameText s a := by
  induction a with
  | nil => intro s; cases s <;> simp [strcasecmpEq, SameText]
  | cons c a ih =>
    intro s
    cases s with
    | nil => simp [strcasecmpEq, SameText]
    | cons d s =>
      rw [strcasecmpEq]
      split
      · rename_i h
        rw [ih]
        unfold SameText
        simp [h]
      · rename_i h
        simp only [Bool.false_eq_true, false_iff]
        unfold SameText
        simp only [List.map_cons, List.cons.injEq, not_and]
        intro h'
        exact absurd h'.symm h

end Argtable
