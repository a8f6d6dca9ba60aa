import Verif.Spec.Integer
import Verif.Proofs.Live
import Mathlib.Tactic.IntervalCases
import Mathlib.Data.List.Induction
/-!
# Lemmas on the scanning of integers
-/

namespace Argtable

open Spec

/-! ## Digits -/

theorem digitVal_of {c : Char} {d : Nat} (h : DigitIs c d) : digitVal c = some d := by
  by_cases hd : d < 16
  · unfold DigitIs at h
    interval_cases d <;> (rcases h with h | h <;> (cases h; rfl))
  · exfalso
    unfold DigitIs at h
    rcases h with h | h
    · rw [List.getElem?_eq_none (by change 16 ≤ d; omega)] at h; cases h
    · rw [List.getElem?_eq_none (by change 16 ≤ d; omega)] at h; cases h

theorem char_eq_ofNat {c : Char} {n : Nat} (h : c.toNat = n) : c = Char.ofNat n := by
  rw [← h]; exact (Char.ofNat_toNat c).symm

theorem digitIs_of {c : Char} {d : Nat} (h : digitVal c = some d) (hd : d < 16) : DigitIs c d := by
  unfold digitVal at h
  split at h
  · rename_i hc
    have h1 : 48 ≤ c.toNat := hc.1
    have h2 : c.toNat ≤ 57 := hc.2
    cases h
    have : c.toNat = 48 + (c.toNat - 48) := by omega
    generalize hk : c.toNat - 48 = k at *
    rw [char_eq_ofNat this]
    have : k ≤ 9 := by omega
    interval_cases k <;> exact Or.inl rfl
  · split at h
    · rename_i hc
      have h1 : 97 ≤ c.toNat := hc.1
      have h2 : c.toNat ≤ 122 := hc.2
      cases h
      have : c.toNat = 87 + (c.toNat - 87) := by omega
      generalize hk : c.toNat - 87 = k at *
      rw [char_eq_ofNat this]
      have : 10 ≤ k := by omega
      interval_cases k <;> exact Or.inl rfl
    · split at h
      · rename_i hc
        have h1 : 65 ≤ c.toNat := hc.1
        have h2 : c.toNat ≤ 90 := hc.2
        cases h
        have : c.toNat = 55 + (c.toNat - 55) := by omega
        generalize hk : c.toNat - 55 = k at *
        rw [char_eq_ofNat this]
        have : 10 ≤ k := by omega
        interval_cases k <;> exact Or.inr rfl
      · cases h

theorem isBaseDigit_iff {base : Nat} (hb : base ≤ 16) (c : Char) :
    isBaseDigit base c = true ↔ ∃ d, DigitIs c d ∧ d < base := by
  unfold isBaseDigit
  constructor
  · intro h
    cases hv : digitVal c with
    | none => rw [hv] at h; cases h
    | some d =>
      rw [hv] at h
      have : d < base := of_decide_eq_true h
      exact ⟨d, digitIs_of hv (by omega), this⟩
  · rintro ⟨d, h, hd⟩
    rw [digitVal_of h]
    exact decide_eq_true hd

theorem numeral_all {base m : Nat} {ds : CStr} (h : Numeral base ds m) (hb : base ≤ 16) :
    ds ≠ [] ∧ (∀ c ∈ ds, isBaseDigit base c = true) ∧ digitsVal base ds = m := by
  induction h with
  | one c d h1 h2 =>
    refine ⟨by simp, ?_, ?_⟩
    · intro c' hc
      rw [List.mem_singleton.1 hc]
      exact (isBaseDigit_iff hb c).2 ⟨d, h1, h2⟩
    · simp [digitsVal, digitVal_of h1]
  | snoc ds n c d h0 h1 h2 ih =>
    obtain ⟨i1, i2, i3⟩ := ih
    refine ⟨by simp, ?_, ?_⟩
    · intro c' hc
      rcases List.mem_append.1 hc with hc | hc
      · exact i2 c' hc
      · rw [List.mem_singleton.1 hc]
        exact (isBaseDigit_iff hb c).2 ⟨d, h1, h2⟩
    · unfold digitsVal at i3 ⊢
      rw [List.foldl_append, i3]
      simp [digitVal_of h1]

theorem numeral_of {base : Nat} (hb : base ≤ 16) (ds : CStr) (hne : ds ≠ [])
    (h : ∀ c ∈ ds, isBaseDigit base c = true) : Numeral base ds (digitsVal base ds) := by
  induction ds using List.reverseRecOn with
  | nil => exact absurd rfl hne
  | append_singleton ds c ih =>
    obtain ⟨d, h1, h2⟩ := (isBaseDigit_iff hb c).1 (h c (by simp))
    by_cases he : ds = []
    · subst he
      have : digitsVal base ([] ++ [c]) = d := by simp [digitsVal, digitVal_of h1]
      rw [this]
      exact .one c d h1 h2
    · have hi := ih he fun c' hc => h c' (by simp [hc])
      have : digitsVal base (ds ++ [c]) = digitsVal base ds * base + d := by
        unfold digitsVal
        rw [List.foldl_append]
        simp [digitVal_of h1]
      rw [this]
      exact .snoc ds _ c d hi h1 h2

theorem digitsVal_append (base : Nat) (a b : CStr) : digitsVal base a ≤ digitsVal base (a ++ b) ∨ base = 0 := by
  by_cases h0 : base = 0
  · exact Or.inr h0
  left
  induction b using List.reverseRecOn with
  | nil => simp
  | append_singleton b c ih =>
    rw [← List.append_assoc]
    generalize a ++ b = x at ih ⊢
    unfold digitsVal at ih ⊢
    rw [List.foldl_append]
    simp only [List.foldl_cons, List.foldl_nil]
    have : x.foldl (fun v c => v * base + (digitVal c).getD 0) 0 * 1
        ≤ x.foldl (fun v c => v * base + (digitVal c).getD 0) 0 * base := Nat.mul_le_mul_left _ (by omega)
    omega

/-! ## Prefixes of a string -/

theorem takeWhile_append_stop {p : Char → Bool} {a b : CStr} (ha : ∀ c ∈ a, p c = true)
    (hb : ∀ c t, b = c :: t → p c = false) : (a ++ b).takeWhile p = a ∧ (a ++ b).dropWhile p = b := by
  induction a with
  | nil =>
    cases b with
    | nil => exact ⟨rfl, rfl⟩
    | cons c t =>
      have := hb c t rfl
      simp [this]
  | cons x a ih =>
    have hx := ha x (by simp)
    have := ih fun c hc => ha c (by simp [hc])
    simp [hx, this]

theorem takeWhile_split (p : Char → Bool) (s : CStr) : s = s.takeWhile p ++ s.dropWhile p ∧
    (∀ c ∈ s.takeWhile p, p c = true) ∧ (∀ c t, s.dropWhile p = c :: t → p c = false) := by
  induction s with
  | nil => simp
  | cons c s ih =>
    by_cases h : p c = true
    · obtain ⟨h1, h2, h3⟩ := ih
      simp only [List.takeWhile_cons, List.dropWhile_cons, h, if_true]
      refine ⟨by rw [List.cons_append, ← h1], ?_, h3⟩
      intro c' hc
      rcases List.mem_cons.1 hc with rfl | hc
      · exact h
      · exact h2 c' hc
    · have hf : p c = false := by simpa using h
      simp only [List.takeWhile_cons, List.dropWhile_cons, hf]
      refine ⟨by simp, by simp, ?_⟩
      intro c' t e
      cases e
      exact hf

/-- A character that can follow the white space before a number. -/
def NotSpaceHead (s : CStr) : Prop := ∀ c t, s = c :: t → isSpace c = false

theorem dropWhile_white {w s : CStr} (hw : White w) (hs : NotSpaceHead s) :
    (w ++ s).dropWhile isSpace = s :=
  (takeWhile_append_stop hw hs).2

theorem isSpace_of_digit {c : Char} {v : Nat} (h : digitVal c = some v) : isSpace c = false := by
  by_contra hs
  have hs : isSpace c = true := by simpa using hs
  unfold isSpace at hs
  simp only [Bool.or_eq_true, beq_iff_eq] at hs
  rcases hs with ((((rfl | rfl) | rfl) | rfl) | rfl) | rfl <;> exact absurd (show (none : Option Nat) = some v from h) (by simp)

theorem notSign_of_digit {c : Char} {v : Nat} (h : digitVal c = some v) : c ≠ '+' ∧ c ≠ '-' := by
  constructor <;> (rintro rfl; exact absurd (show (none : Option Nat) = some v from h) (by simp))

theorem digitVal_of_isBaseDigit {base : Nat} {c : Char} (h : isBaseDigit base c = true) :
    ∃ v, digitVal c = some v := by
  unfold isBaseDigit at h
  cases hv : digitVal c with
  | none => rw [hv] at h; cases h
  | some v => exact ⟨v, rfl⟩

/-- The string starts with a digit. -/
def DigitHead (s : CStr) : Prop := ∃ c t v, s = c :: t ∧ digitVal c = some v

theorem scanSign_of {sg s : CStr} {sign : Int} (h : Sign sg sign) (hs : DigitHead s) :
    scanSign (sg ++ s) = (sign, s) := by
  obtain ⟨c, t, v, rfl, hv⟩ := hs
  obtain ⟨n1, n2⟩ := notSign_of_digit hv
  cases h with
  | none =>
    unfold scanSign
    split
    · rename_i e; cases e; exact absurd rfl n1
    · rename_i e; cases e; exact absurd rfl n2
    · rfl
  | plus => rfl
  | minus => rfl

theorem sign_notSpace {sg s : CStr} {sign : Int} (h : Sign sg sign) (hs : DigitHead s) :
    NotSpaceHead (sg ++ s) := by
  obtain ⟨c, t, v, rfl, hv⟩ := hs
  intro c' t' e
  cases h <;> cases e
  · exact isSpace_of_digit hv
  · rfl
  · rfl

theorem sign_inv (s : CStr) : ∃ sg, s = sg ++ (scanSign s).2 ∧ Sign sg (scanSign s).1 := by
  unfold scanSign
  split
  · exact ⟨['+'], rfl, .plus⟩
  · exact ⟨['-'], rfl, .minus⟩
  · exact ⟨[], rfl, .none⟩

/-! ## strtol -/

theorem digitHead_of_numeral {base m : Nat} {ds : CStr} (h : Numeral base ds m) (hb : base ≤ 16) (r : CStr) :
    DigitHead (ds ++ r) := by
  obtain ⟨h1, h2, -⟩ := numeral_all h hb
  cases ds with
  | nil => exact absurd rfl h1
  | cons c t =>
    obtain ⟨v, hv⟩ := digitVal_of_isBaseDigit (h2 c (by simp))
    exact ⟨c, t ++ r, v, rfl, hv⟩

/-- An optional second prefix `0x`. -/
def Px (base : Nat) (px : CStr) : Prop := px = [] ∨ base = 16 ∧ (px = cs "0x" ∨ px = cs "0X")

theorem digitHead_px {base m : Nat} {ds px : CStr} (h : Numeral base ds m) (hb : base ≤ 16) (hpx : Px base px)
    (r : CStr) : DigitHead (px ++ (ds ++ r)) := by
  rcases hpx with rfl | ⟨-, rfl | rfl⟩
  · exact digitHead_of_numeral h hb r
  · exact ⟨'0', _, 0, rfl, rfl⟩
  · exact ⟨'0', _, 0, rfl, rfl⟩

theorem strtol_of {w sg px ds e : CStr} {sign : Int} {base m : Nat} (hb : base ≤ 16) (hw : White w)
    (hs : Sign sg sign) (hpx : Px base px) (hn : Numeral base ds m)
    (hx : skipHexPrefix base (px ++ (ds ++ e)) = ds ++ e)
    (he : ∀ c t, e = c :: t → isBaseDigit base c = false) :
    strtol (w ++ (sg ++ (px ++ (ds ++ e)))) base = (clampLong (sign * m), e) := by
  have hd := digitHead_px hn hb hpx e
  obtain ⟨h1, h2, h3⟩ := numeral_all hn hb
  unfold strtol
  rw [dropWhile_white hw (sign_notSpace hs hd), scanSign_of hs hd]
  dsimp only
  rw [hx, (takeWhile_append_stop h2 he).1, (takeWhile_append_stop h2 he).2, if_neg h1, h3]

theorem skip_inv (base : Nat) (s : CStr) : ∃ px, s = px ++ skipHexPrefix base s ∧ Px base px := by
  unfold skipHexPrefix
  split
  · rename_i x d t
    split
    · rename_i h
      obtain ⟨h1, h2, -⟩ := h
      refine ⟨['0', x], rfl, Or.inr ⟨h1, ?_⟩⟩
      rcases h2 with rfl | rfl
      · exact Or.inl rfl
      · exact Or.inr rfl
    · exact ⟨[], rfl, Or.inl rfl⟩
  · exact ⟨[], rfl, Or.inl rfl⟩

theorem strtol_inv {s e : CStr} {base : Nat} {v : Int} (hb : base ≤ 16) (h : strtol s base = (v, e))
    (hne : e ≠ s) : ∃ w sg px ds sign m, White w ∧ Sign sg sign ∧ Px base px ∧ Numeral base ds m ∧
      s = w ++ (sg ++ (px ++ (ds ++ e))) ∧ v = clampLong (sign * m) ∧
      (∀ c t, e = c :: t → isBaseDigit base c = false) := by
  unfold strtol at h
  dsimp only at h
  obtain ⟨a1, a2, -⟩ := takeWhile_split isSpace s
  obtain ⟨sg, b1, b2⟩ := sign_inv (s.dropWhile isSpace)
  obtain ⟨px, c1, c2⟩ := skip_inv base (scanSign (s.dropWhile isSpace)).2
  split at h
  · cases h; exact absurd rfl hne
  · rename_i hds
    obtain ⟨d1, d2, d3⟩ := takeWhile_split (isBaseDigit base) (skipHexPrefix base (scanSign (s.dropWhile isSpace)).2)
    have hv := congrArg Prod.fst h
    have hee := congrArg Prod.snd h
    dsimp only at hv hee
    rw [hee] at d1 d3
    refine ⟨_, sg, px, _, _, _, a2, b2, c2, numeral_of hb _ hds d2, ?_, hv.symm, d3⟩
    rw [← d1, ← c1, ← b1, ← a1]

end Argtable
