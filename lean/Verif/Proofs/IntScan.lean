import Verif.Proofs.Integer
/-!
# Lemmas on arg_int
-/

namespace Argtable

open Spec

theorem ne_of_suffix {a e : CStr} (ha : a ≠ []) : e ≠ a ++ e := by
  intro h
  have := congrArg List.length h
  rw [List.length_append] at this
  have : a.length ≠ 0 := by simpa using ha
  omega

theorem skip_of {base m : Nat} {px ds e : CStr} (hb : base ≤ 16) (hpx : Px base px) (hn : Numeral base ds m)
    (hx : 2 ≤ ds.length ∨ ∀ t, e ≠ 'x' :: t ∧ e ≠ 'X' :: t) :
    skipHexPrefix base (px ++ (ds ++ e)) = ds ++ e := by
  obtain ⟨h1, h2, -⟩ := numeral_all hn hb
  rcases hpx with rfl | ⟨rfl, h⟩
  · rw [List.nil_append]
    unfold skipHexPrefix
    split
    · rename_i x d t heq
      rw [if_neg]
      rintro ⟨rfl, hxx, -⟩
      match ds, h1, h2, hx, heq with
      | [c], _, _, hx, heq =>
        rw [List.singleton_append] at heq
        obtain ⟨rfl, rfl⟩ := List.cons.inj heq
        rcases hx with hx | hx
        · simp at hx
        · rcases hxx with rfl | rfl
          · exact (hx _).1 rfl
          · exact (hx _).2 rfl
      | c :: c' :: ds, _, h2, _, heq =>
        rw [List.cons_append, List.cons_append] at heq
        obtain ⟨-, heq⟩ := List.cons.inj heq
        obtain ⟨rfl, -⟩ := List.cons.inj heq
        have := h2 c' (by simp)
        rcases hxx with rfl | rfl
        · exact absurd this (by decide)
        · exact absurd this (by decide)
    · rfl
  · cases ds with
    | nil => exact absurd rfl h1
    | cons c ds =>
      have := h2 c (by simp)
      rcases h with rfl | rfl
      · change (if _ then _ else _) = _
        rw [if_pos ⟨rfl, Or.inl rfl, this⟩]; rfl
      · change (if _ then _ else _) = _
        rw [if_pos ⟨rfl, Or.inr rfl, this⟩]; rfl

/-! ## strtol0X -/

theorem strtol0X_prefix {w sg r e : CStr} {x X : Char} {sign v : Int} {base : Nat} (hw : White w)
    (hs : Sign sg sign) (hx : toUpper x = toUpper X) (hr : strtol r base = (v, e)) (hne : e ≠ r) :
    strtol0X (w ++ (sg ++ ('0' :: x :: r))) X base =
      if sign * v > LONG_MAX then .error (.ub "strtol0X: signed overflow in s * val")
      else .ok (sign * v, e) := by
  have hd : DigitHead ('0' :: x :: r) := ⟨'0', _, 0, rfl, rfl⟩
  unfold strtol0X
  rw [dropWhile_white hw (sign_notSpace hs hd), scanSign_of hs hd]
  change (if toUpper x ≠ toUpper X then _ else _) = _
  rw [if_neg (not_not.2 hx), hr]
  dsimp only
  rw [if_neg hne]

theorem strtol0X_miss {w sg t : CStr} {X : Char} {sign : Int} {base : Nat} (hw : White w)
    (hs : Sign sg sign) (hd : DigitHead t) (hx : ∀ x r, t = '0' :: x :: r → toUpper x ≠ toUpper X) :
    strtol0X (w ++ (sg ++ t)) X base = .ok (0, w ++ (sg ++ t)) := by
  unfold strtol0X
  rw [dropWhile_white hw (sign_notSpace hs hd), scanSign_of hs hd]
  dsimp only
  split
  · rename_i x r
    rw [if_pos (hx x r rfl)]
  · rfl

theorem strtol0X_inv {s : CStr} {X : Char} {base : Nat} {r : M (Int × CStr)} (h : strtol0X s X base = r)
    (hne : ∀ v, r ≠ .ok (v, s)) : ∃ w sg sign x q v e, White w ∧ Sign sg sign ∧ s = w ++ (sg ++ ('0' :: x :: q)) ∧
      toUpper x = toUpper X ∧ strtol q base = (v, e) ∧ e ≠ q ∧
      r = if sign * v > LONG_MAX then .error (.ub "strtol0X: signed overflow in s * val")
        else .ok (sign * v, e) := by
  obtain ⟨a1, a2, -⟩ := takeWhile_split isSpace s
  obtain ⟨sg, b1, b2⟩ := sign_inv (s.dropWhile isSpace)
  unfold strtol0X at h
  dsimp only at h
  split at h
  · rename_i x q heq
    split at h
    · exact absurd h.symm (hne 0)
    · rename_i hx
      split at h
      · exact absurd h.symm (hne 0)
      · rename_i he
        refine ⟨_, sg, _, x, q, (strtol q base).1, (strtol q base).2, a2, b2, ?_, by simpa using hx, rfl, he, h.symm⟩
        rw [← heq, ← b1, ← a1]
  · exact absurd h.symm (hne 0)

/-! ## The head of an integer text -/

/-- `s` is `e` preceded by a number of value `n`, in the given base. -/
inductive HeadOf (s e : CStr) : Int → Nat → Prop
  | dec (w sg ds : CStr) (sign : Int) (m : Nat) : White w → Sign sg sign → Numeral 10 ds m →
      s = w ++ (sg ++ (ds ++ e)) → HeadOf s e (sign * m) 10
  | pre (w sg pre mid ds : CStr) (sign sign2 : Int) (base m : Nat) : White w → Sign sg sign → Radix pre base →
      pre ≠ [] → Inner base mid sign2 → Numeral base ds m →
      s = w ++ (sg ++ (pre ++ (mid ++ (ds ++ e)))) → HeadOf s e (sign * sign2 * m) base

/-- `v` is `n`, or both are out of range on the same side. -/
def Approx (v n : Int) : Prop := v = n ∨ (v > INT_MAX ∧ n > INT_MAX) ∨ (v < INT_MIN ∧ n < INT_MIN)

theorem sign_cases {sg : CStr} {sign : Int} (h : Sign sg sign) : sign = 1 ∨ sign = -1 := by
  cases h <;> simp

theorem sign_minus {sg : CStr} (h : Sign sg (-1)) : sg = ['-'] := by
  cases h; rfl

theorem clamp_spec (v : Int) : (v > LONG_MAX ∧ clampLong v = LONG_MAX) ∨ (v < LONG_MIN ∧ clampLong v = LONG_MIN) ∨
    (LONG_MIN ≤ v ∧ v ≤ LONG_MAX ∧ clampLong v = v) := by
  unfold clampLong
  by_cases h1 : v > LONG_MAX
  · exact Or.inl ⟨h1, if_pos h1⟩
  · by_cases h2 : v < LONG_MIN
    · exact Or.inr (Or.inl ⟨h2, by rw [if_neg h1, if_pos h2]⟩)
    · exact Or.inr (Or.inr ⟨by omega, by omega, by rw [if_neg h1, if_neg h2]⟩)

theorem approx_clamp (sign : Int) (m : Nat) : Approx (clampLong (sign * m)) (sign * m) := by
  have hc := clamp_spec (sign * m)
  unfold Approx
  simp only [LONG_MAX, LONG_MIN, INT_MAX, INT_MIN] at *
  omega

theorem approx_signed {s1 : Int} (h1 : s1 = 1 ∨ s1 = -1) (s2 : Int) (m : Nat) :
    Approx (s1 * clampLong (s2 * m)) (s1 * s2 * m) := by
  rw [Int.mul_assoc]
  have hc := clamp_spec (s2 * m)
  unfold Approx
  simp only [LONG_MAX, LONG_MIN, INT_MAX, INT_MIN] at *
  rcases h1 with rfl | rfl <;> omega

theorem overflow_iff {s1 s2 : Int} (h1 : s1 = 1 ∨ s1 = -1) (h2 : s2 = 1 ∨ s2 = -1) (m : Nat) :
    s1 * clampLong (s2 * m) > LONG_MAX ↔ s1 = -1 ∧ s2 = -1 ∧ 2 ^ 63 ≤ m := by
  have hc := clamp_spec (s2 * m)
  simp only [LONG_MAX, LONG_MIN] at *
  rcases h1 with rfl | rfl <;> rcases h2 with rfl | rfl <;> omega

theorem toUpper_inv {x C : Char} (h : toUpper x = C) : x = C ∨ x = Char.ofNat (C.toNat + 32) := by
  unfold toUpper at h
  split at h
  · rename_i hx
    rw [Bool.and_eq_true] at hx
    have h1 : 97 ≤ x.toNat := of_decide_eq_true hx.1
    have h2 : x.toNat ≤ 122 := of_decide_eq_true hx.2
    right
    have hv : (Char.ofNat (x.toNat - 32)).toNat = x.toNat - 32 := by
      unfold Char.ofNat
      rw [dif_pos (Or.inl (by omega))]
      rfl
    rw [← h, hv]
    exact char_eq_ofNat (by omega)
  · exact Or.inl h

theorem radix_of {x X : Char} {base : Nat} (h : (X = 'X' ∧ base = 16) ∨ (X = 'O' ∧ base = 8) ∨ (X = 'B' ∧ base = 2))
    (hx : toUpper x = toUpper X) : Radix ['0', x] base := by
  rcases h with ⟨rfl, rfl⟩ | ⟨rfl, rfl⟩ | ⟨rfl, rfl⟩
  · exact .hex x ((toUpper_inv hx).symm.imp id id)
  · exact .oct x ((toUpper_inv hx).symm.imp id id)
  · exact .bin x ((toUpper_inv hx).symm.imp id id)

theorem base_le {X : Char} {base : Nat} (h : (X = 'X' ∧ base = 16) ∨ (X = 'O' ∧ base = 8) ∨ (X = 'B' ∧ base = 2)) :
    base ≤ 16 := by omega

/-- What a successful or faulting call of `strtol0X` has read. -/
theorem strtol0X_head {s : CStr} {X : Char} {base : Nat}
    (hX : (X = 'X' ∧ base = 16) ∨ (X = 'O' ∧ base = 8) ∨ (X = 'B' ∧ base = 2)) {r : M (Int × CStr)}
    (h : strtol0X s X base = r) (hne : ∀ v, r ≠ .ok (v, s)) :
    (∃ v e n, r = .ok (v, e) ∧ HeadOf s e n base ∧ Approx v n ∧ (∀ c t, e = c :: t → isBaseDigit base c = false)) ∨
    (r = .error (.ub "strtol0X: signed overflow in s * val") ∧ DoubleMinus s) := by
  obtain ⟨w, sg, sign, x, q, v, e, h1, h2, h3, h4, h5, h6, h7⟩ := strtol0X_inv h hne
  have hr := radix_of hX h4
  obtain ⟨w2, sg2, px, ds, sign2, m, i1, i2, i3, i4, i5, i6, i7⟩ := strtol_inv (base_le hX) h5 h6
  have hin : Inner base (w2 ++ sg2 ++ px) sign2 := .mk w2 sg2 px sign2 i1 i2 i3
  split at h7
  · rename_i hov
    rw [i6, overflow_iff (sign_cases h2) (sign_cases i2)] at hov
    obtain ⟨rfl, rfl, hm⟩ := hov
    right
    refine ⟨h7, ?_⟩
    have := DoubleMinus.mk w ['0', x] _ ds e base m h1 hr (by simp) hin i4 hm
    rw [h3, i5, sign_minus h2]
    simpa using this
  · left
    refine ⟨_, e, sign * sign2 * m, h7, ?_, by rw [i6]; exact approx_signed (sign_cases h2) _ m, i7⟩
    refine .pre w sg ['0', x] _ ds sign sign2 base m h1 h2 hr (by simp) hin i4 ?_
    rw [h3, i5]
    simp

theorem intConvert_head {s : CStr} {r : M (Option (Int × CStr))} (h : intConvert s = r) :
    (∃ v e n base, r = .ok (some (v, e)) ∧ HeadOf s e n base ∧ Approx v n ∧
      (∀ c t, e = c :: t → isBaseDigit base c = false)) ∨
    (r = .error (.ub "strtol0X: signed overflow in s * val") ∧ DoubleMinus s) ∨ r = .ok none := by
  have step : ∀ {X base} (k : M (Option (Int × CStr))),
      ((X = 'X' ∧ base = 16) ∨ (X = 'O' ∧ base = 8) ∨ (X = 'B' ∧ base = 2)) →
      (do let (val, e) ← strtol0X s X base; if e ≠ s then .ok (some (val, e)) else k) = r → k = r ∨
      (∃ v e n base, r = .ok (some (v, e)) ∧ HeadOf s e n base ∧ Approx v n ∧
        (∀ c t, e = c :: t → isBaseDigit base c = false)) ∨
      (r = .error (.ub "strtol0X: signed overflow in s * val") ∧ DoubleMinus s) := by
    intro X base k hX hr
    by_cases hh : ∃ v, strtol0X s X base = .ok (v, s)
    · obtain ⟨v, hv⟩ := hh
      rw [hv] at hr
      change (if _ then _ else _) = _ at hr
      rw [if_neg (by simp)] at hr
      exact Or.inl hr
    · right
      rcases strtol0X_head hX rfl (fun v hv => hh ⟨v, hv⟩) with ⟨v, e, n, h1, h2, h3, h4⟩ | ⟨h1, h2⟩
      · rw [h1] at hr
        change (if _ then _ else _) = _ at hr
        by_cases he : e = s
        · exact absurd ⟨v, he ▸ h1⟩ hh
        · rw [if_pos he] at hr
          exact Or.inl ⟨v, e, n, base, hr.symm, h2, h3, h4⟩
      · rw [h1] at hr
        exact Or.inr ⟨hr.symm, h2⟩
  unfold intConvert at h
  rcases step _ (Or.inl ⟨rfl, rfl⟩) h with h | h | h
  · rcases step _ (Or.inr (Or.inl ⟨rfl, rfl⟩)) h with h | h | h
    · rcases step _ (Or.inr (Or.inr ⟨rfl, rfl⟩)) h with h | h | h
      · cases hst : strtol s 10 with
        | mk v e =>
        rw [hst] at h
        change (if e ≠ s then _ else _) = _ at h
        split at h
        · rename_i he
          obtain ⟨w, sg, px, ds, sign, m, h1, h2, h3, h4, h5, h6, h7⟩ := strtol_inv (by decide) hst he
          left
          refine ⟨_, _, sign * m, 10, h.symm, .dec w sg ds sign m h1 h2 h4 ?_, by rw [h6]; exact approx_clamp sign m, h7⟩
          rcases h3 with rfl | ⟨h3, -⟩
          · simpa using h5
          · cases h3
        · exact Or.inr (Or.inr h.symm)
      · exact Or.inl h
      · exact Or.inr (Or.inl h)
    · exact Or.inl h
    · exact Or.inr (Or.inl h)
  · exact Or.inl h
  · exact Or.inr (Or.inl h)

/-! ## Reading a well-formed text -/

/-- What can follow the digits: white space, a suffix, a byte above 127. -/
def Stop (e : CStr) : Prop := ∀ c t, e = c :: t → isSpace c = true ∨ c ∈ cs "kKmMgG" ∨ 128 ≤ c.toNat

theorem high_char {c : Char} (h : 128 ≤ c.toNat) : digitVal c = none ∧ toUpper c = c := by
  have no : ∀ d : Char, d.toNat < 128 → ¬ c ≤ d := by
    intro d hd hle
    have : c.toNat ≤ d.toNat := hle
    omega
  constructor
  · unfold digitVal
    rw [if_neg (fun x => no '9' (by decide) x.2), if_neg (fun x => no 'z' (by decide) x.2),
      if_neg (fun x => no 'Z' (by decide) x.2)]
  · unfold toUpper
    rw [if_neg]
    simp [no 'z' (by decide)]

theorem stop_char {c : Char} (h : isSpace c = true ∨ c ∈ cs "kKmMgG" ∨ 128 ≤ c.toNat) : isBaseDigit 16 c = false ∧ isBaseDigit 8 c = false ∧
    isBaseDigit 2 c = false ∧ isBaseDigit 10 c = false ∧
    c ≠ 'x' ∧ c ≠ 'X' ∧ toUpper c ≠ 'X' ∧ toUpper c ≠ 'O' ∧ toUpper c ≠ 'B' := by
  by_cases hh : 128 ≤ c.toNat
  · obtain ⟨d, u⟩ := high_char hh
    have ne : ∀ e : Char, e.toNat < 128 → c ≠ e := by
      rintro e he rfl
      omega
    have b : ∀ base, isBaseDigit base c = false := by intro base; unfold isBaseDigit; rw [d]
    rw [u]
    exact ⟨b _, b _, b _, b _, ne _ (by decide), ne _ (by decide), ne _ (by decide), ne _ (by decide), ne _ (by decide)⟩
  have h : isSpace c = true ∨ c ∈ cs "kKmMgG" := by
    rcases h with h | h | h
    · exact Or.inl h
    · exact Or.inr h
    · exact absurd h hh
  have : c ∈ cs " \t\n\x0b\x0c\rkKmMgG" := by
    rcases h with h | h
    · unfold isSpace at h
      simp only [Bool.or_eq_true, beq_iff_eq] at h
      rcases h with ((((rfl | rfl) | rfl) | rfl) | rfl) | rfl <;> decide
    · have : ∀ c ∈ cs "kKmMgG", c ∈ cs " \t\n\x0b\x0c\rkKmMgG" := by decide
      exact this c h
  have key : ∀ c ∈ cs " \t\n\x0b\x0c\rkKmMgG", isBaseDigit 16 c = false ∧ isBaseDigit 8 c = false ∧
    isBaseDigit 2 c = false ∧ isBaseDigit 10 c = false ∧
    c ≠ 'x' ∧ c ≠ 'X' ∧ toUpper c ≠ 'X' ∧ toUpper c ≠ 'O' ∧ toUpper c ≠ 'B' := by decide
  exact key c this

theorem radix_base {pre : CStr} {base : Nat} (h : Radix pre base) :
    base ≤ 16 ∧ (base = 16 ∨ base = 8 ∨ base = 2 ∨ base = 10) := by
  cases h <;> simp

theorem stop_digit {e : CStr} (h : Stop e) {base : Nat} (hb : base = 16 ∨ base = 8 ∨ base = 2 ∨ base = 10) :
    ∀ c t, e = c :: t → isBaseDigit base c = false := by
  intro c t he
  obtain ⟨h1, h2, h3, h4, -⟩ := stop_char (h c t he)
  rcases hb with rfl | rfl | rfl | rfl <;> assumption

theorem toUpper_digit {c : Char} (h : isBaseDigit 10 c = true) :
    toUpper c ≠ 'X' ∧ toUpper c ≠ 'O' ∧ toUpper c ≠ 'B' := by
  refine ⟨?_, ?_, ?_⟩ <;>
  · intro he
    rcases toUpper_inv he with rfl | rfl <;> exact absurd h (by decide)

/-- Reading a text with a prefix. -/
theorem intConvert_prefix {w sg r e : CStr} {x : Char} {sign v : Int} {base : Nat} (hw : White w)
    (hs : Sign sg sign) (hx : Radix ['0', x] base) (hr : strtol r base = (v, e)) (hsuf : ∃ a, a ≠ [] ∧ r = a ++ e) :
    intConvert (w ++ (sg ++ ('0' :: x :: r))) =
      if sign * v > LONG_MAX then .error (.ub "strtol0X: signed overflow in s * val")
      else .ok (some (sign * v, e)) := by
  obtain ⟨a, ha, hra⟩ := hsuf
  have hne : e ≠ r := by rw [hra]; exact ne_of_suffix ha
  have hne' : e ≠ w ++ (sg ++ ('0' :: x :: r)) := by
    intro h
    have := congrArg List.length h
    rw [hra] at this
    simp only [List.length_append, List.length_cons] at this
    omega
  have hd : DigitHead ('0' :: x :: r) := ⟨'0', _, 0, rfl, rfl⟩
  have fin : ∀ (k : M (Option (Int × CStr))) (X : Char), toUpper x = toUpper X →
      (do let (val, e) ← strtol0X (w ++ (sg ++ ('0' :: x :: r))) X base
          if e ≠ w ++ (sg ++ ('0' :: x :: r)) then .ok (some (val, e)) else k)
      = if sign * v > LONG_MAX then .error (.ub "strtol0X: signed overflow in s * val")
        else .ok (some (sign * v, e)) := by
    intro k X hX
    rw [strtol0X_prefix hw hs hX hr hne]
    split
    · rfl
    · change (if e ≠ _ then _ else _) = _
      rw [if_pos hne']
  have miss : ∀ (k : M (Option (Int × CStr))) (X : Char) (b : Nat), toUpper x ≠ toUpper X →
      (do let (val, e) ← strtol0X (w ++ (sg ++ ('0' :: x :: r))) X b
          if e ≠ w ++ (sg ++ ('0' :: x :: r)) then .ok (some (val, e)) else k) = k := by
    intro k X b hX
    rw [strtol0X_miss hw hs hd (by intro y q hy; cases hy; exact hX)]
    change (if _ ≠ _ then _ else _) = _
    rw [if_neg (by simp)]
  unfold intConvert
  cases hx with
  | hex _ hx =>
    exact fin _ 'X' (by rcases hx with rfl | rfl <;> rfl)
  | oct _ hx =>
    rw [miss _ 'X' 16 (by rcases hx with rfl | rfl <;> decide)]
    exact fin _ 'O' (by rcases hx with rfl | rfl <;> rfl)
  | bin _ hx =>
    rw [miss _ 'X' 16 (by rcases hx with rfl | rfl <;> decide), miss _ 'O' 8 (by rcases hx with rfl | rfl <;> decide)]
    exact fin _ 'B' (by rcases hx with rfl | rfl <;> rfl)

theorem radix_pre {pre : CStr} {base : Nat} (h : Radix pre base) (hne : pre ≠ []) : ∃ x, pre = ['0', x] := by
  cases h with
  | dec => exact absurd rfl hne
  | hex x _ => exact ⟨x, rfl⟩
  | oct x _ => exact ⟨x, rfl⟩
  | bin x _ => exact ⟨x, rfl⟩

theorem intConvert_of {s e : CStr} {n : Int} {base : Nat} (h : HeadOf s e n base) (hstop : Stop e) :
    (∃ v, intConvert s = .ok (some (v, e)) ∧ Approx v n) ∨
    (intConvert s = .error (.ub "strtol0X: signed overflow in s * val") ∧ DoubleMinus s ∧ 2 ^ 63 ≤ n) := by
  cases h with
  | dec w sg ds sign m hw hs hn heq =>
    left
    obtain ⟨n1, n2, -⟩ := numeral_all hn (by decide)
    have hd := digitHead_of_numeral hn (by decide) e
    have hx : ∀ x r, ds ++ e = '0' :: x :: r → toUpper x ≠ 'X' ∧ toUpper x ≠ 'O' ∧ toUpper x ≠ 'B' := by
      intro x r hxr
      match ds, n1, n2, hxr with
      | [c], _, _, hxr =>
        rw [List.singleton_append] at hxr
        obtain ⟨-, rfl⟩ := List.cons.inj hxr
        obtain ⟨-, -, -, -, -, -, h⟩ := stop_char (hstop x r rfl)
        exact h
      | c :: c' :: ds, _, n2, hxr =>
        rw [List.cons_append, List.cons_append] at hxr
        obtain ⟨-, hxr⟩ := List.cons.inj hxr
        obtain ⟨rfl, -⟩ := List.cons.inj hxr
        exact toUpper_digit (n2 c' (by simp))
    have hst := strtol_of (by decide : 10 ≤ 16) hw hs (Or.inl rfl) hn (e := e)
      (skip_of (by decide) (Or.inl rfl) hn (Or.inr fun t => ⟨fun he => (stop_char (hstop _ t he)).2.2.2.2.1 rfl,
        fun he => (stop_char (hstop _ t he)).2.2.2.2.2.1 rfl⟩)) (stop_digit hstop (by simp))
    rw [List.nil_append, ← heq] at hst
    refine ⟨_, ?_, approx_clamp sign m⟩
    have hm : ∀ X b, (∀ x r, ds ++ e = '0' :: x :: r → toUpper x ≠ toUpper X) → strtol0X s X b = .ok (0, s) := by
      intro X b h
      rw [heq]
      exact strtol0X_miss hw hs hd h
    unfold intConvert
    rw [hm 'X' 16 fun x r h => (hx x r h).1, hm 'O' 8 fun x r h => (hx x r h).2.1,
      hm 'B' 2 fun x r h => (hx x r h).2.2, hst]
    have hne : e ≠ s := by
      rw [heq]
      intro h
      have := congrArg List.length h
      simp only [List.length_append] at this
      have : ds.length ≠ 0 := by simpa using n1
      omega
    simp [bind, Except.bind, hne]
  | pre w sg pre mid ds sign sign2 _ m hw hs hr hpre hin hn heq =>
    obtain ⟨x, rfl⟩ := radix_pre hr hpre
    have hrb := radix_base hr
    obtain ⟨n1, n2, -⟩ := numeral_all hn hrb.1
    cases hin with
    | mk w2 sg2 px _ hw2 hs2 hpx =>
      have hst := strtol_of hrb.1 hw2 hs2 hpx hn (e := e)
        (skip_of hrb.1 hpx hn (Or.inr fun t => ⟨fun he => (stop_char (hstop _ t he)).2.2.2.2.1 rfl,
          fun he => (stop_char (hstop _ t he)).2.2.2.2.2.1 rfl⟩)) (stop_digit hstop hrb.2)
      have hc := intConvert_prefix hw hs hr hst ⟨w2 ++ (sg2 ++ (px ++ ds)), by simp [n1], by simp⟩
      have hse : s = w ++ (sg ++ '0' :: x :: (w2 ++ (sg2 ++ (px ++ (ds ++ e))))) := by rw [heq]; simp
      rw [hse, hc]
      split
      · rename_i hov
        rw [overflow_iff (sign_cases hs) (sign_cases hs2)] at hov
        obtain ⟨rfl, rfl, hm⟩ := hov
        right
        refine ⟨rfl, ?_, by omega⟩
        have := DoubleMinus.mk w ['0', x] _ ds e base m hw hr (by simp) (Inner.mk w2 sg2 px (-1) hw2 hs2 hpx) hn hm
        rw [sign_minus hs]
        simpa using this
      · left
        exact ⟨_, rfl, approx_signed (sign_cases hs) _ m⟩

theorem intConvert_doubleMinus {s : CStr} (h : DoubleMinus s) :
    intConvert s = .error (.ub "strtol0X: signed overflow in s * val") := by
  cases h with
  | mk w pre mid ds rest base m hw hr hpre hin hn hm =>
    obtain ⟨x, rfl⟩ := radix_pre hr hpre
    have hrb := radix_base hr
    obtain ⟨n1, n2, n3⟩ := numeral_all hn hrb.1
    obtain ⟨r1, r2, r3⟩ := takeWhile_split (isBaseDigit base) rest
    generalize hda : rest.takeWhile (isBaseDigit base) = da at r1 r2
    generalize hre : rest.dropWhile (isBaseDigit base) = e at r1 r3
    have hall : ∀ c ∈ ds ++ da, isBaseDigit base c = true := by
      intro c hc
      rcases List.mem_append.1 hc with hc | hc
      · exact n2 c hc
      · exact r2 c hc
    have hn' := numeral_of hrb.1 (ds ++ da) (by simp [n1]) hall
    have hm' : 2 ^ 63 ≤ digitsVal base (ds ++ da) := by
      rcases digitsVal_append base ds da with h | h
      · rw [n3] at h; exact hm.trans h
      · omega
    have hlen : 2 ≤ (ds ++ da).length := by
      by_contra hl
      match hx : ds ++ da with
      | [] => rw [hx] at hn'; exact absurd rfl (numeral_all hn' hrb.1).1
      | [c] =>
        rw [hx] at hall hm'
        have := (isBaseDigit_iff hrb.1 c).1 (hall c (by simp))
        obtain ⟨d, hd1, hd2⟩ := this
        have : digitsVal base [c] = d := by simp [digitsVal, digitVal_of hd1]
        omega
      | c :: c' :: t => rw [hx] at hl; simp at hl
    cases hin with
    | mk w2 sg2 px _ hw2 hs2 hpx =>
      have hst := strtol_of hrb.1 hw2 hs2 hpx hn' (e := e) (skip_of hrb.1 hpx hn' (Or.inl hlen)) r3
      have hc := intConvert_prefix hw Sign.minus hr hst ⟨w2 ++ (sg2 ++ (px ++ (ds ++ da))), by simp [n1], by simp⟩
      rw [if_pos ((overflow_iff (Or.inr rfl) (Or.inr rfl) _).2 ⟨rfl, rfl, hm'⟩)] at hc
      rw [← hc, r1]
      simp

/-! ## Suffixes -/

theorem white_iff (s : CStr) : s.dropWhile isSpace = [] ↔ White s := by
  unfold White
  induction s with
  | nil => simp
  | cons c s ih =>
    rw [List.dropWhile_cons]
    by_cases h : isSpace c = true
    · simp [h, ih]
    · simp [h]

theorem detectsuffix_iff (suf : CStr) : ∀ e, detectsuffix e suf = true ↔
    ∃ p w, e = p ++ w ∧ p.map toUpper = suf.map toUpper ∧ White w := by
  induction suf with
  | nil =>
    intro e
    have : detectsuffix e [] = decide (e.dropWhile isSpace = []) := by
      cases e with
      | nil => rfl
      | cons c e => rfl
    rw [this, decide_eq_true_iff, white_iff]
    constructor
    · intro h; exact ⟨[], e, rfl, rfl, h⟩
    · rintro ⟨p, w, rfl, hp, hw⟩
      simp only [List.map_nil, List.map_eq_nil_iff] at hp
      subst hp
      exact hw
  | cons d suf ih =>
    intro e
    cases e with
    | nil =>
      constructor
      · intro h; cases h
      · rintro ⟨p, w, h1, h2, -⟩
        have : p = [] := (List.append_eq_nil_iff.1 h1.symm).1
        subst this
        cases h2
    | cons c e =>
      rw [detectsuffix]
      split
      · rename_i hcd
        rw [ih e]
        constructor
        · rintro ⟨p, w, rfl, h2, h3⟩
          exact ⟨c :: p, w, rfl, by simp [hcd, h2], h3⟩
        · rintro ⟨p, w, h1, h2, h3⟩
          cases p with
          | nil => cases h2
          | cons a p =>
            obtain ⟨-, rfl⟩ := List.cons.inj h1
            exact ⟨p, w, rfl, (List.cons.inj h2).2, h3⟩
      · rename_i hcd
        constructor
        · intro h; cases h
        · rintro ⟨p, w, h1, h2, -⟩
          cases p with
          | nil => cases h2
          | cons a p =>
            obtain ⟨rfl, -⟩ := List.cons.inj h1
            exact absurd (List.cons.inj h2).1 hcd

theorem detectsuffix_head {c d : Char} {e suf : CStr} (h : toUpper c ≠ toUpper d) :
    detectsuffix (c :: e) (d :: suf) = false := by
  rw [detectsuffix, if_neg h]

theorem intScale_of {v n k : Int} (hk : 0 < k) (ha : Approx v n) (hle : k ≤ 2147483648) :
    ∃ q, intScale v k (if v > INT_MAX ∨ v < INT_MIN then ARG_ERR_OVERFLOW else 0) = .ok q ∧
      (FitsInt (n * k) → q = (n * k, 0)) ∧ (¬ FitsInt (n * k) → q.2 = ARG_ERR_OVERFLOW) := by
  have hmaxk : ∀ z : Int, z ≤ INT_MAX.tdiv k ↔ z * k ≤ INT_MAX := by
    intro z
    rw [Int.tdiv_eq_ediv_of_nonneg (by decide), Int.le_ediv_iff_mul_le hk]
  have hmink : ∀ z : Int, INT_MIN.tdiv k ≤ z ↔ INT_MIN ≤ z * k := by
    intro z
    have e : INT_MIN = -2147483648 := rfl
    rw [e, Int.neg_tdiv, Int.tdiv_eq_ediv_of_nonneg (by decide)]
    have := Int.le_ediv_iff_mul_le (a := -z) (b := 2147483648) hk
    rw [Int.neg_mul] at this
    constructor
    · intro h
      have := this.1 (by omega)
      omega
    · intro h
      have := this.2 (by omega)
      omega
  have big : ∀ z : Int, INT_MAX < z → INT_MAX < z * k := by
    intro z hz
    have : z * 1 ≤ z * k := Int.mul_le_mul_of_nonneg_left (by omega) (by simp only [INT_MAX] at hz; omega)
    omega
  have small : ∀ z : Int, z < INT_MIN → z * k < INT_MIN := by
    intro z hz
    have : (-z) * 1 ≤ (-z) * k := Int.mul_le_mul_of_nonneg_left (by omega) (by simp only [INT_MIN] at hz; omega)
    simp only [Int.neg_mul, Int.mul_one] at this
    omega
  have fits : FitsInt (n * k) ↔ INT_MIN ≤ n * k ∧ n * k ≤ INT_MAX := by
    unfold FitsInt
    simp only [INT_MIN, INT_MAX]
    omega
  unfold intScale
  by_cases hc : v > INT_MAX.tdiv k ∨ v < INT_MIN.tdiv k
  · rw [if_pos hc]
    refine ⟨_, rfl, ?_, fun _ => rfl⟩
    rw [fits]
    rintro ⟨f1, f2⟩
    exfalso
    rcases ha with rfl | ⟨a1, a2⟩ | ⟨a1, a2⟩
    · rcases hc with hc | hc
      · exact absurd ((hmaxk v).2 f2) (by omega)
      · exact absurd ((hmink v).2 f1) (by omega)
    · have := big n a2; omega
    · have := small n a2; omega
  · rw [if_neg hc]
    obtain ⟨c1, c2⟩ := not_or.1 hc
    have c1 := (hmaxk v).1 (by omega)
    have c2 := (hmink v).1 (by omega)
    have hvn : v = n := by
      rcases ha with rfl | ⟨a1, -⟩ | ⟨a1, -⟩
      · rfl
      · have := big v a1; omega
      · have := small v a1; omega
    subst hvn
    have hmul : mulLong v k = .ok (v * k) := by
      unfold mulLong
      rw [if_neg]
      simp only [LONG_MAX, LONG_MIN, INT_MAX, INT_MIN] at *
      omega
    have herr : ¬ (v > INT_MAX ∨ v < INT_MIN) := by
      rintro (h | h)
      · have := big v h; omega
      · have := small v h; omega
    rw [hmul, if_neg herr]
    exact ⟨_, rfl, fun _ => rfl, fun h => absurd (fits.2 ⟨c2, c1⟩) h⟩

theorem intSuffix_of {v n k : Int} {sf w : CStr} (ha : Approx v n) (hs : Suffix sf k) (hw : White w) :
    ∃ q, intSuffix v (sf ++ w) = .ok q ∧ (FitsInt (n * k) → q = (n * k, 0)) ∧
      (¬ FitsInt (n * k) → q.2 = ARG_ERR_OVERFLOW) := by
  have two : ∀ {s : CStr} {a b : Char}, s.map toUpper = [a, b] → ∃ c d, s = [c, d] ∧ toUpper c = a ∧ toUpper d = b := by
    intro s a b h
    match s, h with
    | [c, d], h => simp at h; exact ⟨c, d, rfl, h⟩
  have yes : ∀ {suf : CStr}, sf.map toUpper = suf → suf.map toUpper = suf → detectsuffix (sf ++ w) suf = true := by
    intro suf h h'
    exact (detectsuffix_iff suf _).2 ⟨sf, w, rfl, by rw [h, h'], hw⟩
  unfold intSuffix
  dsimp only
  have eK : cs "KB" = ['K', 'B'] := rfl
  have eM : cs "MB" = ['M', 'B'] := rfl
  have eG : cs "GB" = ['G', 'B'] := rfl
  rw [eK, eM, eG]
  cases hs with
  | kb _ h =>
    rw [eK] at h
    rw [if_pos (yes h (by decide))]
    exact intScale_of (by decide) ha (by decide)
  | mb _ h =>
    rw [eM] at h
    obtain ⟨c, d, rfl, h1, h2⟩ := two h
    rw [if_neg, if_pos (yes h (by decide))]
    · exact intScale_of (by decide) ha (by decide)
    · rw [List.cons_append, detectsuffix_head (by rw [h1]; decide)]; simp
  | gb _ h =>
    rw [eG] at h
    obtain ⟨c, d, rfl, h1, h2⟩ := two h
    rw [if_neg, if_neg, if_pos (yes h (by decide))]
    · exact intScale_of (by decide) ha (by decide)
    · rw [List.cons_append, detectsuffix_head (by rw [h1]; decide)]; simp
    · rw [List.cons_append, detectsuffix_head (by rw [h1]; decide)]; simp
  | none =>
    rw [List.nil_append]
    have hno : ∀ d suf, toUpper d = 'K' ∨ toUpper d = 'M' ∨ toUpper d = 'G' → ¬ detectsuffix w (d :: suf) = true := by
      intro d suf hd
      cases w with
      | nil => simp [detectsuffix]
      | cons c w =>
        rw [detectsuffix_head]
        · simp
        · have hc := hw c (by simp)
          intro he
          rw [← he] at hd
          rcases hd with hd | hd | hd
          · rcases toUpper_inv hd with rfl | rfl <;> exact absurd hc (by decide)
          · rcases toUpper_inv hd with rfl | rfl <;> exact absurd hc (by decide)
          · rcases toUpper_inv hd with rfl | rfl <;> exact absurd hc (by decide)
    rw [if_neg (hno 'K' _ (by decide)), if_neg (hno 'M' _ (by decide)), if_neg (hno 'G' _ (by decide)),
      if_neg (by rw [(detectsuffix_iff [] w).2 ⟨[], w, rfl, rfl, hw⟩]; simp), Int.mul_one]
    refine ⟨_, rfl, ?_, ?_⟩
    · intro hf
      unfold FitsInt at hf
      unfold Approx at ha
      have hM : INT_MAX = 2147483647 := rfl
      have hm : INT_MIN = -2147483648 := rfl
      have : v = n := by omega
      rw [if_neg (by omega), this]
    · intro hf
      unfold FitsInt at hf
      unfold Approx at ha
      have hM : INT_MAX = 2147483647 := rfl
      have hm : INT_MIN = -2147483648 := rfl
      exact if_pos (by omega)

theorem intSuffix_bad (v : Int) {e : CStr} (h : ¬ ∃ sf k w, e = sf ++ w ∧ Suffix sf k ∧ White w) :
    intSuffix v e = .ok (v, ARG_ERR_BADINT) := by
  have no : ∀ suf : CStr, suf.map toUpper = suf → (∀ s : CStr, s.map toUpper = suf → ∃ k, Suffix s k) →
      ¬ detectsuffix e suf = true := by
    intro suf hsuf hs hd
    obtain ⟨p, w, h1, h2, h3⟩ := (detectsuffix_iff suf e).1 hd
    obtain ⟨k, hk⟩ := hs p (by rw [h2, hsuf])
    exact h ⟨p, k, w, h1, hk, h3⟩
  unfold intSuffix
  dsimp only
  rw [if_neg (no (cs "KB") (by decide) fun s hs => ⟨_, .kb s hs⟩), if_neg (no (cs "MB") (by decide) fun s hs => ⟨_, .mb s hs⟩),
    if_neg (no (cs "GB") (by decide) fun s hs => ⟨_, .gb s hs⟩),
    if_pos (no [] rfl fun s hs => ⟨1, by rw [List.map_eq_nil_iff.1 hs]; exact .none⟩)]

/-! ## arg_int_scanfn -/

theorem suffix_stop {sf w : CStr} {k : Int} (hs : Suffix sf k) (hw : White w) : Stop (sf ++ w) := by
  have two : ∀ {s : CStr} {a b : Char}, s.map toUpper = [a, b] → ∃ c d, s = [c, d] ∧ toUpper c = a := by
    intro s a b h
    match s, h with
    | [c, d], h => simp at h; exact ⟨c, d, rfl, h.1⟩
  intro c t he
  cases hs with
  | none => left; exact hw c (by rw [List.nil_append] at he; rw [he]; simp)
  | kb _ h =>
    obtain ⟨c', d, rfl, h1⟩ := two h
    obtain ⟨rfl, -⟩ := List.cons.inj he
    right; left
    rcases toUpper_inv h1 with rfl | rfl <;> decide
  | mb _ h =>
    obtain ⟨c', d, rfl, h1⟩ := two h
    obtain ⟨rfl, -⟩ := List.cons.inj he
    right; left
    rcases toUpper_inv h1 with rfl | rfl <;> decide
  | gb _ h =>
    obtain ⟨c', d, rfl, h1⟩ := two h
    obtain ⟨rfl, -⟩ := List.cons.inj he
    right; left
    rcases toUpper_inv h1 with rfl | rfl <;> decide

theorem looseText_head {s : CStr} {n : Int} (h : LooseText s n) : ∃ sf w k N base,
    HeadOf s (sf ++ w) N base ∧ Suffix sf k ∧ White w ∧ n = N * k := by
  cases h with
  | plain _ _ h =>
    cases h with
    | mk w sg pre ds sf w' sign base m k hw hs hr hn hsf hw' =>
      by_cases hpre : pre = []
      · subst hpre
        cases hr
        exact ⟨sf, w', k, sign * m, 10, .dec w sg ds sign m hw hs hn (by simp), hsf, hw', rfl⟩
      · refine ⟨sf, w', k, sign * 1 * m, base, .pre w sg pre [] ds sign 1 base m hw hs hr hpre ?_ hn (by simp), hsf, hw', by simp⟩
        exact Inner.mk [] [] [] 1 (by intro c hc; cases hc) .none (Or.inl rfl)
  | inner w sg pre mid ds sf w' sign sign2 base m k hw hs hr hpre hin hn hsf hw' =>
    exact ⟨sf, w', k, sign * sign2 * m, base, .pre w sg pre mid ds sign sign2 base m hw hs hr hpre hin hn (by simp), hsf, hw', rfl⟩

theorem looseText_of_head {s sf w : CStr} {N k : Int} {base : Nat} (h : HeadOf s (sf ++ w) N base) (hs : Suffix sf k)
    (hw : White w) : LooseText s (N * k) := by
  cases h with
  | dec w1 sg ds sign m h1 h2 h3 h4 =>
    have := IntText.mk w1 sg [] ds sf w sign 10 m k h1 h2 .dec h3 hs hw
    rw [h4]
    refine .plain _ _ ?_
    simpa using this
  | pre w1 sg pre mid ds sign sign2 base m h1 h2 h3 h4 h5 h6 h7 =>
    have := LooseText.inner w1 sg pre mid ds sf w sign sign2 base m k h1 h2 h3 h4 h5 h6 hs hw
    rw [h7]
    simpa using this

theorem intOfLong_of {n : Int} (h : FitsInt n) : intOfLong n = n := by
  unfold FitsInt at h
  unfold intOfLong
  dsimp only
  by_cases h0 : n < 0
  · have e : n % 4294967296 = n + 4294967296 := by omega
    rw [e, if_pos (by simp only [INT_MAX]; omega)]
    omega
  · have e : n % 4294967296 = n := by omega
    rw [e, if_neg (by simp only [INT_MAX]; omega)]

/-- A complete description of `arg_int_scanfn`. -/
theorem intScan_full {mx : Int} {o : IntObj} (hc : (o.count : Int) < mx) (hl : (o.ival.length : Int) = mx) (s : CStr) :
    (DoubleMinus s → intScan mx o (some s) = .error (.ub "strtol0X: signed overflow in s * val")) ∧
    (¬ DoubleMinus s → ∀ n, LooseText s n →
      (FitsInt n → intScan mx o (some s) = .ok (⟨o.count + 1, o.ival.set o.count (some n)⟩, 0)) ∧
      (¬ FitsInt n → intScan mx o (some s) = .ok (o, ARG_ERR_OVERFLOW))) ∧
    (¬ DoubleMinus s → (∀ n, ¬ LooseText s n) → intScan mx o (some s) = .ok (o, ARG_ERR_BADINT)) := by
  have hu : intScan mx o (some s) = (do
      match ← intConvert s with
      | none => .ok (o, ARG_ERR_BADINT)
      | some (val, e) =>
        let (val, err) ← intSuffix val e
        if err = 0 then
          let ival ← storeAt o.ival o.count (some (intOfLong val))
          .ok ({ count := o.count + 1, ival := ival }, 0)
        else .ok (o, err)) := by
    unfold intScan
    rw [if_neg (by omega)]
    rfl
  rw [hu]
  refine ⟨?_, ?_, ?_⟩
  · intro h
    rw [intConvert_doubleMinus h]; rfl
  · intro hd n h
    obtain ⟨sf, w, k, N, base, h1, h2, h3, rfl⟩ := looseText_head h
    rcases intConvert_of h1 (suffix_stop h2 h3) with ⟨v, hv, ha⟩ | ⟨-, hd', -⟩
    · obtain ⟨q, hq, q1, q2⟩ := intSuffix_of ha h2 h3
      rw [hv, bind_ok]
      dsimp only
      rw [hq, bind_ok]
      constructor
      · intro hf
        rw [q1 hf]
        dsimp only
        rw [if_pos rfl, storeAt_ok (by omega), bind_ok, intOfLong_of hf]
      · intro hf
        have h0 : q.2 ≠ 0 := by rw [q2 hf]; decide
        rw [if_neg h0, q2 hf]
    · exact absurd hd' hd
  · intro hd h
    rcases intConvert_head (s := s) rfl with ⟨v, e, N, base, h1, h2, h3, h4⟩ | ⟨-, h2⟩ | h1
    · rw [h1, bind_ok]
      dsimp only
      rw [intSuffix_bad, bind_ok]
      · dsimp only
        rw [if_neg (by decide)]
      · rintro ⟨sf, k, w, rfl, h5, h6⟩
        exact h _ (looseText_of_head h2 h5 h6)
    · exact absurd h2 hd
    · rw [h1]; rfl

end Argtable
