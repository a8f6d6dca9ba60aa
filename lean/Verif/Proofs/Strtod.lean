import Verif.Model.Strtod
import Verif.Proofs.Integer
/-!
# The `strtod` of `Model/Strtod.lean` is one of the C standard
-/

namespace Argtable
open Spec

/-! ### digits -/

theorem dropWhile_len (p : Char → Bool) (t : CStr) : (t.dropWhile p).length ≤ t.length :=
  (List.dropWhile_sublist p).length_le

theorem tw_append {p : Char → Bool} {ds : CStr} (h : ∀ c ∈ ds, p c = true) (r : CStr) :
    (ds ++ r).takeWhile p = ds ++ r.takeWhile p := List.takeWhile_append_of_pos h

theorem dw_append {p : Char → Bool} {ds : CStr} (h : ∀ c ∈ ds, p c = true) (r : CStr) :
    (ds ++ r).dropWhile p = r.dropWhile p := List.dropWhile_append_of_pos h

theorem tw_all {p : Char → Bool} (t : CStr) : ∀ c ∈ t.takeWhile p, p c = true := by
  intro c hc
  induction t with
  | nil => simp at hc
  | cons d t ih =>
    rw [List.takeWhile_cons] at hc
    split at hc
    · rcases List.mem_cons.1 hc with rfl | hc
      · assumption
      · exact ih hc
    · simp at hc

theorem dw_head {p : Char → Bool} {t r : CStr} {c : Char} (h : t.dropWhile p = c :: r) : p c = false := by
  induction t with
  | nil => simp at h
  | cons d t ih =>
    rw [List.dropWhile_cons] at h
    split at h
    · exact ih h
    · rename_i hd
      cases h
      simpa using hd

/-- The first character is not one the reading of a mantissa goes on with. -/
def NoCont (base : Nat) (r : CStr) : Prop := ∀ c, r.head? = some c → isBaseDigit base c = false ∧ c ≠ '.'

theorem dot_noDigit {base : Nat} : isBaseDigit base '.' = false := rfl

theorem readMant_max {base : Nat} (hb : base ≤ 16) {m : CStr} {n f : Nat} (h : Mantissa base m n f) (rest : CStr) :
    ∃ n' f' r', readMant base (m ++ rest) = some (n', f', r') ∧ r'.length ≤ rest.length := by
  cases h with
  | whole hn =>
    obtain ⟨hne, hall, _⟩ := numeral_all hn hb
    unfold readMant
    rw [tw_append hall, dw_append hall]
    dsimp only
    split
    · next r heq =>
      have hl := dropWhile_len (isBaseDigit base) rest
      rw [heq] at hl
      rw [if_neg (by simp [hne])]
      refine ⟨_, _, _, rfl, ?_⟩
      have := dropWhile_len (isBaseDigit base) r
      simp only [List.length_cons] at hl
      omega
    · rw [if_neg (by simp [hne])]
      exact ⟨_, _, _, rfl, dropWhile_len _ _⟩
  | @point ip fp _ hn =>
    obtain ⟨hne, hall, _⟩ := numeral_all hn hb
    have h1 : ∀ c ∈ ip, isBaseDigit base c = true := fun c hc => hall c (by simp [hc])
    have h2 : ∀ c ∈ fp, isBaseDigit base c = true := fun c hc => hall c (by simp [hc])
    unfold readMant
    rw [List.append_assoc, tw_append h1, dw_append h1, List.cons_append, List.takeWhile_cons_of_neg (by simp [dot_noDigit]),
      List.dropWhile_cons_of_neg (by simp [dot_noDigit])]
    show ∃ n' f' r', (if ip ++ [] ++ (fp ++ rest).takeWhile (isBaseDigit base) = [] then none else
      some (_, _, (fp ++ rest).dropWhile (isBaseDigit base))) = some (n', f', r') ∧ _
    rw [tw_append h2, dw_append h2, if_neg]
    · exact ⟨_, _, _, rfl, dropWhile_len _ _⟩
    · intro h
      apply hne
      simp only [List.append_eq_nil_iff] at h ⊢
      exact ⟨h.1.1, h.2.1⟩

theorem readMant_exact {base : Nat} (hb : base ≤ 16) {m : CStr} {n f : Nat} (h : Mantissa base m n f) {rest : CStr}
    (hr : NoCont base rest) : readMant base (m ++ rest) = some (n, f, rest) := by
  have hd : rest.dropWhile (isBaseDigit base) = rest := by
    cases rest with
    | nil => rfl
    | cons c r => rw [List.dropWhile_cons_of_neg (by simp [(hr c rfl).1])]
  have ht : rest.takeWhile (isBaseDigit base) = [] := by
    cases rest with
    | nil => rfl
    | cons c r => rw [List.takeWhile_cons_of_neg (by simp [(hr c rfl).1])]
  cases h with
  | whole hn =>
    obtain ⟨hne, hall, hv⟩ := numeral_all hn hb
    unfold readMant
    rw [tw_append hall, dw_append hall, hd, ht, List.append_nil]
    dsimp only
    split
    · exact absurd rfl (hr '.' rfl).2
    · rw [if_neg hne, hv]
  | @point ip fp _ hn =>
    obtain ⟨hne, hall, hv⟩ := numeral_all hn hb
    have h1 : ∀ c ∈ ip, isBaseDigit base c = true := fun c hc => hall c (by simp [hc])
    have h2 : ∀ c ∈ fp, isBaseDigit base c = true := fun c hc => hall c (by simp [hc])
    unfold readMant
    rw [List.append_assoc, tw_append h1, dw_append h1, List.cons_append, List.takeWhile_cons_of_neg (by simp [dot_noDigit]),
      List.dropWhile_cons_of_neg (by simp [dot_noDigit])]
    show (if _ then _ else _) = _
    rw [tw_append h2, dw_append h2, hd, ht, List.append_nil, List.append_nil, if_neg hne, hv]

theorem readMant_sound {base : Nat} (hb : base ≤ 16) {t r : CStr} {n f : Nat} (h : readMant base t = some (n, f, r)) :
    ∃ m, t = m ++ r ∧ Mantissa base m n f := by
  unfold readMant at h
  dsimp only at h
  have ht := List.takeWhile_append_dropWhile (p := isBaseDigit base) (l := t)
  split at h
  · next r' heq =>
    split at h
    · cases h
    · next hne =>
      cases h
      rw [heq] at ht
      refine ⟨t.takeWhile (isBaseDigit base) ++ '.' :: r'.takeWhile (isBaseDigit base), ?_, .point (numeral_of hb _ hne ?_)⟩
      · rw [List.append_assoc, List.cons_append, List.takeWhile_append_dropWhile, ht]
      · intro c hc
        rcases List.mem_append.1 hc with hc | hc
        · exact tw_all _ c hc
        · exact tw_all _ c hc
  · split at h
    · cases h
    · next hne =>
      cases h
      exact ⟨_, ht.symm, .whole (numeral_of hb _ hne (tw_all t))⟩

/-! ### exponents -/

theorem scanSign_sound {t r : CStr} {s : Int} (h : scanSign t = (s, r)) : ∃ sg, t = sg ++ r ∧ Sign sg s := by
  unfold scanSign at h
  split at h
  · cases h; exact ⟨['+'], rfl, .plus⟩
  · cases h; exact ⟨['-'], rfl, .minus⟩
  · cases h; exact ⟨[], rfl, .none⟩

theorem scanSign_sign {sg t : CStr} {s : Int} (h : Sign sg s) (h1 : t.head? ≠ some '+') (h2 : t.head? ≠ some '-') :
    scanSign (sg ++ t) = (s, t) := by
  cases h with
  | none =>
    rw [List.nil_append]
    unfold scanSign
    split
    · exact absurd rfl h1
    · exact absurd rfl h2
    · rfl
  | plus => rfl
  | minus => rfl

theorem readExpo_sound (letters : List Char) (t : CStr) :
    ∃ ex, t = ex ++ (readExpo letters t).2 ∧ Expo letters ex (readExpo letters t).1 := by
  unfold readExpo
  cases t with
  | nil => exact ⟨[], rfl, .none⟩
  | cons c r =>
    dsimp only
    split
    · next hc =>
      cases hs : scanSign r with
      | mk s r' =>
        dsimp only
        split
        · exact ⟨[], rfl, .none⟩
        · next hne =>
          obtain ⟨sg, rfl, hsg⟩ := scanSign_sound hs
          refine ⟨c :: (sg ++ r'.takeWhile (isBaseDigit 10)), ?_,
            .some hc hsg (numeral_of (by decide) _ hne (tw_all r'))⟩
          rw [List.cons_append, List.append_assoc, List.takeWhile_append_dropWhile]
    · exact ⟨[], rfl, .none⟩

theorem readExpo_len (letters : List Char) (t : CStr) : (readExpo letters t).2.length ≤ t.length := by
  obtain ⟨ex, h, _⟩ := readExpo_sound letters t
  have := congrArg List.length h
  rw [List.length_append] at this
  omega

theorem digit_noSign {ds r : CStr} (hne : ds ≠ []) (h : ∀ c ∈ ds, isBaseDigit 10 c = true) :
    (ds ++ r).head? ≠ some '+' ∧ (ds ++ r).head? ≠ some '-' := by
  cases ds with
  | nil => exact absurd rfl hne
  | cons c ds =>
    have := h c (by simp)
    simp only [List.cons_append, List.head?_cons, Option.some.injEq, ne_eq]
    constructor <;> (rintro rfl; exact absurd this (by decide))

theorem readExpo_some {letters : List Char} {c : Char} {sg ds : CStr} {s : Int} {k : Nat} (hc : c ∈ letters)
    (hs : Sign sg s) (hn : Numeral 10 ds k) (rest : CStr) :
    readExpo letters (c :: (sg ++ ds) ++ rest)
      = (s * digitsVal 10 (ds ++ rest.takeWhile (isBaseDigit 10)), rest.dropWhile (isBaseDigit 10)) := by
  obtain ⟨hne, hall, hv⟩ := numeral_all hn (by decide)
  obtain ⟨h1, h2⟩ := digit_noSign (r := rest) hne hall
  unfold readExpo
  rw [List.cons_append]
  dsimp only
  rw [if_pos hc, List.append_assoc, scanSign_sign hs h1 h2]
  dsimp only
  rw [tw_append hall, dw_append hall, if_neg (by simp [hne])]

theorem readExpo_max {letters : List Char} {ex : CStr} {e : Int} (h : Expo letters ex e) (rest : CStr) :
    (readExpo letters (ex ++ rest)).2.length ≤ rest.length := by
  cases h with
  | none => exact readExpo_len _ _
  | some hc hs hn => rw [readExpo_some hc hs hn]; exact dropWhile_len _ _

theorem readExpo_exact {letters : List Char} {ex : CStr} {e : Int} (h : Expo letters ex e) :
    readExpo letters ex = (e, []) := by
  cases h with
  | none => rfl
  | some hc hs hn =>
    have := readExpo_some hc hs hn []
    rw [List.append_nil] at this
    rw [this]
    simp only [List.takeWhile_nil, List.append_nil, List.dropWhile_nil]
    rw [(numeral_all hn (by decide)).2.2]

/-! ### numbers -/

section
variable {base : Nat} {letters : List Char} {value : Nat → Nat → Int → Bool → FloatVal}

theorem expo_noCont (hl : ∀ c ∈ letters, isBaseDigit base c = false ∧ c ≠ '.') {ex : CStr} {e : Int}
    (h : Expo letters ex e) (hne : ex ≠ []) (rest : CStr) : NoCont base (ex ++ rest) := by
  cases h with
  | none => exact absurd rfl hne
  | some hc _ _ =>
    intro c h
    cases h
    exact hl _ hc

theorem readFloat_sound (hb : base ≤ 16) {t r : CStr} {v : Bool → FloatVal}
    (h : readFloat base letters value t = some (v, r)) :
    ∃ m ex n f e, t = (m ++ ex) ++ r ∧ Mantissa base m n f ∧ Expo letters ex e ∧ v = value n f e := by
  unfold readFloat at h
  split at h
  · cases h
  · next n f r' hm =>
    cases h
    obtain ⟨m, rfl, hm'⟩ := readMant_sound hb hm
    obtain ⟨ex, hx, he⟩ := readExpo_sound letters r'
    exact ⟨m, ex, n, f, _, by rw [List.append_assoc, ← hx], hm', he, rfl⟩

theorem readFloat_max (hb : base ≤ 16) (hl : ∀ c ∈ letters, isBaseDigit base c = false ∧ c ≠ '.') {m ex : CStr} {n f : Nat}
    {e : Int} (hm : Mantissa base m n f) (he : Expo letters ex e) (rest : CStr) :
    ∃ v r, readFloat base letters value (m ++ ex ++ rest) = some (v, r) ∧ r.length ≤ rest.length := by
  unfold readFloat
  rw [List.append_assoc]
  by_cases hx : ex = []
  · subst hx
    obtain ⟨n', f', r', h1, h2⟩ := readMant_max hb hm ([] ++ rest)
    rw [h1]
    refine ⟨_, _, rfl, ?_⟩
    have := readExpo_len letters r'
    simp only [List.nil_append] at h2
    omega
  · rw [readMant_exact hb hm (expo_noCont hl he hx rest)]
    exact ⟨_, _, rfl, readExpo_max he rest⟩

theorem readFloat_exact (hb : base ≤ 16) (hl : ∀ c ∈ letters, isBaseDigit base c = false ∧ c ≠ '.') {m ex : CStr}
    {n f : Nat} {e : Int} (hm : Mantissa base m n f) (he : Expo letters ex e) :
    readFloat base letters value (m ++ ex) = some (value n f e, []) := by
  unfold readFloat
  have hc : NoCont base ex := by
    by_cases hx : ex = []
    · subst hx; intro c h; cases h
    · have := expo_noCont hl he hx []
      rwa [List.append_nil] at this
  rw [readMant_exact hb hm hc]
  dsimp only
  rw [readExpo_exact he]

end

theorem decimal_letters : ∀ c ∈ ['e', 'E'], isBaseDigit 10 c = false ∧ c ≠ '.' := by decide
theorem hex_letters : ∀ c ∈ ['p', 'P'], isBaseDigit 16 c = false ∧ c ≠ '.' := by decide

/-- Decimal reading stops before an `x`. -/
theorem readDecimal_x {x : Char} (hx : x = 'x' ∨ x = 'X') (r : CStr) :
    ∃ v, readDecimal ('0' :: x :: r) = some (v, x :: r) := by
  have h : readMant 10 (['0'] ++ x :: r) = some (0, 0, x :: r) := by
    refine readMant_exact (by decide) (.whole (.one '0' 0 (Or.inl rfl) (by decide))) ?_
    intro c h
    cases h
    rcases hx with rfl | rfl <;> decide
  unfold readDecimal readFloat
  rw [show '0' :: x :: r = ['0'] ++ x :: r from rfl, h]
  have h2 : readExpo ['e', 'E'] (x :: r) = (0, x :: r) := by
    unfold readExpo
    dsimp only
    rw [if_neg (by rcases hx with rfl | rfl <;> decide)]
  dsimp only
  rw [h2]
  exact ⟨_, rfl⟩

theorem readNumber_sound {t r : CStr} {v : Bool → FloatVal} (h : readNumber t = some (v, r)) :
    ∃ u, t = u ++ r ∧ Unsigned u v := by
  have hdec : readDecimal t = some (v, r) → ∃ u, t = u ++ r ∧ Unsigned u v := by
    intro h
    obtain ⟨m, ex, n, f, e, h1, h2, h3, rfl⟩ := readFloat_sound (by decide) h
    exact ⟨m ++ ex, h1, .decimal h2 h3⟩
  unfold readNumber at h
  split at h
  · next x r' =>
    split at h
    · next hx =>
      split at h
      · next p hh =>
        cases h
        obtain ⟨m, ex, n, f, e, h1, h2, h3, rfl⟩ := readFloat_sound (by decide) hh
        exact ⟨'0' :: x :: (m ++ ex), by rw [h1]; rfl, .hexadecimal hx h2 h3⟩
      · exact hdec h
    · exact hdec h
  · exact hdec h

theorem readNumber_hex {x : Char} (hx : x = 'x' ∨ x = 'X') (r : CStr) : readNumber ('0' :: x :: r) =
    match readHex r with
    | some p => some p
    | none => readDecimal ('0' :: x :: r) := by
  unfold readNumber
  show (if _ then _ else _) = _
  rw [if_pos hx]
  rfl

theorem readNumber_dec {t : CStr} (h : ∀ x r, t = '0' :: x :: r → ¬ (x = 'x' ∨ x = 'X')) : readNumber t = readDecimal t := by
  unfold readNumber
  split
  · rw [if_neg (h _ _ rfl)]
  · rfl

theorem readHex_len {t r : CStr} {v : Bool → FloatVal} (h : readHex t = some (v, r)) : r.length ≤ t.length := by
  obtain ⟨m, ex, n, f, e, h1, _⟩ := readFloat_sound (by decide) h
  rw [h1]; simp; omega

theorem readNumber_decimal {m ex : CStr} {n f : Nat} {e : Int} (hm : Mantissa 10 m n f) (he : Expo ['e', 'E'] ex e)
    (rest : CStr) : ∃ v r, readNumber (m ++ ex ++ rest) = some (v, r) ∧ r.length ≤ rest.length := by
  obtain ⟨v, r, h1, h2⟩ := readFloat_max (by decide) decimal_letters (value := fun n f e neg => .num neg (scaled n 10 (e - f)))
    hm he rest
  by_cases hc : ∃ x r, m ++ ex ++ rest = '0' :: x :: r ∧ (x = 'x' ∨ x = 'X')
  · obtain ⟨x, r', ht, hx⟩ := hc
    obtain ⟨v', hd⟩ := readDecimal_x hx r'
    rw [← ht] at hd
    have : some (v, r) = some (v', x :: r') := h1.symm.trans hd
    cases this
    rw [ht, readNumber_hex hx]
    cases hh : readHex r' with
    | none => rw [← ht]; exact ⟨_, _, hd, h2⟩
    | some p =>
      refine ⟨_, _, rfl, ?_⟩
      have := readHex_len hh
      simp only [List.length_cons] at h2
      omega
  · rw [readNumber_dec (fun x r ht hx => hc ⟨x, r, ht, hx⟩)]
    exact ⟨v, r, h1, h2⟩

theorem readNumber_decimal_exact {m ex : CStr} {n f : Nat} {e : Int} (hm : Mantissa 10 m n f) (he : Expo ['e', 'E'] ex e) :
    readNumber (m ++ ex) = some (fun neg => .num neg (scaled n 10 (e - f)), []) := by
  have h1 := readFloat_exact (by decide) decimal_letters (value := fun n f e neg => .num neg (scaled n 10 (e - f))) hm he
  rw [readNumber_dec]
  · exact h1
  · intro x r ht hx
    obtain ⟨v', hd⟩ := readDecimal_x hx r
    rw [← ht] at hd
    have := h1.symm.trans hd
    cases this

theorem readNumber_hexadecimal {x : Char} (hx : x = 'x' ∨ x = 'X') {m ex : CStr} {n f : Nat} {e : Int}
    (hm : Mantissa 16 m n f) (he : Expo ['p', 'P'] ex e) (rest : CStr) :
    ∃ v r, readNumber ('0' :: x :: (m ++ ex) ++ rest) = some (v, r) ∧ r.length ≤ rest.length := by
  obtain ⟨v, r, h1, h2⟩ := readFloat_max (by decide) hex_letters (value := fun n f e neg => .num neg (scaled n 2 (e - 4 * f)))
    hm he rest
  rw [List.cons_append, List.cons_append, readNumber_hex hx]
  unfold readHex
  rw [h1]
  exact ⟨v, r, rfl, h2⟩

theorem readNumber_hexadecimal_exact {x : Char} (hx : x = 'x' ∨ x = 'X') {m ex : CStr} {n f : Nat} {e : Int}
    (hm : Mantissa 16 m n f) (he : Expo ['p', 'P'] ex e) :
    readNumber ('0' :: x :: (m ++ ex)) = some (fun neg => .num neg (scaled n 2 (e - 4 * f)), []) := by
  have h1 := readFloat_exact (by decide) hex_letters (value := fun n f e neg => .num neg (scaled n 2 (e - 4 * f))) hm he
  rw [readNumber_hex hx]
  unfold readHex
  rw [h1]

/-! ### words -/

theorem readWord_append {w t : CStr} (h : t.map toUpper = w) (r : CStr) : readWord w (t ++ r) = some r := by
  have hl : w.length = t.length := by rw [← h, List.length_map]
  unfold readWord
  rw [hl, List.take_left, if_pos h, List.drop_left]

theorem readWord_sound {w t r : CStr} (h : readWord w t = some r) : ∃ u, t = u ++ r ∧ u.map toUpper = w := by
  unfold readWord at h
  split at h
  · next hw => cases h; exact ⟨_, (List.take_append_drop _ _).symm, hw⟩
  · cases h

theorem readWord_none {w t : CStr} {a c : Char} {w' : CStr} (hw : w = a :: w') (ht : t.head? = some c)
    (h : toUpper c ≠ a) : readWord w t = none := by
  subst hw
  unfold readWord
  cases t with
  | nil => cases ht
  | cons d t =>
    cases ht
    rw [if_neg]
    simp only [List.length_cons, List.take_succ_cons, List.map_cons, List.cons.injEq]
    exact fun h' => h h'.1

theorem readNan_sound {t r : CStr} {v : Bool → FloatVal} (h : readNan t = (v, r)) {u : CStr} (hu : u.map toUpper = cs "NAN") :
    ∃ s, u ++ t = s ++ r ∧ Unsigned s v := by
  unfold readNan at h
  split at h
  · next r' =>
    split at h
    · next r'' heq =>
      cases h
      refine ⟨u ++ '(' :: (r'.takeWhile isNchar ++ [')']), ?_, .nanSeq hu (tw_all r')⟩
      have := List.takeWhile_append_dropWhile (p := isNchar) (l := r')
      rw [heq] at this
      conv_lhs => rw [← this]
      simp
    · cases h; exact ⟨u, rfl, .nan hu⟩
  · cases h; exact ⟨u, rfl, .nan hu⟩

theorem readUnsigned_sound {t r : CStr} {v : Bool → FloatVal} (h : readUnsigned t = some (v, r)) :
    ∃ u, t = u ++ r ∧ Unsigned u v := by
  unfold readUnsigned at h
  split at h
  · next hw =>
    cases h
    obtain ⟨u, h1, h2⟩ := readWord_sound hw
    exact ⟨u, h1, .inf (Or.inr h2)⟩
  · split at h
    · next hw =>
      cases h
      obtain ⟨u, h1, h2⟩ := readWord_sound hw
      exact ⟨u, h1, .inf (Or.inl h2)⟩
    · split at h
      · next hw =>
        obtain ⟨u, h1, h2⟩ := readWord_sound hw
        obtain ⟨s, h3, h4⟩ := readNan_sound (Option.some.inj h) h2
        exact ⟨s, h1.trans h3, h4⟩
      · exact readNumber_sound h

/-- A number starts with a digit or the radix character. -/
theorem mantissa_head {base : Nat} (hb : base ≤ 10) {m : CStr} {n f : Nat} (h : Mantissa base m n f) :
    ∃ c tl, m = c :: tl ∧ (('0' ≤ c ∧ c ≤ '9') ∨ c = '.') := by
  have hd : ∀ c, isBaseDigit base c = true → '0' ≤ c ∧ c ≤ '9' := by
    intro c hc
    unfold isBaseDigit digitVal at hc
    by_cases h0 : '0' ≤ c ∧ c ≤ '9'
    · exact h0
    · rw [if_neg h0] at hc
      split at hc
      · next v hv =>
        have hlt : v < base := by simpa using hc
        split at hv
        · next ha => cases hv; have : 97 ≤ c.toNat := ha.1; omega
        · split at hv
          · next ha => cases hv; have : 65 ≤ c.toNat := ha.1; omega
          · cases hv
      · cases hc
  cases h with
  | whole hn =>
    obtain ⟨hne, hall, _⟩ := numeral_all hn (by omega)
    obtain ⟨c, tl, rfl⟩ := List.exists_cons_of_ne_nil hne
    exact ⟨c, tl, rfl, Or.inl (hd c (hall c (by simp)))⟩
  | @point ip fp _ hn =>
    obtain ⟨_, hall, _⟩ := numeral_all hn (by omega)
    cases ip with
    | nil => exact ⟨'.', fp, rfl, Or.inr rfl⟩
    | cons c ip => exact ⟨c, _, rfl, Or.inl (hd c (hall c (by simp)))⟩

theorem number_char {c : Char} (h : ('0' ≤ c ∧ c ≤ '9') ∨ c = '.') :
    toUpper c ≠ 'I' ∧ toUpper c ≠ 'N' ∧ isSpace c = false ∧ c ≠ '+' ∧ c ≠ '-' := by
  rcases h with h | rfl
  · have h1 : 48 ≤ c.toNat := h.1
    have h2 : c.toNat ≤ 57 := h.2
    have : c.toNat = 48 + (c.toNat - 48) := by omega
    generalize hk : c.toNat - 48 = k at *
    rw [char_eq_ofNat this]
    have : k ≤ 9 := by omega
    interval_cases k <;> decide
  · decide

theorem word_char {c : Char} (h : toUpper c = 'I' ∨ toUpper c = 'N') :
    isSpace c = false ∧ c ≠ '+' ∧ c ≠ '-' := by
  refine ⟨?_, ?_, ?_⟩
  · cases hs : isSpace c with
    | false => rfl
    | true =>
      exfalso
      unfold isSpace at hs
      simp only [Bool.or_eq_true, beq_iff_eq] at hs
      rcases hs with ((((rfl | rfl) | rfl) | rfl) | rfl) | rfl <;> exact absurd h (by decide)
  · rintro rfl; exact absurd h (by decide)
  · rintro rfl; exact absurd h (by decide)

theorem unsigned_head {t : CStr} {v : Bool → FloatVal} (h : Unsigned t v) :
    ∃ c tl, t = c :: tl ∧ isSpace c = false ∧ c ≠ '+' ∧ c ≠ '-' := by
  have hword : ∀ {t : CStr} {a : Char} {w : CStr}, t.map toUpper = a :: w → a = 'I' ∨ a = 'N' →
      ∃ c tl, t = c :: tl ∧ isSpace c = false ∧ c ≠ '+' ∧ c ≠ '-' := by
    intro t a w ht ha
    cases t with
    | nil => cases ht
    | cons c tl =>
      simp only [List.map_cons, List.cons.injEq] at ht
      exact ⟨c, tl, rfl, word_char (by rw [ht.1]; exact ha)⟩
  cases h with
  | decimal hm he =>
    obtain ⟨c, tl, rfl, hc⟩ := mantissa_head (by decide) hm
    exact ⟨c, _, rfl, (number_char hc).2.2⟩
  | hexadecimal hx hm he => exact ⟨'0', _, rfl, by decide⟩
  | inf ht =>
    rcases ht with ht | ht
    · exact hword ht (Or.inl rfl)
    · exact hword ht (Or.inl rfl)
  | nan ht => exact hword ht (Or.inr rfl)
  | nanSeq ht _ =>
    obtain ⟨c, tl, rfl, h⟩ := hword ht (Or.inr rfl)
    exact ⟨c, _, rfl, h⟩

theorem readUnsigned_number {t : CStr} {c : Char} (hc : t.head? = some c) (h : toUpper c ≠ 'I') (h2 : toUpper c ≠ 'N') :
    readUnsigned t = readNumber t := by
  unfold readUnsigned
  rw [readWord_none (a := 'I') (w' := cs "NFINITY") (by decide) hc h,
    readWord_none (a := 'I') (w' := cs "NF") (by decide) hc h,
    readWord_none (a := 'N') (w' := cs "AN") (by decide) hc h2]

theorem readUnsigned_nan {u : CStr} (hu : u.map toUpper = cs "NAN") (r : CStr) :
    readUnsigned (u ++ r) = some (readNan r) := by
  have hc : ∃ c, (u ++ r).head? = some c ∧ toUpper c = 'N' := by
    cases u with
    | nil => cases hu
    | cons c tl =>
      refine ⟨c, rfl, ?_⟩
      have := congrArg List.head? hu
      exact Option.some.inj this
  obtain ⟨c, h1, h2⟩ := hc
  unfold readUnsigned
  rw [readWord_none (a := 'I') (w' := cs "NFINITY") (by decide) h1 (by rw [h2]; decide),
    readWord_none (a := 'I') (w' := cs "NF") (by decide) h1 (by rw [h2]; decide), readWord_append hu]

theorem readNan_len (t : CStr) : (readNan t).2.length ≤ t.length := by
  unfold readNan
  split
  · next r =>
    split
    · next r' heq =>
      have := dropWhile_len isNchar r
      rw [heq] at this
      simp only [List.length_cons] at this ⊢
      omega
    · exact Nat.le_refl _
  · exact Nat.le_refl _

theorem readNan_seq {ns : CStr} (h : ∀ c ∈ ns, isNchar c = true) (r : CStr) :
    readNan ('(' :: (ns ++ [')']) ++ r) = (fun neg => .nan neg ns, r) := by
  unfold readNan
  rw [List.cons_append, List.append_assoc]
  show (match (ns ++ ([')'] ++ r)).dropWhile isNchar with | ')' :: r' => _ | _ => _) = _
  rw [tw_append h, dw_append h, List.singleton_append, List.takeWhile_cons_of_neg (by decide),
    List.dropWhile_cons_of_neg (by decide)]
  simp

theorem readUnsigned_max {t : CStr} {v : Bool → FloatVal} (h : Unsigned t v) (rest : CStr) :
    ∃ v' r, readUnsigned (t ++ rest) = some (v', r) ∧ r.length ≤ rest.length := by
  cases h with
  | decimal hm he =>
    obtain ⟨c, tl, hm', hc⟩ := mantissa_head (by decide) hm
    obtain ⟨h1, h2, _⟩ := number_char hc
    rw [readUnsigned_number (c := c) (by rw [hm']; rfl) h1 h2]
    exact readNumber_decimal hm he rest
  | hexadecimal hx hm he =>
    rw [readUnsigned_number (c := '0') rfl (by decide) (by decide)]
    exact readNumber_hexadecimal hx hm he rest
  | inf ht =>
    have h8 : ∀ {r}, readWord (cs "INFINITY") (t ++ rest) = some r → t.map toUpper = cs "INF" → r.length ≤ rest.length := by
      intro r hr ht
      obtain ⟨u, h1, h2⟩ := readWord_sound hr
      have hl := congrArg List.length h1
      have hu : u.length = 8 := by rw [← List.length_map, h2]; decide
      have htl : t.length = 3 := by rw [← List.length_map, ht]; decide
      rw [List.length_append, List.length_append] at hl
      omega
    unfold readUnsigned
    rcases ht with ht | ht
    · cases hw : readWord (cs "INFINITY") (t ++ rest) with
      | some r => exact ⟨_, _, rfl, h8 hw ht⟩
      | none =>
        rw [readWord_append ht]
        exact ⟨_, _, rfl, Nat.le_refl _⟩
    · rw [readWord_append ht]
      exact ⟨_, _, rfl, Nat.le_refl _⟩
  | nan ht =>
    rw [readUnsigned_nan ht]
    exact ⟨_, _, rfl, readNan_len _⟩
  | @nanSeq u ns ht hn =>
    rw [List.append_assoc, readUnsigned_nan ht, readNan_seq hn]
    exact ⟨_, _, rfl, Nat.le_refl _⟩

theorem readUnsigned_exact {t : CStr} {v : Bool → FloatVal} (h : Unsigned t v) : readUnsigned t = some (v, []) := by
  cases h with
  | decimal hm he =>
    obtain ⟨c, tl, hm', hc⟩ := mantissa_head (by decide) hm
    obtain ⟨h1, h2, _⟩ := number_char hc
    rw [readUnsigned_number (c := c) (by rw [hm']; rfl) h1 h2]
    exact readNumber_decimal_exact hm he
  | hexadecimal hx hm he =>
    rw [readUnsigned_number (c := '0') rfl (by decide) (by decide)]
    exact readNumber_hexadecimal_exact hx hm he
  | inf ht =>
    unfold readUnsigned
    rcases ht with ht | ht
    · have h1 : readWord (cs "INFINITY") t = none := by
        unfold readWord
        have htl : t.length = 3 := by rw [← List.length_map (f := toUpper), ht]; decide
        rw [if_neg]
        intro hx
        have := congrArg List.length hx
        rw [List.length_map, List.length_take, htl] at this
        exact absurd this (by decide)
      have h2 := readWord_append ht []
      rw [List.append_nil] at h2
      rw [h1, h2]
    · have h2 := readWord_append ht []
      rw [List.append_nil] at h2
      rw [h2]
  | nan ht =>
    have := readUnsigned_nan ht []
    rw [List.append_nil] at this
    rw [this]; rfl
  | @nanSeq u ns ht hn =>
    have := readNan_seq hn []
    rw [List.append_nil] at this
    rw [readUnsigned_nan ht, this]

theorem unsigned_unique {t : CStr} {v v' : Bool → FloatVal} (h : Unsigned t v) (h' : Unsigned t v') : v = v' := by
  have := (readUnsigned_exact h).symm.trans (readUnsigned_exact h')
  cases this
  rfl

/-! ### the whole text -/

theorem dropWhile_white_append {w r : CStr} (h : White w) : (w ++ r).dropWhile isSpace = r.dropWhile isSpace := dw_append h r

theorem white_takeWhile (s : CStr) : White (s.takeWhile isSpace) := tw_all s

theorem dropWhile_nonspace {c : Char} {r : CStr} (h : isSpace c = false) : (c :: r).dropWhile isSpace = c :: r :=
  List.dropWhile_cons_of_neg (by simp [h])

theorem sign_head {sg t : CStr} {s : Int} (hs : Sign sg s) {c : Char} {tl : CStr} (ht : t = c :: tl)
    (hc : isSpace c = false) (r : CStr) : (sg ++ t ++ r).dropWhile isSpace = sg ++ t ++ r := by
  subst ht
  cases hs with
  | none => exact dropWhile_nonspace hc
  | plus => exact dropWhile_nonspace (by decide)
  | minus => exact dropWhile_nonspace (by decide)

theorem strtodC_ok {δ : Type} (round : FloatVal → δ) : Strtod round (strtodC round) := by
  intro s
  constructor
  · intro w t rest v hs hw ht hmax
    cases ht with
    | @mk sg u sn v hsg hu =>
      obtain ⟨c, tl, hc, h1, h2, h3⟩ := unsigned_head hu
      have hd : s.dropWhile isSpace = sg ++ (u ++ rest) := by
        rw [hs, List.append_assoc, dropWhile_white_append hw, sign_head hsg hc h1, List.append_assoc]
      have hss : scanSign (sg ++ (u ++ rest)) = (sn, u ++ rest) := by
        apply scanSign_sign hsg
        · rw [hc]; simpa using h2
        · rw [hc]; simpa using h3
      obtain ⟨v', r', hr1, hr2⟩ := readUnsigned_max hu rest
      obtain ⟨u', hu1, hu2⟩ := readUnsigned_sound hr1
      have hlen := hmax (sg ++ u') r' _ (by
        rw [hs, List.append_assoc, List.append_assoc, hu1]; simp [List.append_assoc]) (.mk hsg hu2)
      rw [List.length_append, List.length_append] at hlen
      have hl := congrArg List.length hu1
      rw [List.length_append, List.length_append] at hl
      have hul : u.length = u'.length := by omega
      obtain ⟨he1, he2⟩ := List.append_inj hu1 hul
      subst he1 he2
      have := unsigned_unique hu hu2
      subst this
      unfold strtodC
      rw [hd, hss]
      dsimp only
      rw [hr1]
  · intro hnone
    unfold strtodC
    cases hss : scanSign (s.dropWhile isSpace) with
    | mk sn t =>
      dsimp only
      cases hr : readUnsigned t with
      | none => rfl
      | some p =>
        exfalso
        obtain ⟨u, h1, h2⟩ := readUnsigned_sound (v := p.1) (r := p.2) hr
        obtain ⟨sg, h3, h4⟩ := scanSign_sound hss
        refine hnone (s.takeWhile isSpace) (sg ++ u) p.2 _ ?_ (white_takeWhile s) (.mk h4 h2)
        rw [List.append_assoc, List.append_assoc, ← h1, ← h3, List.takeWhile_append_dropWhile]

/-! ### any such `strtod` -/

theorem subject_head {t : CStr} {v : FloatVal} (h : Subject t v) : ∃ c tl, t = c :: tl ∧ isSpace c = false := by
  cases h with
  | @mk sg u sn v hsg hu =>
    obtain ⟨c, tl, hc, h1, _⟩ := unsigned_head hu
    cases hsg with
    | none => exact ⟨c, tl, hc, h1⟩
    | plus => exact ⟨'+', u, rfl, by decide⟩
    | minus => exact ⟨'-', u, rfl, by decide⟩

/-- White space in front of a subject sequence is all the white space there is. -/
theorem white_unique {w w' t t' : CStr} (hw : White w) (hw' : White w') (ht : ∃ c tl, t = c :: tl ∧ isSpace c = false)
    (ht' : ∃ c tl, t' = c :: tl ∧ isSpace c = false) (h : w ++ t = w' ++ t') : w = w' ∧ t = t' := by
  obtain ⟨c, tl, rfl, hc⟩ := ht
  obtain ⟨c', tl', rfl, hc'⟩ := ht'
  have := congrArg (List.dropWhile isSpace) h
  rw [dropWhile_white_append hw, dropWhile_white_append hw', dropWhile_nonspace hc, dropWhile_nonspace hc'] at this
  rw [this] at h
  exact ⟨List.append_cancel_right h, this⟩

theorem subject_unique {t : CStr} {v v' : FloatVal} (h : Subject t v) (h' : Subject t v') : v = v' := by
  have hx : ∀ v, Subject t v → strtodC id t = (v, []) := by
    intro v h
    refine (strtodC_ok id t).1 [] t [] v (by simp) (by intro c hc; cases hc) h ?_
    intro t' rest' v' he _
    have := congrArg List.length he
    simp at this
    omega
  have := (hx v h).symm.trans (hx v' h')
  cases this
  rfl

theorem floatText_unique {s : CStr} {v v' : FloatVal} (h : FloatText s v) (h' : FloatText s v') : v = v' := by
  cases h with
  | @mk w t _ hw ht =>
    generalize hs : w ++ t = s at h'
    cases h' with
    | mk hw' ht' =>
      obtain ⟨-, rfl⟩ := white_unique hw hw' (subject_head ht) (subject_head ht') hs
      exact subject_unique ht ht'

section
variable {δ : Type} {round : FloatVal → δ} {f : CStr → δ × CStr}

/-- A text that is a number is read completely. -/
theorem strtod_all (hf : Strtod round f) {s : CStr} {v : FloatVal} (h : FloatText s v) : f s = (round v, []) := by
  cases h with
  | @mk w t _ hw ht =>
    refine (hf (w ++ t)).1 w t [] v (by simp) hw ht ?_
    intro t' rest' v' he _
    have := congrArg List.length he
    simp at this
    omega

/-- What is read completely is a number, or empty. -/
theorem strtod_rest (hf : Strtod round f) {s : CStr} (h : (f s).2 = []) (hne : s ≠ []) : ∃ v, FloatText s v := by
  by_cases hn : ∀ w t rest v, s = w ++ t ++ rest → White w → ¬ Subject t v
  · rw [(hf s).2 hn] at h
    exact absurd h hne
  · push Not at hn
    obtain ⟨w, t, rest, v, hs, hw, ht⟩ := hn
    -- the longest subject sequence
    have hex : ∃ n t rest v, s = w ++ t ++ rest ∧ Subject t v ∧ t.length = n := ⟨_, t, rest, v, hs, ht, rfl⟩
    have hbd : ∀ n, (∃ t rest v, s = w ++ t ++ rest ∧ Subject t v ∧ t.length = n) → n ≤ s.length := by
      rintro n ⟨t, rest, v, h1, _, rfl⟩
      rw [h1]; simp; omega
    obtain ⟨n, hn1, hn2⟩ : ∃ n, (∃ t rest v, s = w ++ t ++ rest ∧ Subject t v ∧ t.length = n) ∧
        ∀ k, (∃ t rest v, s = w ++ t ++ rest ∧ Subject t v ∧ t.length = k) → k ≤ n := by
      obtain ⟨n0, hn0⟩ := hex
      by_contra hc
      push Not at hc
      have : ∀ j, ∃ k, j ≤ k ∧ ∃ t rest v, s = w ++ t ++ rest ∧ Subject t v ∧ t.length = k := by
        intro j
        induction j with
        | zero => exact ⟨n0, Nat.zero_le _, hn0⟩
        | succ j ih =>
          obtain ⟨k, hk, hk2⟩ := ih
          obtain ⟨k', hk3, hk4⟩ := hc k hk2
          exact ⟨k', by omega, hk3⟩
      obtain ⟨k, hk, hk2⟩ := this (s.length + 1)
      have := hbd k hk2
      omega
    obtain ⟨t, rest, v, hs, ht, rfl⟩ := hn1
    have := (hf s).1 w t rest v hs hw ht (fun t' rest' v' h1 h2 => hn2 _ ⟨t', rest', v', h1, h2, rfl⟩)
    rw [this] at h
    dsimp only at h
    subst h
    rw [List.append_nil] at hs
    exact ⟨v, by rw [hs]; exact .mk hw ht⟩

theorem strtod_empty (hf : Strtod round f) : f [] = (round (.num false 0), []) := by
  refine (hf []).2 ?_
  intro w t rest v hs hw ht
  obtain ⟨c, tl, rfl, _⟩ := subject_head ht
  simp at hs

end

end Argtable
