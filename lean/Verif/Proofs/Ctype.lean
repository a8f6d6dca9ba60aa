import Verif.Model.Ctype
import Verif.Spec.Ctype
import Verif.Proofs.Decode
import Verif.Proofs.IntScan
import Verif.Proofs.DateConv
import Verif.Proofs.RexLiteral
/-!
# Lemmas about the functions of `<ctype.h>`
-/

namespace Argtable
open Spec

/-- `x` is `y`, or it is undefined and `P` does not hold. -/
def Guard {α : Type} (P : Prop) (x y : M α) : Prop := x = y ∨ (x = .error ctypeFault ∧ ¬ P)

theorem Guard.rfl {α : Type} {P : Prop} {x : M α} : Guard P x x := Or.inl (Eq.refl x)

theorem Guard.bind {α β : Type} {P : Prop} {x y : M α} {f g : α → M β} (h : Guard P x y)
    (hf : ∀ a, y = .ok a → Guard P (f a) (g a)) : Guard P (x >>= f) (y >>= g) := by
  rcases h with h | ⟨h, hp⟩
  · rw [h]
    cases hy : y with
    | error e => exact .rfl
    | ok a => exact hf a hy
  · rw [h]; exact Or.inr ⟨Eq.refl _, hp⟩

/-- The guarded call on the left only. -/
theorem Guard.left {α β : Type} {P : Prop} {x : M α} {a : α} {f : α → M β} {y : M β} (h : Guard P x (.ok a))
    (hf : Guard P (f a) y) : Guard P (x >>= f) y := by
  rcases h with h | ⟨h, hp⟩
  · rw [h]; exact hf
  · rw [h]; exact Or.inr ⟨Eq.refl _, hp⟩

theorem Guard.ite {α : Type} {P c : Prop} [Decidable c] {x y x' y' : M α} (h : c → Guard P x x') (h' : ¬ c → Guard P y y') :
    Guard P (if c then x else y) (if c then x' else y') := by
  by_cases hc : c
  · rw [if_pos hc, if_pos hc]; exact h hc
  · rw [if_neg hc, if_neg hc]; exact h' hc

theorem Guard.upTo {α : Type} {texts : List CStr} {x y : M α} (h : Guard (∀ t ∈ texts, Ascii t) x y) : UpToCtype texts x y := by
  rcases h with h | ⟨h, hp⟩
  · exact ⟨Or.inl h, fun _ => h⟩
  · exact ⟨Or.inr h, fun hh => absurd hh hp⟩

/-! ### one call -/

theorem ctInt_guard {α : Type} {P : Prop} {i : Int} (h : P → ctypeOk i = true) (r : α) : Guard P (ctInt i r) (.ok r) := by
  unfold ctInt
  by_cases hc : ctypeOk i = true
  · rw [if_pos hc]; exact .rfl
  · rw [if_neg hc]; exact Or.inr ⟨rfl, fun hp => hc (h hp)⟩

theorem ascii_ok {c : Char} (h : c.toNat < 128) : ctypeOk (charInt c) = true := by
  unfold charInt ctypeOk
  rw [if_pos h]
  have : (0 : Int) ≤ (c.toNat : Int) := Int.natCast_nonneg _
  have h2 : (c.toNat : Int) ≤ 255 := by omega
  simp [h2]

theorem ct_guard {α : Type} {P : Prop} {c : Char} (h : P → c.toNat < 128) (r : α) : Guard P (ct c r) (.ok r) :=
  ctInt_guard (fun hp => ascii_ok (h hp)) r

theorem not_ok_iff {c : Char} : ctypeOk (charInt c) = false ↔ High c := by
  unfold charInt ctypeOk High
  by_cases h : c.toNat < 128
  · rw [if_pos h]
    simp
    omega
  · rw [if_neg h]
    by_cases h2 : c.toNat < 256
    · rw [if_pos h2]
      simp
      omega
    · rw [if_neg h2]
      simp
      omega

theorem high_not_ok {c : Char} (h : High c) : ctypeOk (charInt c) = false := not_ok_iff.2 h

theorem ct_inv {α : Type} {c : Char} {r : α} {f : Fault} (h : ct c r = .error f) : High c := by
  unfold ct ctInt at h
  by_cases hc : ctypeOk (charInt c) = true
  · rw [if_pos hc] at h; cases h
  · exact not_ok_iff.1 (by simpa using hc)

theorem ct_high {α : Type} {c : Char} (h : High c) (r : α) : ct c r = .error ctypeFault := by
  unfold ct ctInt
  rw [high_not_ok h]
  rfl

theorem ct_ascii {α : Type} {c : Char} (h : c.toNat < 128) (r : α) : ct c r = .ok r := by
  unfold ct ctInt
  rw [if_pos (ascii_ok h)]

theorem space_ascii {c : Char} (h : isSpace c = true) : c.toNat < 128 := by
  simp only [isSpace, Bool.or_eq_true, beq_iff_eq] at h
  rcases h with ((((h | h) | h) | h) | h) | h <;> subst h <;> decide

theorem White.ascii {w : CStr} (h : White w) : Ascii w := fun c hc => space_ascii (h c hc)

theorem skipSpaceCt_guard {P : Prop} : ∀ s : CStr, (P → Ascii s) → Guard P (skipSpaceCt s) (.ok (s.dropWhile isSpace)) := by
  intro s
  induction s with
  | nil => intro _; exact .rfl
  | cons c s ih =>
    intro h
    rw [skipSpaceCt]
    refine Guard.left (ct_guard (fun hp => h hp c (List.mem_cons_self ..)) _) ?_
    rw [List.dropWhile_cons]
    by_cases hc : isSpace c = true
    · rw [if_pos hc, if_pos hc]
      exact ih fun hp x hx => h hp x (List.mem_cons_of_mem _ hx)
    · rw [if_neg hc, if_neg hc]; exact .rfl

theorem skipSpaceCt_white : ∀ (w r : CStr), White w → skipSpaceCt (w ++ r) = skipSpaceCt r := by
  intro w
  induction w with
  | nil => intro r _; rfl
  | cons c w ih =>
    intro r h
    have hc := h c (List.mem_cons_self ..)
    rw [List.cons_append, skipSpaceCt, ct_ascii (space_ascii hc)]
    show (if isSpace c = true then _ else _) = _
    rw [if_pos hc]
    exact ih r fun x hx => h x (List.mem_cons_of_mem _ hx)

theorem skipSpaceCt_high {c : Char} {r : CStr} (h : High c) : skipSpaceCt (c :: r) = .error ctypeFault := by
  rw [skipSpaceCt, ct_high h]; rfl

/-! ### arg_int -/

theorem Spec.Ascii.suffix {s t : CStr} (h : Ascii s) (ht : t <:+ s) : Ascii t := fun c hc => h c (ht.subset hc)

theorem scanSign_suffix (s : CStr) : (scanSign s).2 <:+ s := by
  unfold scanSign
  split
  · exact List.suffix_cons _ _
  · exact List.suffix_cons _ _
  · exact List.suffix_refl _

theorem strtol0XCt_guard {P : Prop} {a : CStr} (h : P → Ascii a) (X : Char) (base : Nat) :
    Guard P (strtol0XCt a X base) (strtol0X a X base) := by
  unfold strtol0XCt strtol0X
  refine Guard.left (skipSpaceCt_guard a h) ?_
  have hs : (scanSign (a.dropWhile isSpace)).2 <:+ a := (scanSign_suffix _).trans (List.dropWhile_suffix _)
  revert hs
  obtain ⟨s, ptr⟩ := scanSign (a.dropWhile isSpace)
  intro hs
  dsimp only at hs ⊢
  match ptr with
  | [] => exact .rfl
  | [c] =>
    by_cases hc : c = '0'
    · subst hc; exact .rfl
    · simp only
      exact .rfl
  | c :: x :: ptr =>
    by_cases hc : c = '0'
    · subst hc
      refine Guard.left (ct_guard (fun hp => h hp x (hs.subset (by simp))) _) ?_
      exact .rfl
    · split
      · next he => exact absurd (List.cons.inj he).1 hc
      · split
        · next he => exact absurd (List.cons.inj he).1 hc
        · exact .rfl

theorem detectsuffixCt_guard {P : Prop} : ∀ (s d : CStr), (P → Ascii s) → Guard P (detectsuffixCt s d) (.ok (detectsuffix s d)) := by
  intro s
  induction s with
  | nil => intro d _; cases d <;> exact .rfl
  | cons c s ih =>
    intro d h
    have hc : P → c.toNat < 128 := fun hp => h hp c (List.mem_cons_self ..)
    cases d with
    | nil =>
      rw [detectsuffixCt, detectsuffix]
      · refine Guard.left (ct_guard hc _) ?_
        exact Guard.left (skipSpaceCt_guard _ h) .rfl
      · simp
    | cons d ds =>
      rw [detectsuffixCt, detectsuffix]
      refine Guard.left (ct_guard hc _) ?_
      by_cases he : toUpper c = toUpper d
      · rw [if_pos he, if_pos he]; exact ih ds fun hp x hx => h hp x (List.mem_cons_of_mem _ hx)
      · rw [if_neg he, if_neg he]; exact .rfl

theorem intConvertCt_guard {P : Prop} {a : CStr} (h : P → Ascii a) : Guard P (intConvertCt a) (intConvert a) := by
  unfold intConvertCt intConvert
  refine Guard.bind (strtol0XCt_guard h _ _) fun q _ => ?_
  obtain ⟨v, e⟩ := q
  refine Guard.ite (fun _ => .rfl) fun _ => ?_
  refine Guard.bind (strtol0XCt_guard h _ _) fun q _ => ?_
  obtain ⟨v, e⟩ := q
  refine Guard.ite (fun _ => .rfl) fun _ => ?_
  refine Guard.bind (strtol0XCt_guard h _ _) fun q _ => ?_
  obtain ⟨v, e⟩ := q
  exact .rfl

theorem intSuffixCt_guard {P : Prop} (v : Int) {e : CStr} (h : P → Ascii e) : Guard P (intSuffixCt v e) (intSuffix v e) := by
  unfold intSuffixCt intSuffix
  dsimp only
  refine Guard.left (detectsuffixCt_guard _ _ h) ?_
  refine Guard.ite (fun _ => .rfl) fun _ => ?_
  refine Guard.left (detectsuffixCt_guard _ _ h) ?_
  refine Guard.ite (fun _ => .rfl) fun _ => ?_
  refine Guard.left (detectsuffixCt_guard _ _ h) ?_
  refine Guard.ite (fun _ => .rfl) fun _ => ?_
  refine Guard.left (detectsuffixCt_guard _ _ h) ?_
  rcases Bool.eq_false_or_eq_true (detectsuffix e []) with hc | hc
  · rw [hc]; exact .rfl
  · rw [hc]; exact .rfl

/-! ### the undefined calls of arg_int -/

theorem skipSpaceCt_cases (s : CStr) : (skipSpaceCt s = .ok (s.dropWhile isSpace)) ∨
    (skipSpaceCt s = .error ctypeFault ∧ ∃ w b r, s = w ++ b :: r ∧ White w ∧ High b) := by
  induction s with
  | nil => exact Or.inl rfl
  | cons c s ih =>
    by_cases hb : High c
    · exact Or.inr ⟨skipSpaceCt_high hb, [], c, s, rfl, (by intro x hx; cases hx), hb⟩
    · have hok : ctypeOk (charInt c) = true := by
        rcases Bool.eq_false_or_eq_true (ctypeOk (charInt c)) with h | h
        · exact h
        · exact absurd (not_ok_iff.1 h) hb
      have e : skipSpaceCt (c :: s) = if isSpace c = true then skipSpaceCt s else .ok (c :: s) := by
        rw [skipSpaceCt]; unfold ct ctInt; rw [if_pos hok]; rfl
      rw [e, List.dropWhile_cons]
      by_cases hc : isSpace c = true
      · rw [if_pos hc, if_pos hc]
        rcases ih with h | ⟨h, w, b, r, h1, h2, h3⟩
        · exact Or.inl h
        · refine Or.inr ⟨h, c :: w, b, r, by rw [h1]; rfl, ?_, h3⟩
          intro x hx
          rcases List.mem_cons.1 hx with rfl | hx
          · exact hc
          · exact h2 x hx
      · rw [if_neg hc, if_neg hc]; exact Or.inl rfl

theorem scanSign_split (s : CStr) : ∃ sg sign, Sign sg sign ∧ s = sg ++ (scanSign s).2 := by
  unfold scanSign
  split
  · exact ⟨_, _, .plus, rfl⟩
  · exact ⟨_, _, .minus, rfl⟩
  · exact ⟨_, _, .none, rfl⟩

theorem dropWhile_split (s : CStr) : ∃ w, White w ∧ s = w ++ s.dropWhile isSpace := by
  refine ⟨s.takeWhile isSpace, ?_, List.takeWhile_append_dropWhile.symm⟩
  intro c hc
  exact (List.all_eq_true.1 (List.all_takeWhile (p := isSpace) (l := s))) c hc

theorem strtol0X_fault {a : CStr} {X : Char} {base : Nat} {f : Fault} (h : strtol0X a X base = .error f) :
    f = .ub "strtol0X: signed overflow in s * val" := by
  unfold strtol0X at h
  dsimp only at h
  split at h
  · split at h
    · cases h
    · split at h
      · cases h
      · split at h
        · cases h; rfl
        · cases h
  · cases h

/-- The first two ways in which an argument can be undefined. -/
theorem strtol0XCt_inv {a : CStr} {X : Char} {base : Nat} (h : strtol0XCt a X base = .error ctypeFault) : CtypeInt a := by
  unfold strtol0XCt at h
  rcases skipSpaceCt_cases a with h1 | ⟨-, w, b, r, rfl, hw, hb⟩
  · rw [h1, bind_ok] at h
    obtain ⟨w, hw, ha⟩ := dropWhile_split a
    obtain ⟨sg, sign, hs, hd⟩ := scanSign_split (a.dropWhile isSpace)
    revert h hd
    obtain ⟨s, ptr⟩ := scanSign (a.dropWhile isSpace)
    intro h hd
    dsimp only at h hd
    split at h
    · next x ptr =>
      cases hx : ct x (toUpper x) with
      | error f =>
        rw [ha, hd]
        exact .zero w sg sign x ptr hw hs (ct_inv hx)
      | ok u =>
        rw [hx, bind_ok] at h
        split at h
        · cases h
        · split at h
          · cases h
          · split at h
            · exact absurd (Except.error.inj h) (by decide)
            · cases h
    · cases h
  · exact .first w b r hw hb

theorem Guard.of {α : Type} {P : Prop} {x y : M α} (h : Guard P x y) (hx : x ≠ .error ctypeFault) : x = y := by
  rcases h with h | ⟨h, -⟩
  · exact h
  · exact absurd h hx

theorem intConvertCt_inv {a : CStr} (h : intConvertCt a = .error ctypeFault) : CtypeInt a := by
  by_contra hn
  have key : ∀ X base, strtol0XCt a X base = strtol0X a X base := fun X base =>
    (strtol0XCt_guard (P := False) (fun h => h.elim) X base).of fun he => hn (strtol0XCt_inv he)
  have e : intConvertCt a = intConvert a := by
    unfold intConvertCt intConvert
    simp only [key]
  rw [e] at h
  rcases intConvert_head h with ⟨_, _, _, _, h1, -⟩ | ⟨h1, -⟩ | h1
  · cases h1
  · exact absurd (Except.error.inj h1) (by decide)
  · cases h1

theorem toUpper_ascii {l : Char} {s : CStr} (hs : ∀ c ∈ s, c.toNat < 128) (h : toUpper l ∈ s) : l.toNat < 128 := by
  by_contra hn
  have := (high_char (c := l) (by omega)).2
  rw [this] at h
  exact hn (hs _ h)

theorem detectsuffixCt_high {b : Char} {r d : CStr} (h : High b) : detectsuffixCt (b :: r) d = .error ctypeFault := by
  cases d with
  | nil => rw [detectsuffixCt, ct_high h]; rfl
  | cons d ds => rw [detectsuffixCt, ct_high h]; rfl

theorem detectsuffixCt_miss {c d : Char} {s ds : CStr} (hc : c.toNat < 128) (h : toUpper c ≠ toUpper d) :
    detectsuffixCt (c :: s) (d :: ds) = .ok false := by
  rw [detectsuffixCt, ct_ascii hc, bind_ok, if_neg h]

theorem detectsuffixCt_hit {c d : Char} {s ds : CStr} (hc : c.toNat < 128) (h : toUpper c = toUpper d) :
    detectsuffixCt (c :: s) (d :: ds) = detectsuffixCt s ds := by
  rw [detectsuffixCt, ct_ascii hc, bind_ok, if_pos h]

theorem detectsuffixCt_white {w r : CStr} {b : Char} (hw : White w) (hb : High b) :
    detectsuffixCt (w ++ b :: r) [] = .error ctypeFault := by
  cases w with
  | nil => exact detectsuffixCt_high hb
  | cons c w =>
    rw [List.cons_append, detectsuffixCt, ct_ascii (space_ascii (hw c (List.mem_cons_self ..))), bind_ok, ← List.cons_append,
      skipSpaceCt_white _ _ hw, skipSpaceCt_high hb]
    rfl

theorem detectsuffixCt_inv : ∀ (d s : CStr), detectsuffixCt s d = .error ctypeFault →
    ∃ p q w b r, s = p ++ (w ++ b :: r) ∧ p.map toUpper ++ q = d.map toUpper ∧ White w ∧ High b ∧ (q = [] ∨ w = []) := by
  intro d
  induction d with
  | nil =>
    intro s h
    cases s with
    | nil => cases h
    | cons c s =>
      rw [detectsuffixCt] at h
      cases hc : ct c (toUpper c) with
      | error f => exact ⟨[], [], [], c, s, rfl, rfl, (by intro x hx; cases hx), ct_inv hc, Or.inl rfl⟩
      | ok u =>
        rw [hc, bind_ok] at h
        rcases skipSpaceCt_cases (c :: s) with h1 | ⟨-, w, b, r, h1, hw, hb⟩
        · rw [h1] at h; cases h
        · exact ⟨[], [], w, b, r, h1, rfl, hw, hb, Or.inl rfl⟩
  | cons d ds ih =>
    intro s h
    cases s with
    | nil => cases h
    | cons c s =>
      rw [detectsuffixCt] at h
      cases hc : ct c (toUpper c) with
      | error f => exact ⟨[], _, [], c, s, rfl, rfl, (by intro x hx; cases hx), ct_inv hc, Or.inr rfl⟩
      | ok u =>
        have hu : u = toUpper c := by
          unfold ct ctInt at hc
          split at hc
          · cases hc; rfl
          · cases hc
        subst hu
        rw [hc, bind_ok] at h
        split at h
        · next he =>
          obtain ⟨p, q, w, b, r, h1, h2, h3, h4, h5⟩ := ih s h
          exact ⟨c :: p, q, w, b, r, by rw [h1]; rfl, by simp [he, h2], h3, h4, h5⟩
        · cases h

/-- An undefined call for a suffix of two letters. -/
theorem suffix_meets {s : CStr} {a : Char} {k : Int} (ha : a ∈ cs "KMG") (h : detectsuffixCt s [a, 'B'] = .error ctypeFault)
    (hk : ∀ t : CStr, t.map toUpper = [a, 'B'] → Suffix t k) : Meets s := by
  obtain ⟨p, q, w, b, r, rfl, h2, hw, hb, h5⟩ := detectsuffixCt_inv _ _ h
  have hup : toUpper a = a ∧ toUpper 'B' = 'B' := by
    have : ∀ a ∈ cs "KMG", toUpper a = a := by decide
    exact ⟨this a ha, by decide⟩
  simp only [List.map_cons, List.map_nil, hup] at h2
  match p, h2 with
  | [], _ => exact .suffix [] w b r 1 .none hw hb
  | [l], h2 =>
    simp only [List.map_cons, List.map_nil, List.cons_append, List.nil_append, List.cons.injEq] at h2
    rcases h5 with rfl | rfl
    · cases h2.2
    · exact .letter l b r (by rw [h2.1]; exact ha) hb
  | [l, l'], h2 =>
    refine .suffix [l, l'] w b r k (hk _ ?_) hw hb
    simp only [List.map_cons, List.map_nil, List.cons_append, List.nil_append, List.cons.injEq] at h2 ⊢
    exact ⟨h2.1, h2.2.1, trivial⟩
  | _ :: _ :: _ :: _, h2 => simp at h2

theorem intScale_fault {v k e : Int} (f : Fault) (h : intScale v k e = .error f) : f ≠ ctypeFault := by
  unfold intScale at h
  split at h
  · cases h
  · unfold mulLong at h
    split at h
    · cases h; decide
    · cases h

theorem intSuffixCt_inv {v : Int} {e : CStr} (h : intSuffixCt v e = .error ctypeFault) : Meets e := by
  have g : ∀ d, detectsuffixCt e d = .ok (detectsuffix e d) ∨ detectsuffixCt e d = .error ctypeFault := by
    intro d
    rcases detectsuffixCt_guard (P := False) e d (fun h => h.elim) with h | ⟨h, -⟩
    · exact Or.inl h
    · exact Or.inr h
  unfold intSuffixCt at h
  dsimp only at h
  rcases g (cs "KB") with h1 | h1
  · rw [h1, bind_ok] at h
    split at h
    · exact absurd rfl (intScale_fault _ h)
    · rcases g (cs "MB") with h1 | h1
      · rw [h1, bind_ok] at h
        split at h
        · exact absurd rfl (intScale_fault _ h)
        · rcases g (cs "GB") with h1 | h1
          · rw [h1, bind_ok] at h
            split at h
            · exact absurd rfl (intScale_fault _ h)
            · rcases g [] with h1 | h1
              · rw [h1, bind_ok] at h
                split at h <;> cases h
              · obtain ⟨p, q, w, b, r, rfl, h2, hw, hb, -⟩ := detectsuffixCt_inv _ _ h1
                have : p = [] := by
                  cases p with
                  | nil => rfl
                  | cons _ _ => simp at h2
                subst this
                exact .suffix [] w b r 1 .none hw hb
          · exact suffix_meets (by decide) h1 fun t ht => .gb t ht
      · exact suffix_meets (by decide) h1 fun t ht => .mb t ht
  · exact suffix_meets (by decide) h1 fun t ht => .kb t ht

/-- The suffix calls for a tail that begins with one of the letters, up to the call for that letter. -/
theorem intSuffixCt_letter {v : Int} {l : Char} {t : CStr} (hl : toUpper l ∈ cs "KMG")
    (h : detectsuffixCt t ['B'] = .error ctypeFault) : intSuffixCt v (l :: t) = .error ctypeFault := by
  have ha : l.toNat < 128 := toUpper_ascii (by decide) hl
  have hl' : toUpper l = 'K' ∨ toUpper l = 'M' ∨ toUpper l = 'G' := by simpa [cs] using hl
  have e1 : cs "KB" = ['K', 'B'] := by decide
  have e2 : cs "MB" = ['M', 'B'] := by decide
  have e3 : cs "GB" = ['G', 'B'] := by decide
  unfold intSuffixCt
  dsimp only
  rw [e1, e2, e3]
  rcases hl' with hk | hk | hk
  · rw [detectsuffixCt_hit ha (by rw [hk]; decide), h]; rfl
  · rw [detectsuffixCt_miss ha (by rw [hk]; decide), bind_ok, if_neg (by simp),
      detectsuffixCt_hit ha (by rw [hk]; decide), h]; rfl
  · rw [detectsuffixCt_miss ha (by rw [hk]; decide), bind_ok, if_neg (by simp),
      detectsuffixCt_miss ha (by rw [hk]; decide), bind_ok, if_neg (by simp),
      detectsuffixCt_hit ha (by rw [hk]; decide), h]; rfl

theorem two_letters {sf : CStr} {a : Char} (h : sf.map toUpper = [a, 'B']) : ∃ l l', sf = [l, l'] ∧ toUpper l = a ∧ toUpper l' = 'B' := by
  cases sf with
  | nil => simp at h
  | cons l sf =>
    cases sf with
    | nil => simp at h
    | cons l' sf =>
      cases sf with
      | nil => simp at h; exact ⟨l, l', rfl, h.1, h.2⟩
      | cons _ _ => simp at h

theorem intSuffixCt_of {v : Int} {e : CStr} (h : Meets e) : intSuffixCt v e = .error ctypeFault := by
  have two : ∀ {l l' : Char} {w r : CStr} {b : Char}, toUpper l ∈ cs "KMG" → toUpper l' = 'B' → White w → High b →
      intSuffixCt v ([l, l'] ++ (w ++ b :: r)) = .error ctypeFault := by
    intro l l' w r b h1 h2 hw hb
    refine intSuffixCt_letter h1 ?_
    show detectsuffixCt (l' :: (w ++ b :: r)) ['B'] = _
    rw [detectsuffixCt_hit (toUpper_ascii (s := ['B']) (by decide) (by rw [h2]; decide)) (by rw [h2]; decide)]
    exact detectsuffixCt_white hw hb
  cases h with
  | letter l b r hl hb => exact intSuffixCt_letter hl (detectsuffixCt_high hb)
  | suffix sf w b r k hs hw hb =>
    cases hs with
    | none =>
      cases w with
      | nil =>
        unfold intSuffixCt
        dsimp only
        rw [List.nil_append, List.nil_append, detectsuffixCt_high hb]; rfl
      | cons c w =>
        have hc := hw c (List.mem_cons_self ..)
        have ha := space_ascii hc
        have hne : ∀ d ∈ ['K', 'M', 'G'], toUpper c ≠ toUpper d := by
          intro d hd he
          simp only [isSpace, Bool.or_eq_true, beq_iff_eq] at hc
          have hd' : d = 'K' ∨ d = 'M' ∨ d = 'G' := by simpa using hd
          rcases hc with ((((hc | hc) | hc) | hc) | hc) | hc <;> subst hc <;> rcases hd' with rfl | rfl | rfl <;> exact absurd he (by decide)
        have e1 : cs "KB" = ['K', 'B'] := by decide
        have e2 : cs "MB" = ['M', 'B'] := by decide
        have e3 : cs "GB" = ['G', 'B'] := by decide
        unfold intSuffixCt
        dsimp only
        rw [List.nil_append, e1, e2, e3, List.cons_append, detectsuffixCt_miss ha (hne _ (by simp)), bind_ok, if_neg (by simp),
          detectsuffixCt_miss ha (hne _ (by simp)), bind_ok, if_neg (by simp),
          detectsuffixCt_miss ha (hne _ (by simp)), bind_ok, if_neg (by simp), ← List.cons_append,
          detectsuffixCt_white hw hb]
        rfl
    | kb _ h =>
      obtain ⟨l, l', rfl, h1, h2⟩ := two_letters h
      exact two (by rw [h1]; decide) h2 hw hb
    | mb _ h =>
      obtain ⟨l, l', rfl, h1, h2⟩ := two_letters h
      exact two (by rw [h1]; decide) h2 hw hb
    | gb _ h =>
      obtain ⟨l, l', rfl, h1, h2⟩ := two_letters h
      exact two (by rw [h1]; decide) h2 hw hb

theorem meets_stop {e : CStr} (h : Meets e) : Stop e := by
  cases h with
  | letter l b r hl hb =>
    intro c t he
    obtain ⟨rfl, -⟩ := List.cons.inj he
    have hl' : toUpper l = 'K' ∨ toUpper l = 'M' ∨ toUpper l = 'G' := by simpa [cs] using hl
    right; left
    rcases hl' with h | h | h <;> rcases toUpper_inv h with rfl | rfl <;> decide
  | suffix sf w b r k hs hw hb =>
    intro c t he
    cases hsw : sf ++ w with
    | nil =>
      rw [← List.append_assoc, hsw] at he
      obtain ⟨rfl, -⟩ := List.cons.inj he
      exact Or.inr (Or.inr hb.1)
    | cons c' t' =>
      rw [← List.append_assoc, hsw] at he
      obtain ⟨rfl, -⟩ := List.cons.inj he
      exact suffix_stop hs hw _ _ hsw

theorem intScanCt_eq {mx : Int} {o : IntObj} (hc : (o.count : Int) < mx) (s : CStr) :
    intScanCt mx o (some s) = (do
      match ← intConvertCt s with
      | none => .ok (o, ARG_ERR_BADINT)
      | some (val, e) =>
        let (val, err) ← intSuffixCt val e
        if err = 0 then
          let ival ← storeAt o.ival o.count (some (intOfLong val))
          .ok ({ count := o.count + 1, ival := ival }, 0)
        else .ok (o, err)) := by
  unfold intScanCt
  rw [if_neg (by omega)]
  rfl

theorem intConvertCt_two (s : CStr) : intConvertCt s = intConvert s ∨ intConvertCt s = .error ctypeFault := by
  rcases intConvertCt_guard (P := False) (a := s) (fun h => h.elim) with h | ⟨h, -⟩
  · exact Or.inl h
  · exact Or.inr h

theorem intSuffixCt_two (v : Int) (s : CStr) : intSuffixCt v s = intSuffix v s ∨ intSuffixCt v s = .error ctypeFault := by
  rcases intSuffixCt_guard (P := False) v (e := s) (fun h => h.elim) with h | ⟨h, -⟩
  · exact Or.inl h
  · exact Or.inr h

theorem intSuffix_fault {v : Int} {e : CStr} {f : Fault} (h : intSuffix v e = .error f) : f ≠ ctypeFault := by
  unfold intSuffix at h
  dsimp only at h
  split at h
  · exact intScale_fault _ h
  · split at h
    · exact intScale_fault _ h
    · split at h
      · exact intScale_fault _ h
      · split at h <;> cases h

theorem intScanCt_iff {mx : Int} {o : IntObj} (hc : (o.count : Int) < mx) (hl : (o.ival.length : Int) = mx) {s : CStr}
    (hd : ¬ DoubleMinus s) : intScanCt mx o (some s) = .error ctypeFault ↔ CtypeInt s := by
  rw [intScanCt_eq hc]
  constructor
  · intro h
    rcases intConvertCt_two s with h1 | h1
    · rw [h1] at h
      rcases intConvert_head (s := s) rfl with ⟨v, e, N, base, h2, h3, -⟩ | ⟨-, h2⟩ | h2
      · rw [h2, bind_ok] at h
        dsimp only at h
        have hm : Meets e := by
          refine intSuffixCt_inv (v := v) ?_
          cases hq : intSuffixCt v e with
          | error f => rw [hq, bind_err] at h; rw [Except.error.inj h]
          | ok q =>
            rw [hq, bind_ok] at h
            obtain ⟨val, err⟩ := q
            dsimp only at h
            split at h
            · rw [storeAt_ok (by omega), bind_ok] at h; cases h
            · cases h
        cases h3 with
        | dec w sg ds sign m hw hs hn he => rw [he]; exact .decimal w sg ds e sign m hw hs hn hm
        | pre w sg pre mid ds sign sign2 base m hw hs hr hp hi hn he =>
          rw [he]; exact .based w sg pre mid ds e sign sign2 base m hw hs hr hp hi hn hm
      · exact absurd h2 hd
      · rw [h2] at h; cases h
    · exact intConvertCt_inv h1
  · intro h
    have fin : ∀ {e : CStr} {N : Int} {base : Nat}, HeadOf s e N base → Meets e →
        (do
          match ← intConvertCt s with
          | none => .ok (o, ARG_ERR_BADINT)
          | some (val, e) =>
            let (val, err) ← intSuffixCt val e
            if err = 0 then
              let ival ← storeAt o.ival o.count (some (intOfLong val))
              .ok ({ count := o.count + 1, ival := ival }, 0)
            else .ok (o, err) : M (IntObj × Int)) = .error ctypeFault := by
      intro e N base hh hm
      rcases intConvertCt_two s with h1 | h1
      · rcases intConvert_of hh (meets_stop hm) with ⟨v, hv, -⟩ | ⟨-, hd', -⟩
        · rw [h1, hv, bind_ok]
          dsimp only
          rw [intSuffixCt_of hm]
          rfl
        · exact absurd hd' hd
      · rw [h1]; rfl
    have bad : intConvertCt s = .error ctypeFault →
        (do
          match ← intConvertCt s with
          | none => .ok (o, ARG_ERR_BADINT)
          | some (val, e) =>
            let (val, err) ← intSuffixCt val e
            if err = 0 then
              let ival ← storeAt o.ival o.count (some (intOfLong val))
              .ok ({ count := o.count + 1, ival := ival }, 0)
            else .ok (o, err) : M (IntObj × Int)) = .error ctypeFault := by
      intro h; rw [h]; rfl
    cases h with
    | first w b r hw hb =>
      apply bad
      unfold intConvertCt strtol0XCt
      rw [skipSpaceCt_white _ _ hw, skipSpaceCt_high hb]
      rfl
    | zero w sg sign b r hw hs hb =>
      apply bad
      have hz : DigitHead ('0' :: b :: r) := ⟨'0', _, 0, rfl, rfl⟩
      have hnw : ∀ c t, sg ++ '0' :: b :: r = c :: t → isSpace c = false := by
        intro c t he
        cases hs <;> (obtain ⟨rfl, -⟩ := List.cons.inj he; decide)
      have hsk : skipSpaceCt (w ++ (sg ++ '0' :: b :: r)) = .ok (sg ++ '0' :: b :: r) := by
        rw [skipSpaceCt_white _ _ hw]
        cases hs <;> rfl
      have h0 : strtol0XCt (w ++ (sg ++ '0' :: b :: r)) 'X' 16 = .error ctypeFault := by
        unfold strtol0XCt
        rw [hsk, bind_ok, scanSign_of hs hz]
        show (ct b (toUpper b) >>= _) = _
        rw [ct_high hb]
        rfl
      unfold intConvertCt
      rw [h0]
      rfl
    | decimal w sg ds e sign m hw hs hn hm => exact fin (.dec w sg ds sign m hw hs hn rfl) hm
    | based w sg pre mid ds e sign sign2 base m hw hs hr hp hi hn hm =>
      exact fin (.pre w sg pre mid ds sign sign2 base m hw hs hr hp hi hn rfl) hm

theorem intScanCt_guard {P : Prop} (mx : Int) (o : IntObj) {a : CStr} (h : P → Ascii a) :
    Guard P (intScanCt mx o (some a)) (intScan mx o (some a)) := by
  unfold intScanCt intScan
  refine Guard.ite (fun _ => .rfl) fun _ => ?_
  refine Guard.bind (intConvertCt_guard h) fun q hq => ?_
  cases q with
  | none => exact .rfl
  | some q =>
    obtain ⟨v, e⟩ := q
    have he : P → Ascii e := by
      intro hp
      rcases intConvert_head hq with ⟨v', e', N, base, h1, h2, -⟩ | ⟨h1, -⟩ | h1
      · cases h1
        cases h2 with
        | dec w sg ds sign m _ _ _ he => exact fun c hc => h hp c (by rw [he]; simp [hc])
        | pre w sg pre mid ds sign sign2 base m _ _ _ _ _ _ he => exact fun c hc => h hp c (by rw [he]; simp [hc])
      · cases h1
      · cases h1
    refine Guard.bind (intSuffixCt_guard v he) fun q _ => ?_
    exact .rfl

/-! ### arg_date -/

/-- A recursive call, up to an undefined one. -/
structure GuardSub (P : Prop) (sub : CStr → CStr → Tm → M (Option (CStr × Tm))) (sub' : CStr → CStr → Tm → Option (CStr × Tm)) :
    Prop where
  guard : ∀ buf fmt tm, (P → Ascii buf) → (P → Ascii fmt) → Guard P (sub buf fmt tm) (.ok (sub' buf fmt tm))
  suffix : ∀ buf fmt tm b t, sub' buf fmt tm = some (b, t) → b <:+ buf

theorem item_suffix {m : Option Char} {c : Char} {s s' : CStr} {t t' : Tm} {k k' : Bool} (h : Item m c s t k s' t' k') : s' <:+ s := by
  have num : ∀ {lo hi n s s'}, Number lo hi s n s' → s' <:+ s := by
    rintro lo hi n s s' ⟨w, h, -⟩; exact ⟨w, h.symm⟩
  have nam : ∀ {l s i s'}, Named l s i s' → s' <:+ s := by
    rintro l s i s' ⟨_, w, -, h, -⟩; exact ⟨w, h.symm⟩
  have whi : ∀ {s s'}, SkipWhite s s' → s' <:+ s := by
    rintro s s' ⟨w, h, -⟩; exact ⟨w, h.symm⟩
  cases h
  case percent => exact List.suffix_cons _ _
  case am => exact List.nil_suffix
  case pm => exact List.nil_suffix
  all_goals first | exact num (by assumption) | exact nam (by assumption) | exact whi (by assumption)

theorem convSpec_suffix {sub : CStr → CStr → Tm → Option (CStr × Tm)}
    (hsub : ∀ buf fmt tm b t, sub buf fmt tm = some (b, t) → b <:+ buf) {m : Option Char} {altE altO : Bool} (hm : Mode m altE altO)
    {c : Char} {s s' : PState} (h : convSpec sub altE altO c s = some s') : s'.bp <:+ s.bp := by
  rcases convSpec_fwd hm h with h | ⟨g, -, -, h, -⟩
  · exact item_suffix h
  · exact hsub _ _ _ _ _ h

theorem nestedFormat_ascii {c : Char} {b : Bool} {fmt : CStr} (h : nestedFormat c = some (b, fmt)) : Ascii fmt := by
  unfold nestedFormat at h
  repeat' split at h
  all_goals first | (cases h; decide) | cases h

/-- The conversions, with the nested formats apart. -/
theorem convSpec_cases (sub : CStr → CStr → Tm → Option (CStr × Tm)) (altE altO : Bool) (c : Char) (s : PState) :
    convSpec sub altE altO c s = match nestedFormat c with
      | some (allowE, fmt) =>
        if altO ∨ (altE ∧ ¬ allowE) then none
        else (sub s.bp fmt s.tm).map fun (bp, tm) => { s with bp := bp, tm := tm }
      | none =>
        if c = 'n' ∨ c = 't' then
          if altE ∨ altO then none else some { s with bp := s.bp.dropWhile isSpace }
        else convSpec (fun _ _ _ => none) altE altO c s := by
  by_cases hp : c = '%'
  · subst hp
    rfl
  by_cases h1 : c = 'c'
  · subst h1; rfl
  by_cases h2 : c = 'D'
  · subst h2; rfl
  by_cases h3 : c = 'R'
  · subst h3; rfl
  by_cases h4 : c = 'r'
  · subst h4; rfl
  by_cases h5 : c = 'T'
  · subst h5; rfl
  by_cases h6 : c = 'X'
  · subst h6; rfl
  by_cases h7 : c = 'x'
  · subst h7; rfl
  have hn : nestedFormat c = none := by
    unfold nestedFormat
    simp only [if_neg h1, if_neg h2, if_neg h3, if_neg h4, if_neg h5, if_neg h6, if_neg h7]
  rw [hn]
  dsimp only
  by_cases hw : c = 'n' ∨ c = 't'
  · rw [if_pos hw]
    rcases hw with rfl | rfl <;> cases altE <;> cases altO <;> rfl
  · rw [if_neg hw]
    unfold convSpec
    dsimp only
    simp only [if_neg hp, if_neg h1, if_neg h2, if_neg h3, if_neg h4, if_neg h5, if_neg h6, if_neg h7]

theorem convSpecCt_guard {P : Prop} {sub : CStr → CStr → Tm → M (Option (CStr × Tm))}
    {sub' : CStr → CStr → Tm → Option (CStr × Tm)} (hsub : GuardSub P sub sub') (altE altO : Bool) (c : Char) {s : PState}
    (h : P → Ascii s.bp) : Guard P (convSpecCt sub altE altO c s) (.ok (convSpec sub' altE altO c s)) := by
  rw [convSpec_cases]
  unfold convSpecCt
  cases hn : nestedFormat c with
  | some q =>
    obtain ⟨allowE, fmt⟩ := q
    dsimp only
    by_cases hc : altO = true ∨ (altE = true ∧ ¬ allowE = true)
    · rw [if_pos hc, if_pos hc]; exact .rfl
    · rw [if_neg hc, if_neg hc]
      exact Guard.left (hsub.guard _ _ _ h fun _ => nestedFormat_ascii hn) .rfl
  | none =>
    dsimp only
    by_cases hc : c = 'n' ∨ c = 't'
    · rw [if_pos hc, if_pos hc]
      by_cases ha : altE = true ∨ altO = true
      · rw [if_pos ha, if_pos ha]; exact .rfl
      · rw [if_neg ha, if_neg ha]
        exact Guard.left (skipSpaceCt_guard _ h) .rfl
    · rw [if_neg hc, if_neg hc]; exact .rfl

theorem strptimeLoopCt_guard {P : Prop} {sub : CStr → CStr → Tm → M (Option (CStr × Tm))}
    {sub' : CStr → CStr → Tm → Option (CStr × Tm)} (hsub : GuardSub P sub sub') :
    ∀ (n : Nat) (fmt : CStr), fmt.length ≤ n → ∀ (s : PState),
      (∀ k, n < k → (P → Ascii fmt) → (P → Ascii s.bp) → Guard P (strptimeLoopCt sub k fmt s) (.ok (strptimeLoop sub' fmt s))) ∧
      (∀ s', strptimeLoop sub' fmt s = some s' → s'.bp <:+ s.bp) := by
  intro n
  induction n with
  | zero =>
    intro fmt hl s
    have : fmt = [] := List.length_eq_zero_iff.1 (by omega)
    subst this
    rw [strptimeLoop]
    refine ⟨fun k hk _ _ => ?_, fun s' h => by cases h; exact List.suffix_refl _⟩
    obtain ⟨k, rfl⟩ : ∃ k', k = k' + 1 := ⟨k - 1, by omega⟩
    rw [strptimeLoopCt]; exact .rfl
  | succ n ih =>
    intro fmt hl s
    cases fmt with
    | nil =>
      rw [strptimeLoop]
      refine ⟨fun k hk _ _ => ?_, fun s' h => by cases h; exact List.suffix_refl _⟩
      obtain ⟨k, rfl⟩ : ∃ k', k = k' + 1 := ⟨k - 1, by omega⟩
      rw [strptimeLoopCt]; exact .rfl
    | cons c fmt =>
      simp only [List.length_cons] at hl
      have conv : ∀ {m : Option Char} {e o : Bool}, Mode m e o → ∀ (d : Char) (f : CStr) (k : Nat), n < k → f.length ≤ n → (P → Ascii f) → (P → Ascii s.bp) →
          Guard P (convSpecCt sub e o d s >>= goOnCt (strptimeLoopCt sub k f))
            (.ok ((convSpec sub' e o d s).bind (strptimeLoop sub' f))) := by
        intro m e o hm d f k hk hfl hf hb
        refine Guard.left (convSpecCt_guard hsub e o d hb) ?_
        cases hr : convSpec sub' e o d s with
        | none => exact .rfl
        | some s1 =>
          exact (ih f hfl s1).1 k hk hf fun hp => Spec.Ascii.suffix (hb hp) (convSpec_suffix hsub.suffix hm hr)
      have suf : ∀ {m : Option Char} {e o : Bool}, Mode m e o → ∀ (d : Char) (f : CStr), f.length ≤ n →
          ∀ s', (convSpec sub' e o d s).bind (strptimeLoop sub' f) = some s' → s'.bp <:+ s.bp := by
        intro m e o hm d f hfl s' h
        cases hr : convSpec sub' e o d s with
        | none => rw [hr] at h; cases h
        | some s1 =>
          rw [hr] at h
          exact ((ih f hfl s1).2 _ h).trans (convSpec_suffix hsub.suffix hm hr)
      constructor
      · intro k hk hf hb
        obtain ⟨k, rfl⟩ : ∃ k', k = k' + 1 := ⟨k - 1, by omega⟩
        have hk : n < k := by omega
        have hf' : P → Ascii fmt := fun hp x hx => hf hp x (List.mem_cons_of_mem _ hx)
        rw [strptimeLoopCt.eq_def, strptimeLoop.eq_def]
        dsimp only
        refine Guard.left (ct_guard (fun hp => hf hp c (List.mem_cons_self ..)) _) ?_
        by_cases hsp : isSpace c = true
        · rw [if_pos hsp, if_pos hsp]
          refine Guard.left (skipSpaceCt_guard _ hb) ?_
          exact (ih fmt (by omega) _).1 k hk hf' fun hp => Spec.Ascii.suffix (hb hp) (List.dropWhile_suffix _)
        · rw [if_neg hsp, if_neg hsp]
          by_cases hc : c ≠ '%'
          · rw [if_pos hc, if_pos hc]
            cases hbp : s.bp with
            | nil => exact .rfl
            | cons d bp =>
              dsimp only
              by_cases hcd : c = d
              · rw [if_pos hcd, if_pos hcd]
                exact (ih fmt (by omega) _).1 k hk hf' fun hp x hx => hb hp x (by rw [hbp]; exact List.mem_cons_of_mem _ hx)
              · rw [if_neg hcd, if_neg hcd]; exact .rfl
          · rw [if_neg hc, if_neg hc]
            cases fmt with
            | nil => exact .rfl
            | cons d fmt =>
              simp only [List.length_cons] at hl
              have hf'' : P → Ascii fmt := fun hp x hx => hf' hp x (List.mem_cons_of_mem _ hx)
              by_cases hE : d = 'E'
              · subst hE
                cases fmt with
                | nil => exact .rfl
                | cons d fmt =>
                  simp only [List.length_cons] at hl
                  show Guard P (if d = 'E' ∨ d = 'O' then _ else _) (.ok (if d = 'E' ∨ d = 'O' then _ else _))
                  by_cases hEO : d = 'E' ∨ d = 'O'
                  · rw [if_pos hEO, if_pos hEO]; exact .rfl
                  · rw [if_neg hEO, if_neg hEO]
                    exact conv .E d fmt k hk (by omega) (fun hp x hx => hf'' hp x (List.mem_cons_of_mem _ hx)) hb
              · by_cases hO : d = 'O'
                · subst hO
                  cases fmt with
                  | nil => exact .rfl
                  | cons d fmt =>
                    simp only [List.length_cons] at hl
                    show Guard P (if d = 'E' ∨ d = 'O' then _ else _) (.ok (if d = 'E' ∨ d = 'O' then _ else _))
                    by_cases hEO : d = 'E' ∨ d = 'O'
                    · rw [if_pos hEO, if_pos hEO]; exact .rfl
                    · rw [if_neg hEO, if_neg hEO]
                      exact conv .O d fmt k hk (by omega) (fun hp x hx => hf'' hp x (List.mem_cons_of_mem _ hx)) hb
                · split
                  · next he => cases he
                  · next he => exact absurd (List.cons.inj he).1 hE
                  · next he => exact absurd (List.cons.inj he).1 hO
                  · next d' f' h1 h2 he =>
                    obtain ⟨rfl, rfl⟩ := List.cons.inj he
                    split
                    · next he => cases he
                    · next he => exact absurd (List.cons.inj he).1 hE
                    · next he => exact absurd (List.cons.inj he).1 hO
                    · next he =>
                      obtain ⟨rfl, rfl⟩ := List.cons.inj he
                      exact conv .plain _ _ k hk (by omega) hf'' hb
      · intro s' h
        rw [strptimeLoop.eq_def] at h
        dsimp only at h
        split at h
        · exact ((ih fmt (by omega) _).2 _ h).trans (List.dropWhile_suffix _)
        · split at h
          · split at h
            · next d bp hbp =>
              split at h
              · have := (ih fmt (by omega) _).2 _ h
                rw [hbp]
                exact this.trans (List.suffix_cons _ _)
              · cases h
            · cases h
          · split at h
            · cases h
            · split at h
              · cases h
              · split at h
                · cases h
                · exact suf .E _ _ (by simp only [List.length_cons] at hl; omega) _ h
            · split at h
              · cases h
              · split at h
                · cases h
                · exact suf .O _ _ (by simp only [List.length_cons] at hl; omega) _ h
            · exact suf .plain _ _ (by simp only [List.length_cons] at hl; omega) _ h

theorem strptimeWithCt_guard {P : Prop} {sub : CStr → CStr → Tm → M (Option (CStr × Tm))}
    {sub' : CStr → CStr → Tm → Option (CStr × Tm)} (hsub : GuardSub P sub sub') :
    GuardSub P (strptimeWithCt sub) (strptimeWith sub') where
  guard := by
    intro buf fmt tm hb hf
    unfold strptimeWithCt strptimeWith
    exact Guard.left ((strptimeLoopCt_guard hsub _ fmt (Nat.le_refl _) ⟨buf, tm, false⟩).1 _ (Nat.lt_succ_self _) hf hb) .rfl
  suffix := by
    intro buf fmt tm b t h
    unfold strptimeWith at h
    obtain ⟨s, h1, h2⟩ := map_some_inv h
    cases h2
    exact (strptimeLoopCt_guard hsub _ fmt (Nat.le_refl _) ⟨buf, tm, false⟩).2 _ h1

theorem strptimeCt_guard {P : Prop} : GuardSub P strptimeCt strptime :=
  strptimeWithCt_guard (strptimeWithCt_guard (strptimeWithCt_guard ⟨fun _ _ _ _ _ => .rfl, fun _ _ _ _ _ h => by cases h⟩))

theorem dateScanCt_guard {P : Prop} (fmt : CStr) (mx : Int) (o : DateObj) {a : CStr} (hf : P → Ascii fmt) (h : P → Ascii a) :
    Guard P (dateScanCt fmt mx o (some a)) (dateScan fmt mx o (some a)) := by
  unfold dateScanCt dateScan
  refine Guard.ite (fun _ => .rfl) fun _ => ?_
  dsimp only
  cases o.tmval[o.count]? with
  | none => exact .rfl
  | some tm =>
    dsimp only
    refine Guard.left (strptimeCt_guard.guard a fmt tm h hf) ?_
    exact .rfl

/-! ### arg_print_formatted -/

theorem charAt_ascii {P : Prop} {text : CStr} {i : Nat} {c : Char} (h : charAt text i = .ok c) (ht : P → Ascii text) :
    P → c.toNat < 128 := by
  intro hp
  unfold charAt at h
  split at h
  · next hi =>
    cases h
    rw [List.getD_eq_getElem?_getD, List.getElem?_eq_getElem hi]
    exact ht hp _ (List.getElem_mem hi)
  · split at h
    · cases h; decide
    · cases h

theorem fmtSkipCt_guard {P : Prop} {text : CStr} (h : P → Ascii text) : ∀ k i, Guard P (fmtSkipCt text k i) (fmtSkip text k i) := by
  intro k
  induction k with
  | zero => intro i; exact .rfl
  | succ k ih =>
    intro i
    rw [fmtSkipCt, fmtSkip]
    refine Guard.bind .rfl fun c hc => ?_
    refine Guard.left (ct_guard (charAt_ascii hc h) _) ?_
    exact Guard.ite (fun _ => ih _) fun _ => .rfl

theorem fmtBackCt_guard {P : Prop} {text : CStr} (h : P → Ascii text) (st : Nat) :
    ∀ e, Guard P (fmtBackCt text st e) (fmtBack text st e) := by
  intro e
  induction e with
  | zero => exact .rfl
  | succ e ih =>
    rw [fmtBackCt, fmtBack]
    refine Guard.ite (fun _ => ?_) fun _ => .rfl
    refine Guard.bind .rfl fun c hc => ?_
    refine Guard.left (ct_guard (charAt_ascii hc h) _) ?_
    exact Guard.ite (fun _ => ih) fun _ => .rfl

theorem fmtTrailCt_guard {P : Prop} {text : CStr} (h : P → Ascii text) (st : Nat) :
    ∀ e, Guard P (fmtTrailCt text st e) (fmtTrail text st e) := by
  intro e
  induction e with
  | zero => exact .rfl
  | succ e ih =>
    rw [fmtTrailCt, fmtTrail]
    refine Guard.ite (fun _ => ?_) fun _ => .rfl
    refine Guard.bind .rfl fun c hc => ?_
    refine Guard.left (ct_guard (charAt_ascii hc h) _) ?_
    refine Guard.bind .rfl fun d _ => ?_
    exact Guard.ite (fun _ => ih) fun _ => .rfl

theorem fmtEndCt_guard {P : Prop} {text : CStr} (h : P → Ascii text) (w i e : Nat) :
    Guard P (fmtEndCt text w i e) (fmtEnd text w i e) := by
  unfold fmtEndCt fmtEnd
  refine Guard.ite (fun _ => ?_) fun _ => .rfl
  dsimp only
  refine Guard.bind (fmtBackCt_guard h _ _) fun e1 _ => ?_
  refine Guard.ite (fun _ => .rfl) fun _ => ?_
  exact Guard.bind (fmtTrailCt_guard h _ _) fun e2 _ => .rfl

theorem fmtLoopCt_guard {P : Prop} {text : CStr} (h : P → Ascii text) (lm w : Nat) :
    ∀ fuel i e, Guard P (fmtLoopCt text lm w fuel i e) (fmtLoop text lm w fuel i e) := by
  intro fuel
  induction fuel with
  | zero => intro i e; exact .rfl
  | succ fuel ih =>
    intro i e
    rw [fmtLoopCt, fmtLoop]
    refine Guard.ite (fun _ => ?_) fun _ => .rfl
    refine Guard.bind (fmtSkipCt_guard h _ _) fun i _ => ?_
    refine Guard.bind (fmtEndCt_guard h _ _ _) fun e _ => ?_
    refine Guard.bind .rfl fun q _ => ?_
    obtain ⟨line, i⟩ := q
    dsimp only
    refine Guard.bind (ih _ _) fun r _ => ?_
    exact .rfl

/-- The first character printed that is no blank. -/
theorem fmtSkipCt_high {w r : CStr} {b : Char} (hw : ∀ c ∈ w, isSpace c = true ∧ c ≠ '\n') (hb : High b) :
    ∀ (k pre : Nat), pre ≤ w.length → w.length - pre < k → fmtSkipCt (w ++ b :: r) k pre = .error ctypeFault := by
  intro k
  induction k with
  | zero => intro pre _ h; omega
  | succ k ih =>
    intro pre h1 h2
    have hlt : pre < (w ++ b :: r).length := by simp; omega
    rw [fmtSkipCt]
    unfold charAt
    rw [if_pos hlt, bind_ok, List.getD_eq_getElem?_getD, List.getElem?_eq_getElem hlt, Option.getD_some]
    by_cases he : pre = w.length
    · subst he
      have : (w ++ b :: r)[w.length]'hlt = b := by simp
      rw [this, ct_high hb]
      rfl
    · have hp : pre < w.length := by omega
      have : (w ++ b :: r)[pre]'hlt = w[pre] := List.getElem_append_left hp
      rw [this]
      obtain ⟨s1, s2⟩ := hw w[pre] (List.getElem_mem hp)
      rw [ct_ascii (space_ascii s1), bind_ok, if_pos ⟨s1, s2⟩]
      exact ih (pre + 1) (by omega) (by omega)

theorem printFormattedCt_high {w r : CStr} {b : Char} (hw : ∀ c ∈ w, isSpace c = true ∧ c ≠ '\n') (hb : High b) (fuel lm rm : Nat) :
    printFormattedCt (fuel + 1) lm rm (w ++ b :: r) = .error ctypeFault := by
  unfold printFormattedCt
  rw [fmtLoopCt, if_pos (by simp), fmtSkipCt_high hw hb _ 0 (by omega) (by simp; omega)]
  rfl

end Argtable
