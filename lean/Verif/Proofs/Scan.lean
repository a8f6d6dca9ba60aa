import Verif.Spec.Scan
import Verif.Proofs.IntScan
/-!
# Lemmas on giving arguments to entries
-/

namespace Argtable

open Spec

variable {δ : Type} {lc : Libc δ}

/-! ## Integers -/

theorem intText_oneMinus {s : CStr} {n : Int} (h : IntText s n) : s.count '-' ≤ 1 := by
  have hwhite : ∀ {w : CStr}, White w → w.count '-' = 0 := by
    intro w hw
    exact List.count_eq_zero.2 fun hm => absurd (hw _ hm) (by decide)
  cases h with
  | mk w sg pre ds sf w' sign base m k hw hs hr hn hsf hw' =>
    have h1 : sg.count '-' ≤ 1 := by cases hs <;> decide
    have h2 : pre.count '-' = 0 := by
      cases hr with
      | dec => rfl
      | hex x h => rcases h with rfl | rfl <;> rfl
      | oct x h => rcases h with rfl | rfl <;> rfl
      | bin x h => rcases h with rfl | rfl <;> rfl
    have h3 : ds.count '-' = 0 := by
      refine List.count_eq_zero.2 fun hm => ?_
      obtain ⟨v, hv⟩ := digitVal_of_isBaseDigit ((numeral_all hn (radix_base hr).1).2.1 _ hm)
      exact (notSign_of_digit hv).2 rfl
    have hup : ∀ {suf : CStr}, sf.map toUpper = suf → '-' ∉ suf → sf.count '-' = 0 := by
      intro suf he hno
      refine List.count_eq_zero.2 fun hm => hno ?_
      rw [← he]
      exact List.mem_map.2 ⟨'-', hm, rfl⟩
    have h4 : sf.count '-' = 0 := by
      cases hsf with
      | none => rfl
      | kb _ h => exact hup h (by decide)
      | mb _ h => exact hup h (by decide)
      | gb _ h => exact hup h (by decide)
    have h5 := hwhite hw
    have h6 := hwhite hw'
    simp only [List.count_append]
    omega

theorem intText_notDouble {s : CStr} {n : Int} (h : IntText s n) : ¬ DoubleMinus s := by
  intro hd
  obtain ⟨q, hq⟩ := intConvert_ok s (intText_oneMinus h)
  rw [intConvert_doubleMinus hd] at hq
  cases hq

theorem notDouble_of_oneMinus {s : CStr} (h : s.count '-' ≤ 1) : ¬ DoubleMinus s := by
  intro hd
  obtain ⟨q, hq⟩ := intConvert_ok s h
  rw [intConvert_doubleMinus hd] at hq
  cases hq

theorem inner_digitHead {base : Nat} {mid r : CStr} {sign : Int} (h : Inner base mid sign) (hd : DigitHead (mid ++ r))
    (hx : ∀ t, mid ++ r ≠ '0' :: 'x' :: t ∧ mid ++ r ≠ '0' :: 'X' :: t) : mid = [] ∧ sign = 1 := by
  obtain ⟨c, t, v, he, hv⟩ := hd
  cases h with
  | mk w sg px _ hw hs hpx =>
    have hw0 : w = [] := by
      cases w with
      | nil => rfl
      | cons a w =>
        exfalso
        have ha := hw a (by simp)
        obtain ⟨rfl, -⟩ := List.cons.inj he
        rw [isSpace_of_digit hv] at ha
        cases ha
    subst hw0
    cases hs with
    | plus =>
      exfalso
      obtain ⟨rfl, -⟩ := List.cons.inj he
      exact (notSign_of_digit hv).1 rfl
    | minus =>
      exfalso
      obtain ⟨rfl, -⟩ := List.cons.inj he
      exact (notSign_of_digit hv).2 rfl
    | none =>
      rcases hpx with rfl | ⟨-, rfl | rfl⟩
      · exact ⟨rfl, rfl⟩
      · exact absurd rfl (hx r).1
      · exact absurd rfl (hx r).2

theorem looseText_tidy {s : CStr} {n : Int} (h : LooseText s n) (ht : Tidy s) : IntText s n := by
  cases h with
  | plain _ _ h => exact h
  | inner w sg pre mid ds sf w' sign sign2 base m k hw hs hr hpre hin hn hsf hw' =>
    obtain ⟨x, rfl⟩ := radix_pre hr hpre
    have hx : x ∈ cs "xXoObB" := by
      cases hr with
      | hex _ h => rcases h with rfl | rfl <;> decide
      | oct _ h => rcases h with rfl | rfl <;> decide
      | bin _ h => rcases h with rfl | rfl <;> decide
    obtain ⟨⟨c, t, d, h1, h2⟩, h3⟩ := ht (w ++ sg) x (mid ++ (ds ++ (sf ++ w'))) (by simp) hx
    obtain ⟨rfl, rfl⟩ := inner_digitHead hin ⟨c, t, d, h1, digitVal_of h2⟩ h3
    have := IntText.mk w sg ['0', x] ds sf w' sign base m k hw hs hr hn hsf hw'
    simpa using this

/-- The digits Lean prints for a number. -/
theorem numeral_toDigits {base : Nat} (h2 : 2 ≤ base) (h16 : base ≤ 16) (n : Nat) :
    Numeral base (Nat.toDigits base n) n := by
  have hd : ∀ d < base, DigitIs (Nat.digitChar d) d := by
    intro d hd
    have : d < 16 := by omega
    interval_cases d <;> exact Or.inl rfl
  induction n using Nat.strong_induction_on with
  | _ n ih =>
    by_cases hlt : n < base
    · rw [Nat.toDigits_of_lt_base hlt]
      exact .one _ _ (hd n hlt) hlt
    · have hq : n / base < n := Nat.div_lt_self (by omega) h2
      have hm : n % base < base := Nat.mod_lt _ (by omega)
      have e : n = base * (n / base) + n % base := (Nat.div_add_mod n base).symm
      have hpos : 0 < n / base := Nat.div_pos (by omega) (by omega)
      have := Nat.toDigits_append_toDigits (b := base) (n := n / base) (d := n % base) (by omega) hpos hm
      rw [← e] at this
      rw [← this, Nat.toDigits_of_lt_base hm]
      have hs := Numeral.snoc _ _ _ _ (ih _ hq) (hd _ hm) hm
      have e2 : n / base * base + n % base = n := by rw [Nat.mul_comm]; exact e.symm
      rw [e2] at hs
      exact hs

/-! ## Entries -/

theorem give_int {R : CStr → Prop} {h : Hdr (Obj δ)} {o : IntObj} (hl : Live lc R h) (hp : h.parent = .int o) :
    (o.ival.length : Int) = h.maxcount ∧ ∀ a, give h a = (do
      let (o, e) ← intScan h.maxcount o a
      .ok (.int o, e)) := by
  cases hl with
  | int so lo dt mn mx gl h ov o' hh hc hlen =>
    cases hp
    obtain ⟨hm, -, -, -, -, -, -, -, -, -, hs⟩ := argIntn_inv hh
    refine ⟨hlen, fun a => ?_⟩
    unfold give
    dsimp only
    rw [hs, hm]
  | _ => cases hp

theorem give_dbl {R : CStr → Prop} {h : Hdr (Obj δ)} {o : DblObj δ} (hl : Live lc R h) (hp : h.parent = .dbl o) :
    (o.dval.length : Int) = h.maxcount ∧ ∀ a, give h a = (do
      let (o, e) ← dblScan lc.strtod h.maxcount o a
      .ok (.dbl o, e)) := by
  cases hl with
  | dbl ad so lo dt mn mx gl h ov o' hh hc hlen =>
    cases hp
    obtain ⟨hm, -, -, -, -, -, -, -, -, -, hs⟩ := argDbln_inv hh
    refine ⟨hlen, fun a => ?_⟩
    unfold give
    dsimp only
    rw [hs, hm]
  | _ => cases hp

theorem give_str {R : CStr → Prop} {h : Hdr (Obj δ)} {o : StrObj} (hl : Live lc R h) (hp : h.parent = .str o) :
    (o.sval.length : Int) = h.maxcount ∧ (o.count : Int) ≤ h.maxcount ∧ ∀ q a, give { h with parent := .str q } a = (do
      let (o, e) ← strScan h.maxcount q a
      .ok (.str o, e)) := by
  cases hl with
  | str so lo dt mn mx gl h ov o' hh hc hlen =>
    cases hp
    obtain ⟨hm, -, -, -, -, -, -, -, -, -, hs⟩ := argStrn_inv hh
    refine ⟨hlen, hc, fun q a => ?_⟩
    unfold give
    dsimp only
    rw [hs, hm]
  | _ => cases hp

theorem give_file {R : CStr → Prop} {h : Hdr (Obj δ)} {o : FileObj} (hl : Live lc R h) (hp : h.parent = .file o) :
    (o.filename.length : Int) = h.maxcount ∧ (o.basename.length : Int) = h.maxcount ∧
    (o.extension.length : Int) = h.maxcount ∧ ∀ a, give h a = (do
      let (o, e) ← fileScan h.maxcount o a
      .ok (.file o, e)) := by
  cases hl with
  | file so lo dt mn mx gl h ov o' hh hc hlen hlen2 hlen3 =>
    cases hp
    obtain ⟨hm, -, -, -, -, -, -, -, -, -, hs⟩ := argFilen_inv hh
    refine ⟨hlen, hlen2, hlen3, fun a => ?_⟩
    unfold give
    dsimp only
    rw [hs, hm]
  | _ => cases hp

/-! ## File names -/

theorem strrchr_some {s r : CStr} {c : Char} (h : strrchr s c = some r) : ∃ a t, s = a ++ c :: t ∧ r = c :: t ∧ c ∉ t := by
  induction s with
  | nil => cases h
  | cons d s ih =>
    rw [strrchr] at h
    cases hs : strrchr s c with
    | some q =>
      rw [hs] at h
      cases h
      obtain ⟨a, t, h1, h2, h3⟩ := ih hs
      exact ⟨d :: a, t, by rw [h1]; rfl, h2, h3⟩
    | none =>
      rw [hs] at h
      dsimp only at h
      split at h
      · rename_i hd
        cases h
        refine ⟨[], s, by rw [hd]; rfl, by rw [hd], ?_⟩
        clear ih hd
        induction s with
        | nil => simp
        | cons e s ih =>
          rw [strrchr] at hs
          cases h : strrchr s c with
          | some q => rw [h] at hs; cases hs
          | none =>
            rw [h] at hs
            dsimp only at hs
            split at hs
            · cases hs
            · rename_i hne
              simp only [List.mem_cons, not_or]
              exact ⟨fun h => hne h.symm, ih h⟩
      · cases h

theorem strrchr_none {s : CStr} {c : Char} (h : strrchr s c = none) : c ∉ s := by
  induction s with
  | nil => simp
  | cons e s ih =>
    rw [strrchr] at h
    cases hs : strrchr s c with
    | some q => rw [hs] at h; cases h
    | none =>
      rw [hs] at h
      dsimp only at h
      split at h
      · cases h
      · rename_i hne
        simp only [List.mem_cons, not_or]
        exact ⟨fun h => hne h.symm, ih hs⟩

theorem argBasename_spec (f : CStr) : BaseName f (argBasename f) := by
  have key : ∀ t, LastPart f t → BaseName f (if t = cs "." ∨ t = cs ".." then [] else t) := by
    intro t ht
    split
    · rename_i h; exact .dots t ht h
    · rename_i h
      obtain ⟨h1, h2⟩ := not_or.1 h
      exact .part t ht h1 h2
  unfold argBasename
  cases h : strrchr f '/' with
  | some r =>
    obtain ⟨a, t, h1, rfl, h3⟩ := strrchr_some h
    exact key t (.after a t h1 h3)
  | none => exact key f (.whole (strrchr_none h))

/-- The last dot of a string is unique. -/
theorem lastDot_unique {a t a' t' : CStr} {c : Char} (h : a ++ c :: t = a' ++ c :: t') (ht : c ∉ t) (ht' : c ∉ t') :
    a = a' ∧ t = t' := by
  induction a generalizing a' with
  | nil =>
    cases a' with
    | nil => exact ⟨rfl, (List.cons.inj h).2⟩
    | cons x a' =>
      exfalso
      apply ht
      rw [(List.cons.inj h).2]
      simp
  | cons x a ih =>
    cases a' with
    | nil =>
      exfalso
      apply ht'
      rw [← (List.cons.inj h).2]
      simp
    | cons y a' =>
      obtain ⟨h1, h2⟩ := List.cons.inj h
      obtain ⟨e1, e2⟩ := ih h2
      exact ⟨by rw [h1, e1], e2⟩

theorem argExtension_spec (b : CStr) : ExtName b (argExtension b) := by
  unfold argExtension
  cases h : strrchr b '.' with
  | some r =>
    obtain ⟨a, t, rfl, rfl, h3⟩ := strrchr_some h
    dsimp only
    by_cases ha : a = []
    · subst ha
      rw [List.nil_append, if_pos rfl, if_neg (by simp)]
      refine .none fun a' t' h' ht' => ?_
      exact Or.inl (lastDot_unique (a := []) h' h3 ht').1.symm
    · have hne : ¬ '.' :: t = a ++ '.' :: t := ne_of_suffix ha
      rw [if_neg hne]
      by_cases ht : t = []
      · subst ht
        rw [if_pos (by rfl)]
        exact .none fun a' t' h' ht' => Or.inr (lastDot_unique h' h3 ht').2.symm
      · rw [if_neg (by simpa using ht)]
        exact .ext a t rfl h3 ha ht
  | none =>
    dsimp only
    have hb := strrchr_none h
    have hn : ExtName b [] := .none fun a' t' h' _ => absurd (by rw [h']; simp) hb
    by_cases he : ([] : CStr) = b
    · rw [if_pos he, if_neg (by simp)]; exact hn
    · rw [if_neg he, if_neg (by simp)]; exact hn

/-- The base name and the extension of a file name are determined. -/
theorem baseName_unique {f b b' : CStr} (h : BaseName f b) (h' : BaseName f b') : b = b' := by
  have hl : ∀ {t t'}, LastPart f t → LastPart f t' → t = t' := by
    intro t t' h h'
    cases h with
    | whole h =>
      cases h' with
      | whole _ => rfl
      | after p _ e _ => exact absurd (by rw [e]; simp) h
    | after p _ e hn =>
      cases h' with
      | whole h' => exact absurd (by rw [e]; simp) h'
      | after p' _ e' hn' => exact (lastDot_unique (e.symm.trans e') hn hn').2
  cases h with
  | part t h1 h2 h3 =>
    cases h' with
    | part t' k1 k2 k3 => exact hl h1 k1
    | dots t' k1 k2 => rw [hl h1 k1] at h2 h3; exact absurd k2 (by simp [h2, h3])
  | dots t h1 h2 =>
    cases h' with
    | part t' k1 k2 k3 => rw [hl h1 k1] at h2; exact absurd h2 (by simp [k2, k3])
    | dots t' k1 k2 => rfl

theorem extName_unique {b e e' : CStr} (h : ExtName b e) (h' : ExtName b e') : e = e' := by
  cases h with
  | ext a t h1 h2 h3 h4 =>
    cases h' with
    | ext a' t' k1 k2 k3 k4 => rw [(lastDot_unique (h1.symm.trans k1) h2 k2).2]
    | none k => exact absurd (k a t h1 h2) (by simp [h3, h4])
  | none h =>
    cases h' with
    | ext a' t' k1 k2 k3 k4 => exact absurd (h a' t' k1 k2) (by simp [k3, k4])
    | none k => rfl

end Argtable
