import Verif.Proofs.CtypeRex
/-!
# Where the functions of `<ctype.h>` are reached with a byte above 127
-/

namespace Argtable
open Spec

/-! ### arg_int -/

theorem ascii_of_upper {c : Char} (h : (toUpper c).toNat < 128) : c.toNat < 128 := by
  unfold toUpper at h
  split at h
  · next hc =>
    rw [Bool.and_eq_true, decide_eq_true_iff, decide_eq_true_iff] at hc
    have : c.toNat ≤ 122 := hc.2
    omega
  · exact h

theorem ascii_append {s t : CStr} (h : Ascii s) (h' : Ascii t) : Ascii (s ++ t) := fun c hc =>
  (List.mem_append.1 hc).elim (h c) (h' c)

theorem Spec.Sign.ascii {s : CStr} {n : Int} (h : Sign s n) : Ascii s := by cases h <;> decide

theorem Spec.Radix.ascii {s : CStr} {n : Nat} (h : Radix s n) : Ascii s := by
  cases h with
  | dec => decide
  | hex x hx => rcases hx with rfl | rfl <;> decide
  | oct x hx => rcases hx with rfl | rfl <;> decide
  | bin x hx => rcases hx with rfl | rfl <;> decide

theorem Spec.DigitIs.ascii {c : Char} {d : Nat} (h : DigitIs c d) : c.toNat < 128 := by
  rcases h with h | h
  · exact (by decide : Ascii (cs "0123456789abcdef")) c (List.mem_of_getElem? h)
  · exact (by decide : Ascii (cs "0123456789ABCDEF")) c (List.mem_of_getElem? h)

theorem Spec.Numeral.ascii {b : Nat} {s : CStr} {n : Nat} (h : Numeral b s n) : Ascii s := by
  induction h with
  | one c d hd _ => intro x hx; simp only [List.mem_singleton] at hx; subst hx; exact hd.ascii
  | snoc ds n c d _ hd _ ih =>
    refine ascii_append ih ?_
    intro x hx; simp only [List.mem_singleton] at hx; subst hx; exact hd.ascii

theorem Spec.Suffix.ascii {s : CStr} {k : Int} (h : Suffix s k) : Ascii s := by
  have key : ∀ t : CStr, Ascii t → s.map toUpper = t → Ascii s := fun t ht he c hc =>
    ascii_of_upper (ht _ (he ▸ List.mem_map_of_mem hc))
  cases h with
  | none => decide
  | kb _ h => exact key _ (by decide) h
  | mb _ h => exact key _ (by decide) h
  | gb _ h => exact key _ (by decide) h

theorem Spec.LooseText.ascii {s : CStr} {n : Int} (h : LooseText s n) : Ascii s := by
  cases h with
  | plain _ _ h =>
    cases h with
    | mk w sg pre ds sf w' sign base m k h1 h2 h3 h4 h5 h6 =>
      exact ascii_append (ascii_append (ascii_append (ascii_append (ascii_append (White.ascii h1) h2.ascii) h3.ascii) h4.ascii) h5.ascii) (White.ascii h6)
  | inner w sg pre mid ds sf w' sign sign2 base m k h1 h2 h3 _ h4 h5 h6 h7 =>
    have hm : Ascii mid := by
      cases h4 with
      | mk w sg px sign a b c =>
        refine ascii_append (ascii_append (White.ascii a) b.ascii) ?_
        rcases c with rfl | ⟨-, rfl | rfl⟩ <;> decide
    exact ascii_append (ascii_append (ascii_append (ascii_append (ascii_append (ascii_append (White.ascii h1) h2.ascii) h3.ascii) hm)
      h5.ascii) h6.ascii) (White.ascii h7)

/-! ### arg_date -/

theorem skipSpaceCt_highAt {w r : CStr} {b : Char} (hw : White w) (hb : High b) : skipSpaceCt (w ++ b :: r) = .error ctypeFault := by
  induction w with
  | nil => rw [List.nil_append, skipSpaceCt, ct_high hb]; rfl
  | cons c w ih =>
    rw [List.cons_append, skipSpaceCt, ct_ascii (space_ascii (hw c (List.mem_cons_self ..))), bind_ok, if_pos (hw c (List.mem_cons_self ..))]
    exact ih fun d hd => hw d (List.mem_cons_of_mem _ hd)

theorem strptimeLoopCt_lit {sub : CStr → CStr → Tm → M (Option (CStr × Tm))} {f r : CStr} : ∀ (lit : CStr),
    (∀ c ∈ lit, c.toNat < 128 ∧ isSpace c = false ∧ c ≠ '%') → ∀ (k : Nat) (tm : Tm) (pm : Bool),
    (∀ k', k = lit.length + k' → 0 < k' → strptimeLoopCt sub k' f ⟨r, tm, pm⟩ = .error ctypeFault) → lit.length < k →
    strptimeLoopCt sub k (lit ++ f) ⟨lit ++ r, tm, pm⟩ = .error ctypeFault := by
  intro lit
  induction lit with
  | nil => intro _ k tm pm h hk; exact h k (by simp) hk
  | cons c lit ih =>
    intro hl k tm pm h hk
    obtain ⟨k, rfl⟩ : ∃ k', k = k' + 1 := ⟨k - 1, by simp at hk; omega⟩
    obtain ⟨h1, h2, h3⟩ := hl c (List.mem_cons_self ..)
    rw [List.cons_append, strptimeLoopCt.eq_def]
    dsimp only
    rw [ct_ascii h1, bind_ok, if_neg (by rw [h2]; decide), if_pos h3]
    dsimp only [List.cons_append]
    rw [if_pos rfl]
    exact ih (fun d hd => hl d (List.mem_cons_of_mem _ hd)) k tm pm (fun k' hk' h0 => h k' (by simp; omega) h0)
      (by simp at hk; omega)

theorem dateScanCt_lit {lit f r : CStr} (hl : ∀ c ∈ lit, c.toNat < 128 ∧ isSpace c = false ∧ c ≠ '%') {mx : Int} {o : DateObj}
    (hc : (o.count : Int) < mx) (hm : (o.tmval.length : Int) = mx)
    (h : ∀ (sub : CStr → CStr → Tm → M (Option (CStr × Tm))) k tm pm, 0 < k → strptimeLoopCt sub k f ⟨r, tm, pm⟩ = .error ctypeFault) :
    dateScanCt (lit ++ f) mx o (some (lit ++ r)) = .error ctypeFault := by
  unfold dateScanCt
  rw [if_neg (by omega)]
  dsimp only
  rw [List.getElem?_eq_getElem (show o.count < o.tmval.length by omega)]
  dsimp only
  unfold strptimeCt
  rw [strptimeWithCt, strptimeLoopCt_lit lit hl _ _ _ (fun k' _ h0 => h _ _ _ _ h0) (by simp; omega)]
  rfl

theorem dateScanCt_format {lit f r : CStr} {b : Char} (hl : ∀ c ∈ lit, c.toNat < 128 ∧ isSpace c = false ∧ c ≠ '%') (hb : High b)
    {mx : Int} {o : DateObj} (hc : (o.count : Int) < mx) (hm : (o.tmval.length : Int) = mx) :
    dateScanCt (lit ++ b :: f) mx o (some (lit ++ r)) = .error ctypeFault := by
  refine dateScanCt_lit hl hc hm fun sub k tm pm hk => ?_
  obtain ⟨k, rfl⟩ : ∃ k', k = k' + 1 := ⟨k - 1, by omega⟩
  rw [strptimeLoopCt.eq_def]
  dsimp only
  rw [ct_high hb]
  rfl

theorem dateScanCt_argument {lit f w r : CStr} {b sp : Char} (hl : ∀ c ∈ lit, c.toNat < 128 ∧ isSpace c = false ∧ c ≠ '%')
    (hs : isSpace sp = true) (hw : White w) (hb : High b)
    {mx : Int} {o : DateObj} (hc : (o.count : Int) < mx) (hm : (o.tmval.length : Int) = mx) :
    dateScanCt (lit ++ sp :: f) mx o (some (lit ++ (w ++ b :: r))) = .error ctypeFault := by
  refine dateScanCt_lit hl hc hm fun sub k tm pm hk => ?_
  obtain ⟨k, rfl⟩ : ∃ k', k = k' + 1 := ⟨k - 1, by omega⟩
  rw [strptimeLoopCt.eq_def]
  dsimp only
  rw [ct_ascii (space_ascii hs), bind_ok, if_pos hs, skipSpaceCt_highAt hw hb]
  rfl

/-! ### arg_rex -/

theorem high_ne {b : Char} (hb : High b) {c : Char} (hc : c.toNat < 128) : b ≠ c := by
  rintro rfl; have := hb.1; omega

theorem ctR_high {α : Type} {c : Char} (h : High c) (r : α) : ctR c r = .error (.fault ctypeFault) := by
  unfold ctR; rw [ct_high h]

theorem ctR_ascii {α : Type} {c : Char} (h : c.toNat < 128) (r : α) : ctR c r = .ok r := by
  unfold ctR; rw [ct_ascii h]

theorem charnodeCt_high {isclass : Bool} {b : Char} {p : CStr} {s : RState} (hp : s.p = b :: p) (hb : High b) :
    charnodeCt isclass s = .error (.fault ctypeFault) := by
  rw [charnodeCt_plain _ hp (high_ne hb (by decide)), ctR_high hb]; rfl

theorem rexAtomCt_char {list : RState → RM (Nat × RState)} {c : Char} {p : CStr} {s : RState} (hp : s.p = c :: p)
    (hc : c ∉ cs "([$.") : rexAtomCt list s = charnodeCt false s := by
  have h : ∀ d ∈ cs "([$.", c ≠ d := fun d hd he => hc (he ▸ hd)
  unfold rexAtomCt
  rw [hp]
  split
  · next he => exact absurd (List.cons.inj he).1 (h _ (by decide))
  · next he => exact absurd (List.cons.inj he).1 (h _ (by decide))
  · next he => exact absurd (List.cons.inj he).1 (h _ (by decide))
  · next he => exact absurd (List.cons.inj he).1 (h _ (by decide))
  · rfl

theorem quantifierCt_none {s : RState} (h : ∀ c p, s.p = c :: p → c ∉ ['*', '+', '?', '{']) :
    quantifierCt s = .ok (none, s) := by
  unfold quantifierCt
  split
  · rename_i p hp; exact absurd (by simp) (h _ _ hp)
  · rename_i p hp; exact absurd (by simp) (h _ _ hp)
  · rename_i p hp; exact absurd (by simp) (h _ _ hp)
  · rename_i p hp; exact absurd (by simp) (h _ _ hp)
  · rfl

theorem high_notin {b : Char} (hb : High b) {l : CStr} (hl : Ascii l) : b ∉ l := fun h => by
  have := hl b h; have := hb.1; omega

theorem rexElementCt_high {b : Char} {r : CStr} (hb : High b) : ∀ (w : CStr) (s : RState) (fuel : Nat), s.p = w ++ b :: r →
    (∀ c ∈ w, Ordinary c) → w.length < fuel → RInv s → rexElementCt fuel s = .error (.fault ctypeFault) := by
  intro w
  induction w with
  | nil =>
    intro s fuel hp _ hf _
    obtain ⟨f, rfl⟩ : ∃ f, fuel = f + 1 := ⟨fuel - 1, by simp at hf; omega⟩
    rw [rexElementCt, rexAtomCt_char hp (high_notin hb (by decide)), charnodeCt_high hp hb]
    rfl
  | cons c w ih =>
    intro s fuel hp hord hf hinv
    obtain ⟨f, rfl⟩ : ∃ f, fuel = f + 1 := ⟨fuel - 1, by simp at hf; omega⟩
    have hc := hord c (by simp)
    obtain ⟨s1, e1, i1, p1, n1⟩ := newnode_eq (.char c) (s := { s with p := w ++ b :: r }) ⟨hinv.len, hinv.pos⟩
    dsimp only at e1 p1
    have hpr : isPrint c = true := by
      unfold isPrint
      rw [Bool.and_eq_true, decide_eq_true_iff, decide_eq_true_iff]
      exact ⟨hc.1, hc.2.1⟩
    have hat : rexAtomCt (rexListCt f) s = .ok (s.nodes.length, s1) := by
      rw [rexAtomCt_char hp, charnodeCt_plain _ hp (ordinary_ne hc (by decide)),
        ctR_ascii (by have := hc.2.1; omega), rbind_ok, if_pos hpr]
      · exact e1
      · intro hm
        exact hc.2.2 ((by decide : ∀ x ∈ cs "([$.", x ∈ cs "\\^$.[(|)*+?{") _ hm)
    have hnext : ∀ d p, s1.p = d :: p → d ∉ cs "|)*+?{" := by
      intro d p hd
      rw [p1] at hd
      cases w with
      | nil => obtain ⟨rfl, -⟩ := List.cons.inj hd; exact high_notin hb (by decide)
      | cons d' w =>
        obtain ⟨rfl, -⟩ := List.cons.inj hd
        intro hm
        exact (hord d' (by simp)).2.2 ((by decide : ∀ x ∈ cs "|)*+?{", x ∈ cs "\\^$.[(|)*+?{") _ hm)
    have hq : quantifierCt s1 = .ok (none, s1) := quantifierCt_none fun d p hd hm => hnext d p hd
      ((by decide : ∀ x ∈ ['*', '+', '?', '{'], x ∈ cs "|)*+?{") _ hm)
    have hr := ih s1 f p1 (fun c' hc' => hord c' (List.mem_cons_of_mem _ hc')) (by simp at hf; omega) i1
    rw [rexElementCt, hat, rbind_ok]
    dsimp only
    rw [hq, rbind_ok]
    dsimp only
    rw [wrapGreedy, rbind_ok]
    dsimp only
    obtain ⟨d, p, hd⟩ : ∃ d p, s1.p = d :: p := by
      rw [p1]
      cases w with
      | nil => exact ⟨b, r, rfl⟩
      | cons d w => exact ⟨d, w ++ b :: r, rfl⟩
    have hdn := hnext d p hd
    have ne : ∀ x ∈ cs "|)*+?{", d ≠ x := fun x hx he => hdn (he ▸ hx)
    rw [hd]
    dsimp only
    rw [if_pos ⟨ne _ (by decide), ne _ (by decide), ne _ (by decide), ne _ (by decide)⟩, hr]
    rfl

theorem rexCompileCt_high {b : Char} {w r : CStr} (hb : High b) (hw : ∀ c ∈ w, Ordinary c) :
    rexCompileCt (w ++ b :: r) = .error ctypeFault := by
  have hs : RInv ⟨w ++ b :: r, [], (w ++ b :: r).length, 0⟩ := ⟨Nat.zero_le _, by simp; omega⟩
  obtain ⟨s1, e1, i1, p1, n1⟩ := newnode_eq .expr hs
  have hel := rexElementCt_high hb w s1 (2 * (w ++ b :: r).length + 1) p1 hw (by simp; omega) i1
  have hhead : listHead (rexElementCt (2 * (w ++ b :: r).length + 1)) s1 = .error (.fault ctypeFault) := by
    unfold listHead
    split
    · rename_i h
      rw [p1] at h
      dsimp only at h
      cases w with
      | nil => exact absurd (List.cons.inj h).1 (high_ne hb (by decide))
      | cons c w => exact absurd (List.cons.inj h).1 (ordinary_ne (hw c (by simp)) (by decide))
    · exact hel
  unfold rexCompileCt
  dsimp only
  rw [e1, rbind_ok]
  dsimp only
  rw [rexListCt, hhead]
  rfl

theorem rexScanCt_pattern {b : Char} {w r : CStr} (hb : High b) (hw : ∀ c ∈ w, Ordinary c) (ic : Bool) {mx : Int} {o : StrObj}
    (hc : (o.count : Int) < mx) (a : CStr) : rexScanCt (w ++ b :: r) ic mx o (some a) = .error ctypeFault := by
  unfold rexScanCt
  rw [if_neg (by omega)]
  dsimp only
  rw [rexCompileCt_high hb hw]
  rfl

theorem compile_letter {l : Char} (h : isClassLetter l = true) : rexCompileCt ['\\', l] =
    .ok (some [{ type := .expr, left := 1, right := 0 }, { type := .ccls, left := charInt l }]) ∧ isClassLetter (intChar (charInt l)) := by
  have hm : l ∈ cs "aAwWsSdDxXcCpPlu" := by unfold isClassLetter at h; simpa using h
  have key : ∀ x ∈ cs "aAwWsSdDxXcCpPlu", (rexCompileCt ['\\', x] =
    .ok (some [{ type := .expr, left := 1, right := 0 }, { type := .ccls, left := charInt x }])) ∧ isClassLetter (intChar (charInt x)) := by
    decide +kernel
  exact key l hm

theorem rexScanCt_text {l b : Char} {r : CStr} (hl : isClassLetter l = true) (hb : High b) (ic : Bool) {mx : Int} {o : StrObj}
    (hc : (o.count : Int) < mx) : rexScanCt ['\\', l] ic mx o (some (b :: r)) = .error ctypeFault := by
  unfold rexScanCt
  rw [if_neg (by omega)]
  dsimp only
  obtain ⟨h1, h2⟩ := compile_letter hl
  have hm : rexMatchCt [{ type := .expr, left := 1, right := 0 }, { type := .ccls, left := charInt l }] ic (b :: r) =
      .error ctypeFault := by
    unfold rexMatchCt
    show (matchnodeCt _ ic (b :: r) (8 + 1) 0 0 none >>= _) = _
    have h8 : matchnodeCt [{ type := .expr, left := 1, right := 0 }, { type := .ccls, left := charInt l }] ic (b :: r) (7 + 1) 1 0
        none = .error ctypeFault := by
      have hmc : matchcclassCt (intChar (charInt l)) b = .error ctypeFault := by
        unfold matchcclassCt
        rw [if_pos h2, ct_high hb]
      have hn : nodeAt [{ type := .expr, left := 1, right := 0 }, { type := .ccls, left := charInt l }] 1 =
        .ok { type := .ccls, left := charInt l } := rfl
      have ht : textAt (b :: r) 0 = .ok b := rfl
      rw [matchnodeCt, hn, bind_ok]
      dsimp only
      rw [ht, bind_ok, hmc]
      rfl
    have hn0 : nodeAt [{ type := .expr, left := 1, right := 0 }, { type := .ccls, left := charInt l }] 0 =
      .ok { type := .expr, left := 1, right := 0 } := rfl
    have hn1 : nodeAt [{ type := .expr, left := 1, right := 0 }, { type := .ccls, left := charInt l }] 1 =
      .ok { type := .ccls, left := charInt l } := rfl
    rw [matchnodeCt, hn0, bind_ok]
    dsimp only
    rw [List.length_cons, exprChain, hn1, bind_ok]
    dsimp only
    rw [if_neg (by decide), h8]
    rfl
  rw [h1, bind_ok]
  dsimp only
  rw [hm]
  rfl

end Argtable
