/-
Every pattern that the compiler accepts is written by a well-formed tree: induction along the
recursive-descent compiler.
-/
import Verif.Proofs.RegexCompile

namespace Argtable
open Spec

/-- No NUL. -/
def NoNul (w : CStr) : Prop := ∀ c ∈ w, 0 < c.toNat

theorem NoNul.tail {c : Char} {w : CStr} (h : NoNul (c :: w)) : NoNul w := fun d hd => h d (by simp [hd])
theorem NoNul.right {u w : CStr} (h : NoNul (u ++ w)) : NoNul w := fun d hd => h d (by simp [hd])

theorem newnode_p {ty : RType} {s s' : RState} {n : Nat} (h : newnode ty s = .ok (n, s')) :
    s'.p = s.p ∧ n = s.nodes.length ∧ ∃ nn : RNode, nn.type = ty ∧ s'.nodes = s.nodes ++ [nn] := by
  unfold newnode at h
  dsimp only at h
  generalize (if s.nalloc < s.nodes.length + 1 then s.nalloc * 2 else s.nalloc) = na at h
  by_cases hl : s.nodes.length < na
  · rw [if_pos hl] at h; cases h; exact ⟨rfl, rfl, _, rfl, rfl⟩
  · rw [if_neg hl] at h; cases h

theorem sbind_inv' {α β : Type} {x : RM α} {f : α → RM β} {b : β} (h : (x >>= f) = .ok b) : ∃ a, x = .ok a ∧ f a = .ok b := by
  cases x with
  | error e => cases h
  | ok a => exact ⟨a, rfl, h⟩

theorem if_error_inv {α : Type} {c : Prop} [Decidable c] {e : RErr} {x : RM α} {a : α}
    (h : (if c then .error e else x) = .ok a) : x = .ok a := by
  by_cases hc : c
  · rw [if_pos hc] at h; cases h
  · rwa [if_neg hc] at h

theorem isPrint_iff {c : Char} : isPrint c = true ↔ 32 ≤ c.toNat ∧ c.toNat ≤ 126 := by
  unfold isPrint; simp

theorem escapeOf_some {c e : Char} (h : escapeOf c = some e) : c ∈ cs "vntrf" := by
  by_contra hn
  rw [escapeOf_none hn] at h
  cases h

theorem escapeOf_eq_none {c : Char} (h : escapeOf c = none) : c ∉ cs "vntrf" := by
  intro hn
  rw [escapeOf_ctl hn] at h
  cases h

/-! ### single characters -/

theorem charnode_inv {isclass : Bool} {s s' : RState} {n : Nat} (ha : NoNul s.p) (h : charnode isclass s = .ok (n, s')) :
    (∃ l : Lit, s.p = l.text ++ s'.p ∧ (isclass = true → s.p.head? ≠ some ']' → l.SetOk) ∧
      (isclass = false → s.p.head? ∉ [some '$', some '.', some '[', some '('] → l.Ok)) ∨
    (∃ l, s.p = '\\' :: l :: s'.p ∧ l ∈ classLetters ∧ ∃ nn, s'.nodes[n]? = some nn ∧ nn.type = .ccls) ∨
    (isclass = false ∧ ∃ neg : Bool, s.p = '\\' :: (if neg then 'B' else 'b') :: s'.p) := by
  unfold charnode at h
  split at h
  · cases h
  · cases h
  · rename_i c p hp
    have hc : 0 < c.toNat := ha c (by rw [hp]; simp)
    split at h
    · rename_i e he
      have h1 := (newnode_p h).1
      dsimp only at h1
      have hm := escapeOf_some he
      exact Or.inl ⟨.ctl c, by rw [hp, h1]; rfl, fun _ _ => hm, fun _ _ => hm⟩
    · rename_i he
      have hm := escapeOf_eq_none he
      split at h
      · rename_i hcl
        unfold rexCharclass at h
        obtain ⟨⟨m, s1⟩, h1, h2⟩ := sbind_inv' h
        obtain ⟨h3, h4, nn, h5, h6⟩ := newnode_p h1
        cases h2
        dsimp only at h3 h4 h6
        refine Or.inr (Or.inl ⟨c, ?_, isClassLetter_iff.1 hcl, ?_⟩)
        · rw [hp]; show _ = '\\' :: c :: s1.p; rw [h3]
        · refine ⟨{ nn with left := charInt c }, setLeft_self ?_ _, h5⟩
          rw [h6, h4]; simp
      · rename_i hcl
        rw [isClassLetter_iff] at hcl
        split at h
        · rename_i hb
          obtain ⟨⟨m, s1⟩, h1, h2⟩ := sbind_inv' h
          have h3 := (newnode_p h1).1
          dsimp only at h3
          cases h2
          refine Or.inr (Or.inr ⟨by simpa using hb.2, ?_⟩)
          rcases hb.1 with rfl | rfl
          · exact ⟨false, by rw [hp]; show _ = _ :: _ :: s1.p; rw [h3]; rfl⟩
          · exact ⟨true, by rw [hp]; show _ = _ :: _ :: s1.p; rw [h3]; rfl⟩
        · rename_i hb
          have h3 := (newnode_p h).1
          dsimp only at h3
          refine Or.inl ⟨.quoted c, by rw [hp, h3]; rfl, fun _ _ => ⟨hc, hcl, hm⟩, fun h0 _ => ⟨hc, hcl, ?_⟩⟩
          intro hm2
          have : c = 'b' ∨ c = 'B' ∨ c ∈ cs "vntrf" := by
            simp [cs] at hm2 ⊢
            tauto
          rcases this with h4 | h4 | h4
          · exact hb ⟨Or.inl h4, by simp [h0]⟩
          · exact hb ⟨Or.inr h4, by simp [h0]⟩
          · exact hm h4
  · rename_i c p hn1 hn2 hp
    split at h
    · rename_i hpr
      have h3 := (newnode_p h).1
      dsimp only at h3
      rw [isPrint_iff] at hpr
      have hne : c ≠ '\\' := by
        rintro rfl
        cases p with
        | nil => exact hn1 rfl rfl
        | cons d p => exact hn2 _ _ rfl rfl
      refine Or.inl ⟨.plain c, by rw [hp, h3]; rfl, fun _ hbr => ⟨hpr.1, hpr.2, ?_⟩, fun _ hsp => ⟨hpr.1, hpr.2, ?_⟩⟩
      · rw [hp] at hbr
        simp [cs] at hbr ⊢
        tauto
      · rw [hp] at hsp
        simp [cs] at hsp ⊢
        tauto
    · cases h

theorem escapechar_inv {s s' : RState} {t : Char} (ha : NoNul s.p) (h : escapechar s = .ok (t, s')) :
    ∃ l : Lit, l.EndOk ∧ s.p = l.text ++ s'.p := by
  unfold escapechar at h
  split at h
  · cases h
  · cases h
  · rename_i c p hp
    have hc : 0 < c.toNat := ha c (by rw [hp]; simp)
    cases h
    by_cases hm : c ∈ cs "vntrf"
    · exact ⟨.ctl c, hm, hp⟩
    · exact ⟨.quoted c, ⟨hc, hm⟩, hp⟩
  · rename_i c p hn1 hn2 hp
    split at h
    · rename_i hpr
      cases h
      rw [isPrint_iff] at hpr
      refine ⟨.plain t, ⟨hpr.1, hpr.2, ?_⟩, hp⟩
      rintro rfl
      cases p with
      | nil => exact hn1 rfl rfl
      | cons d p => exact hn2 _ _ rfl rfl
    · cases h

/-! ### classes -/

theorem flatMap_head {x : SetItem} {xs : List SetItem} (hx : x.Ok) {t : CStr} {p : CStr} (h : (x :: xs).flatMap SetItem.text ++ t = p) :
    x.text.head? = p.head? := by
  obtain ⟨d, u, hd, -⟩ := SetItem.head hx
  rw [← h, List.flatMap_cons, hd]
  rfl

theorem classLoop_inv : ∀ (fuel : Nat) (first : Option Nat) (chain : Nat) (s : RState) (f' : Option Nat) (c' : Nat) (s' : RState),
    NoNul s.p → classLoop fuel first chain s = .ok (f', c', s') → (∃ t, s'.p = ']' :: t) ∧
    (first = none → ∃ items : List SetItem, (∀ x ∈ items, x.Ok) ∧ Separate items ∧ s.p = items.flatMap SetItem.text ++ s'.p) ∧
    (∀ (f : Nat) (x : SetItem), first = some f → x.Ok → (∀ a b, x ≠ .range a b) → (∀ l, x = .cls l → ∃ nn, s.nodes[f]? = some nn ∧ nn.type = .ccls) →
      ∃ y items, (∀ z ∈ y :: items, SetItem.Ok z) ∧ Separate (y :: items) ∧
        x.text ++ s.p = (y :: items).flatMap SetItem.text ++ s'.p) := by
  intro fuel
  induction fuel with
  | zero => intro first chain s f' c' s' _ h; rw [classLoop] at h; cases h
  | succ fuel ih =>
    intro first chain s f' c' s' ha h
    cases hp : s.p with
    | nil =>
      exfalso
      cases first with
      | none =>
        rw [classLoop.eq_def] at h
        dsimp only at h
        rw [hp] at h
        dsimp only at h
        unfold charnode at h
        rw [hp] at h
        cases h
      | some f =>
        rw [classLoop.eq_def] at h
        dsimp only at h
        rw [hp] at h
        dsimp only at h
        have hp' : (s.setNext chain f).p = [] := hp
        unfold charnode at h
        rw [hp'] at h
        cases h
    | cons d t =>
      by_cases hd : d = ']'
      · subst hd
        rw [classLoop_end hp] at h
        cases h
        refine ⟨⟨t, hp⟩, fun _ => ⟨[], by simp, trivial, by simp [hp]⟩, fun f x _ hx _ _ => ⟨x, [], by simpa using hx, trivial, ?_⟩⟩
        simp [hp]
      · have single : ∀ {s1 s2 : RState} {n : Nat}, s1.p = s.p → charnode true s1 = .ok (n, s2) →
            ∀ {c : Nat}, classLoop fuel (some n) c s2 = .ok (f', c', s') →
            (∃ t, s'.p = ']' :: t) ∧ ∃ y items, (∀ z ∈ y :: items, SetItem.Ok z) ∧ Separate (y :: items) ∧
              s.p = (y :: items).flatMap SetItem.text ++ s'.p := by
          intro s1 s2 n hs1 hcn c hloop
          have ha1 : NoNul s1.p := by rw [hs1]; exact ha
          obtain ⟨x, hx, hxr, hxp, hxc⟩ : ∃ x : SetItem, x.Ok ∧ (∀ a b, x ≠ .range a b) ∧ s.p = x.text ++ s2.p ∧
              (∀ l, x = .cls l → ∃ nn, s2.nodes[n]? = some nn ∧ nn.type = .ccls) := by
            rcases charnode_inv ha1 hcn with ⟨l, h1, h2, -⟩ | ⟨l, h1, h2, h3⟩ | ⟨h1, -⟩
            · refine ⟨.one l, h2 rfl ?_, by simp, by rw [← hs1, h1]; rfl, by simp⟩
              rw [hs1, hp]; simpa using hd
            · exact ⟨.cls l, h2, by simp, by rw [← hs1, h1]; rfl, fun _ _ => h3⟩
            · cases h1
          have ha2 : NoNul s2.p := by
            rw [hxp] at ha; exact ha.right
          obtain ⟨g1, -, g3⟩ := ih _ _ _ _ _ _ ha2 hloop
          obtain ⟨y, items, k1, k2, k3⟩ := g3 n x rfl hx hxr hxc
          exact ⟨g1, y, items, k1, k2, by rw [hxp, k3]⟩
        cases first with
        | none =>
          rw [classLoop_none hp hd] at h
          obtain ⟨⟨n, s2⟩, h1, h2⟩ := sbind_inv' h
          dsimp only at h2
          obtain ⟨g1, y, items, k1, k2, k3⟩ := single rfl h1 h2
          exact ⟨g1, fun _ => ⟨y :: items, k1, k2, by rw [← hp]; exact k3⟩, fun _ _ h => by cases h⟩
        | some f =>
          by_cases hm : d = '-'
          · subst hm
            rw [classLoop_dash hp] at h
            obtain ⟨⟨r, s1⟩, h1, h2⟩ := sbind_inv' h
            obtain ⟨p1, r1, nn, t1, n1⟩ := newnode_p h1
            dsimp only at p1 r1 n1 h2
            replace h2 := if_error_inv h2
            · split at h2
              · cases h2
              · rename_i fn hfn
                split at h2
                · cases h2
                · rename_i hty
                  obtain ⟨⟨tc, s3⟩, h3, h4⟩ := sbind_inv' h2
                  dsimp only at h4
                  have hs1 : (s1.setLeft r fn.type.code).p = t := p1
                  obtain ⟨b, hb, hbp⟩ := escapechar_inv (by rw [hs1]; rw [hp] at ha; exact ha.tail) h3
                  rw [hs1] at hbp
                  have ha3 : NoNul ((s3.setRight r (charInt tc)).setNext chain r).p := by
                    show NoNul s3.p
                    rw [hp, hbp] at ha
                    exact ha.tail.right
                  obtain ⟨g1, g2, -⟩ := ih _ _ _ _ _ _ ha3 h4
                  obtain ⟨items, k1, k2, k3⟩ := g2 rfl
                  have k3' : s3.p = items.flatMap SetItem.text ++ s'.p := k3
                  refine ⟨g1, fun h => (by cases h), fun f0 x hf0 hx hxr hxc => ?_⟩
                  cases hf0
                  cases x with
                  | range a b => exact absurd rfl (hxr a b)
                  | cls l =>
                    obtain ⟨nn', e1, e2⟩ := hxc l rfl
                    exfalso
                    have : s1.nodes[f]? = some nn' := by
                      rw [n1, List.getElem?_append_left (lt_of_getElem? e1)]; exact e1
                    rw [this] at hfn
                    cases hfn
                    exact hty e2
                  | one l =>
                    refine ⟨.range l b, items, ?_, ?_, ?_⟩
                    · intro z hz
                      rcases List.mem_cons.1 hz with rfl | hz
                      · exact ⟨hx, hb⟩
                      · exact k1 z hz
                    · cases items with
                      | nil => trivial
                      | cons y ys => exact ⟨Or.inl ⟨_, _, rfl⟩, k2⟩
                    · rw [hbp, k3']
                      simp [SetItem.text]
          · rw [classLoop_some hp hd hm, classLoop_none (s := s.setNext chain f) hp hd] at h
            obtain ⟨⟨n, s2⟩, h1, h2⟩ := sbind_inv' h
            dsimp only at h2
            obtain ⟨g1, y, items, k1, k2, k3⟩ := single (s1 := s.setNext chain f) rfl h1 h2
            refine ⟨g1, fun h => (by cases h), fun f0 x hf0 hx hxr hxc => ⟨x, y :: items, ?_, ⟨Or.inr ?_, k2⟩, ?_⟩⟩
            · intro z hz
              rcases List.mem_cons.1 hz with rfl | hz
              · exact hx
              · exact k1 z hz
            · rw [flatMap_head (k1 y (by simp)) k3.symm, hp]
              simpa using hm
            · rw [List.flatMap_cons, List.append_assoc, ← k3, hp]

theorem rexExpect_inv {c : Char} {s s' : RState} (h : rexExpect c s = .ok s') : s.p = c :: s'.p := by
  unfold rexExpect at h
  split at h
  · rename_i d p hp
    split at h
    · rename_i hd; cases h; rw [hp, hd]
    · cases h
  · cases h

theorem rexClass_inv {s s' s'' : RState} {n : Nat} (ha : NoNul s.p) (h : rexClass s = .ok (n, s')) (he : rexExpect ']' s' = .ok s'') :
    ∃ neg x items, (Atom.set neg x items).Ok ∧ '[' :: s.p = (Atom.set neg x items).text ++ s''.p := by
  unfold rexClass at h
  obtain ⟨⟨ret, s1⟩, h1, h2⟩ := sbind_inv' h
  dsimp only at h2
  obtain ⟨neg, hneg, hop⟩ : ∃ neg : Bool, s.p = (if neg then cs "^" else []) ++ s1.p ∧ Opens neg s1.p := by
    unfold classHead at h1
    split at h1
    · rename_i p hp
      obtain ⟨⟨m, s2⟩, h3, h4⟩ := sbind_inv' h1
      cases h4
      exact ⟨true, by rw [hp]; rfl, Or.inl rfl⟩
    · rename_i hp
      refine ⟨false, by rw [(newnode_p h1).1]; rfl, Or.inr ?_⟩
      rw [(newnode_p h1).1]
      intro hh
      cases hsp : s.p with
      | nil => rw [hsp] at hh; cases hh
      | cons c t => rw [hsp] at hh; cases hh; exact hp _ hsp
  split at h2
  · cases h2
  · rename_i hne
    obtain ⟨⟨f', c', s3⟩, h3, h4⟩ := sbind_inv' h2
    dsimp only at h4
    have ha1 : NoNul s1.p := by rw [hneg] at ha; exact ha.right
    obtain ⟨⟨t, ht⟩, g2, -⟩ := classLoop_inv _ _ _ _ _ _ _ ha1 h3
    obtain ⟨items, k1, k2, k3⟩ := g2 rfl
    have hs' : s'.p = s3.p := by
      cases f' with
      | none =>
        dsimp only at h4
        split at h4
        · cases h4
        · cases h4; rfl
      | some f =>
        dsimp only at h4
        split at h4
        · cases h4
        · cases h4; rfl
    have hex := rexExpect_inv he
    rw [hs', ht] at hex
    cases hex
    cases items with
    | nil =>
      exfalso
      rw [List.flatMap_nil, List.nil_append, ht] at k3
      exact hne _ k3
    | cons x items =>
      refine ⟨neg, x, items, ?_, ?_⟩
      · rw [Atom.Ok]
        refine ⟨k1, ?_, k2⟩
        unfold Opens at hop ⊢
        rw [flatMap_head (k1 x (by simp)) k3.symm]
        exact hop
      · rw [Atom.text, hneg, k3, ht]
        simp [cs]

/-! ### repetitions -/

theorem parseDigits_inv : ∀ (p : CStr) (ret pos : Int) (v : Int) (q : CStr) (k : Nat), parseDigits p ret pos = .ok (v, q) →
    pos = (10 : Int) ^ (k + 1) → k ≤ 8 →
    ∃ w : CStr, p = w ++ q ∧ (∀ c ∈ w, isDigit c = true) ∧ w.length + k ≤ 8 ∧ (∀ c t, q = c :: t → isDigit c = false) := by
  intro p
  induction p with
  | nil =>
    intro ret pos v q k h _ hk
    rw [parseDigits] at h
    cases h
    exact ⟨[], rfl, by simp, by simpa using hk, by intro c t h; cases h⟩
  | cons c p ih =>
    intro ret pos v q k h hpos hk
    rw [parseDigits] at h
    split at h
    · rename_i hd
      split at h
      · cases h
      · split at h
        · cases h
        · rename_i hne
          have hk8 : k + 1 ≤ 8 := by
            by_contra hh
            have : k = 8 := by omega
            subst this
            rw [hpos] at hne
            exact hne (by norm_num)
          obtain ⟨w, h1, h2, h3, h4⟩ := ih _ _ v q (k + 1) h (by rw [hpos]; ring) hk8
          refine ⟨c :: w, by rw [h1]; rfl, ?_, by simp; omega, h4⟩
          intro x hx
          rcases List.mem_cons.1 hx with rfl | hx
          · exact hd
          · exact h2 x hx
    · rename_i hd
      cases h
      refine ⟨[], rfl, by simp, by simpa using hk, ?_⟩
      intro x t hx
      cases hx
      simpa using hd

theorem parseNumber_inv {s s' : RState} {v : Nat} {c : Char} {t : CStr} (hp : s.p = c :: t) (hc : isDigit c = true)
    (h : parseNumber s = .ok (v, s')) :
    ∃ w : CStr, w ≠ [] ∧ w.length ≤ 9 ∧ (∀ c ∈ w, isDigit c = true) ∧ s.p = w ++ s'.p ∧
      (∀ c t, s'.p = c :: t → isDigit c = false) := by
  unfold parseNumber at h
  rw [hp] at h
  dsimp only at h
  obtain ⟨⟨m, q⟩, h1, h2⟩ := sbind_inv' h
  cases h2
  obtain ⟨w, k1, k2, k3, k4⟩ := parseDigits_inv _ _ _ _ _ 0 h1 (by norm_num) (by omega)
  refine ⟨c :: w, by simp, by simp; omega, ?_, by rw [hp, k1]; rfl, k4⟩
  intro x hx
  rcases List.mem_cons.1 hx with rfl | hx
  · exact hc
  · exact k2 x hx

theorem digit_head_ne {c d : Char} {w t : CStr} (h : d :: w = c :: t) : c = d := by cases h; rfl

theorem quantifier_inv {s s' : RState} {q : Option (Nat × Nat)} (h : quantifier s = .ok (q, s')) :
    ∃ Q : Quant, s.p = Q.text ++ s'.p ∧ (q = none ↔ Q = .once) ∧ (Q = .once → NoQuant s'.p) ∧
      (∀ p0 p1, q = some (p0, p1) → p0 < 32768 → Q.Ok) := by
  unfold quantifier at h
  split at h
  · rename_i p hp; cases h; exact ⟨.star, hp, by simp, by simp, fun _ _ _ _ => trivial⟩
  · rename_i p hp; cases h; exact ⟨.plus, hp, by simp, by simp, fun _ _ _ _ => trivial⟩
  · rename_i p hp; cases h; exact ⟨.opt, hp, by simp, by simp, fun _ _ _ _ => trivial⟩
  · rename_i p hp
    split at h
    · rename_i c t
      split at h
      · cases h
      · rename_i hc
        have hc' : isDigit c = true := by simpa using hc
        obtain ⟨⟨p0, s1⟩, h1, h2⟩ := sbind_inv' h
        obtain ⟨w, w1, w2, w3, w4, w5⟩ := parseNumber_inv (s := { s with p := c :: t }) rfl hc' h1
        dsimp only at h2 w4
        have val : ∀ {c0 : Char} {u : CStr}, s1.p = c0 :: u → p0 = bound w := by
          intro c0 u hu
          have h0 := w5 _ _ hu
          have := parseNumber_raw w1 w2 w3 h0 (s := { s with p := c :: t }) (p := u) (by dsimp only; rw [w4, hu])
          rw [h1] at this
          cases this
          rfl
        split at h2
        · rename_i u hu
          cases h2
          refine ⟨.raw w none, ?_, by simp, by simp, ?_⟩
          · rw [hp, w4, hu]; simp [Quant.text, cs]
          · intro a b hab hlt
            cases hab
            exact ⟨⟨w1, w2, w3, by rw [← val hu]; exact hlt⟩, by simp⟩
        · rename_i u hu
          obtain ⟨⟨p1, s2⟩, h3, h4⟩ := sbind_inv' h2
          obtain ⟨s3, h5, h6⟩ := sbind_inv' h4
          cases h6
          have hex := rexExpect_inv h5
          dsimp only at hex
          have hup : ∃ ds : CStr, u = ds ++ s2.p ∧ ds.length ≤ 9 ∧ ∀ c ∈ ds, isDigit c = true := by
            unfold quantUpper at h3
            dsimp only at h3
            split at h3
            · rename_i c1 t1
              split at h3
              · rename_i hc1
                obtain ⟨v, v1, v2, v3, v4, -⟩ := parseNumber_inv (s := { s1 with p := c1 :: t1 }) rfl hc1 h3
                exact ⟨v, v4, v2, v3⟩
              · cases h3; exact ⟨[], rfl, by simp, by simp⟩
            · cases h3; exact ⟨[], rfl, by simp, by simp⟩
          obtain ⟨ds, d1, d2, d3⟩ := hup
          refine ⟨.raw w (some ds), ?_, by simp, by simp, ?_⟩
          · rw [hp, w4, hu, d1, hex]; simp [Quant.text, cs]
          · intro a b hab hlt
            cases hab
            refine ⟨⟨w1, w2, w3, by rw [← val hu]; exact hlt⟩, ?_⟩
            intro ds' h'
            cases h'
            exact ⟨d2, d3⟩
        · cases h2
    · cases h
  · rename_i h1 h2 h3 h4
    cases h
    refine ⟨.once, rfl, by simp, fun _ c t hct => ?_, fun _ _ h => by cases h⟩
    simp only [List.mem_cons, List.not_mem_nil, or_false, not_or]
    refine ⟨?_, ?_, ?_, ?_⟩ <;> rintro rfl
    · exact h1 _ hct
    · exact h2 _ hct
    · exact h3 _ hct
    · exact h4 _ hct

theorem wrapGreedy_inv {ret n : Nat} {q : Option (Nat × Nat)} {s s' : RState} (h : wrapGreedy ret q s = .ok (n, s')) :
    s'.p = s.p ∧ ∀ p0 p1, q = some (p0, p1) → p0 < 32768 := by
  unfold wrapGreedy at h
  split at h
  · cases h; exact ⟨rfl, fun _ _ h => by cases h⟩
  · split at h
    · cases h
    · rename_i p0 p1 hlt
      obtain ⟨⟨m, s1⟩, h1, h2⟩ := sbind_inv' h
      cases h2
      refine ⟨(newnode_p h1).1, ?_⟩
      intro a b hab
      cases hab
      omega

/-! ### the recursion -/

/-- Whatever a function that compiles patterns accepts is written by a tree. -/
def ListInv (list : RState → RM (Nat × RState)) : Prop := ∀ (s s' : RState) (n : Nat), NoNul s.p → list s = .ok (n, s') →
  ∃ r : Re, r.Ok ∧ s.p = r.text ++ s'.p

theorem rexAtom_inv {list : RState → RM (Nat × RState)} (hlist : ListInv list) {s s' : RState} {n : Nat} (ha : NoNul s.p)
    (h : rexAtom list s = .ok (n, s')) : ∃ a : Atom, a.Ok ∧ s.p = a.text ++ s'.p := by
  unfold rexAtom at h
  split at h
  · rename_i p hp
    obtain ⟨⟨e, s1⟩, h1, h2⟩ := sbind_inv' h
    obtain ⟨⟨k, s2⟩, h3, h4⟩ := sbind_inv' h2
    obtain ⟨s3, h5, h6⟩ := sbind_inv' h4
    cases h6
    have hex := rexExpect_inv h5
    have hex' : s2.p = ')' :: s'.p := hex
    rw [hp] at ha
    have hap := ha.tail
    obtain ⟨cap, g1, g2⟩ : ∃ cap : Bool, p = (if cap then [] else cs "?:") ++ s1.p ∧ (cap = true → s1.p.head? ≠ some '?') := by
      unfold groupHead at h1
      dsimp only at h1
      split at h1
      · rename_i p1
        obtain ⟨s4, k1, k2⟩ := sbind_inv' h1
        have e1 := rexExpect_inv k1
        have e2 := (newnode_p k2).1
        dsimp only at e1
        exact ⟨false, by rw [e2, e1]; rfl, by simp⟩
      · rename_i hne
        have e2 := (newnode_p h1).1
        dsimp only at e2
        refine ⟨true, by rw [e2]; rfl, fun _ hh => ?_⟩
        rw [e2] at hh
        cases p with
        | nil => cases hh
        | cons c t => cases hh; exact hne _ rfl
    have ha1 : NoNul s1.p := by rw [g1] at hap; exact hap.right
    obtain ⟨r, r1, r2⟩ := hlist s1 s2 k ha1 h3
    refine ⟨.group cap r, ?_, ?_⟩
    · rw [Atom.Ok]
      refine ⟨r1, fun hc => ?_⟩
      obtain ⟨d, t, hd⟩ := Re.head (r := r)
      have := g2 hc
      rw [r2, hd] at this
      rw [hd]
      exact this
    · rw [hp, g1, r2, hex', Atom.text]
      cases cap <;> simp [cs]
  · rename_i p hp
    obtain ⟨⟨e, s1⟩, h1, h2⟩ := sbind_inv' h
    obtain ⟨s3, h5, h6⟩ := sbind_inv' h2
    cases h6
    rw [hp] at ha
    obtain ⟨neg, x, items, k1, k2⟩ := rexClass_inv (s := { s with p := p }) ha.tail h1 h5
    exact ⟨_, k1, by rw [hp]; exact k2⟩
  · rename_i p hp
    have := (newnode_p h).1
    exact ⟨.eol, by rw [Atom.Ok]; trivial, by rw [hp, this, Atom.text]; rfl⟩
  · rename_i p hp
    have := (newnode_p h).1
    exact ⟨.any, by rw [Atom.Ok]; trivial, by rw [hp, this, Atom.text]; rfl⟩
  · rename_i h1 h2 h3 h4
    have hsp : s.p.head? ∉ [some '$', some '.', some '[', some '('] := by
      cases hs : s.p with
      | nil => simp
      | cons c t =>
        simp only [List.head?_cons, List.mem_cons, List.not_mem_nil, or_false, Option.some.injEq, not_or]
        refine ⟨?_, ?_, ?_, ?_⟩ <;> rintro rfl
        · exact h3 _ hs
        · exact h4 _ hs
        · exact h2 _ hs
        · exact h1 _ hs
    rcases charnode_inv ha h with ⟨l, k1, -, k3⟩ | ⟨l, k1, k2, -⟩ | ⟨-, neg, k1⟩
    · exact ⟨.chr l, by rw [Atom.Ok]; exact k3 rfl hsp, by rw [Atom.text]; exact k1⟩
    · exact ⟨.cls l, by rw [Atom.Ok]; exact k2, by rw [Atom.text]; exact k1⟩
    · exact ⟨.edge neg, by rw [Atom.Ok]; trivial, by rw [Atom.text, k1]; cases neg <;> rfl⟩

theorem rex_inv : ∀ fuel : Nat,
    (∀ (s s' : RState) (n : Nat), NoNul s.p → rexElement fuel s = .ok (n, s') → ∃ es : Elems, es.Ok ∧ s.p = es.text ++ s'.p) ∧
    ListInv (rexList fuel) := by
  intro fuel
  induction fuel with
  | zero =>
    constructor
    · intro s s' n _ h; rw [rexElement] at h; cases h
    · intro s s' n _ h; rw [rexList] at h; cases h
  | succ fuel ih =>
    obtain ⟨ihe, ihl⟩ := ih
    constructor
    · intro s s' n ha h
      rw [rexElement] at h
      obtain ⟨⟨ret, s1⟩, h1, h2⟩ := sbind_inv' h
      obtain ⟨⟨q, s2⟩, h3, h4⟩ := sbind_inv' h2
      obtain ⟨⟨ret2, s3⟩, h5, h6⟩ := sbind_inv' h4
      dsimp only at h3 h5 h6
      obtain ⟨a, a1, a2⟩ := rexAtom_inv ihl ha h1
      obtain ⟨Q, q1, q2, q3, q4⟩ := quantifier_inv h3
      obtain ⟨w1, w2⟩ := wrapGreedy_inv h5
      have hQ : Q.Ok := by
        cases q with
        | none => rw [q2.1 rfl]; trivial
        | some pp => exact q4 pp.1 pp.2 rfl (w2 pp.1 pp.2 rfl)
      have htext : s.p = a.text ++ (Q.text ++ s3.p) := by rw [a2, q1, w1]
      have hlast : s' = s3 → ∃ es : Elems, es.Ok ∧ s.p = es.text ++ s'.p := by
        rintro rfl
        exact ⟨.last a Q, by rw [Elems.Ok]; exact ⟨a1, hQ⟩, by rw [Elems.text, htext, List.append_assoc]⟩
      split at h6
      · cases h6; exact hlast rfl
      · rename_i c t hct
        split at h6
        · rename_i hc
          obtain ⟨⟨m, s4⟩, h7, h8⟩ := sbind_inv' h6
          cases h8
          have ha3 : NoNul s3.p := by
            rw [htext] at ha; exact ha.right.right
          obtain ⟨es, e1, e2⟩ := ihe s3 s4 m ha3 h7
          refine ⟨.more a Q es, ?_, ?_⟩
          · rw [Elems.Ok]
            obtain ⟨d, u, hd⟩ := Elems.head (es := es)
            have hdc : d = c := by
              rw [hct, hd] at e2
              cases e2
              rfl
            subst hdc
            refine ⟨a1, hQ, e1, ?_, ?_⟩
            · rw [hd]
              simp only [List.head?_cons, List.mem_cons, List.not_mem_nil, or_false, Option.some.injEq, not_or]
              exact hc
            · intro hq
              have := q3 hq d t (by rw [← w1]; exact hct)
              rw [hd]
              simp only [List.head?_cons, List.mem_cons, List.not_mem_nil, or_false, Option.some.injEq, not_or] at this ⊢
              exact ⟨this.2.2.1, this.2.2.2⟩
          · show _ = _ ++ s4.p
            rw [Elems.text, htext, e2]
            simp
        · cases h6; exact hlast rfl
    · intro s s' n ha h
      rw [rexList] at h
      obtain ⟨⟨ret, s1⟩, h1, h2⟩ := sbind_inv' h
      dsimp only at h2
      obtain ⟨bol, es, b1, b2, b3⟩ : ∃ (bol : Bool) (es : Elems), es.Ok ∧ Opens bol es.text ∧
          s.p = (if bol then cs "^" else []) ++ es.text ++ s1.p := by
        unfold listHead at h1
        split at h1
        · rename_i p hp
          obtain ⟨⟨b, s2⟩, h3, h4⟩ := sbind_inv' h1
          obtain ⟨⟨e, s3⟩, h5, h6⟩ := sbind_inv' h4
          cases h6
          have hp2 := (newnode_p h3).1
          dsimp only at hp2 h5
          rw [hp] at ha
          obtain ⟨es, e1, e2⟩ := ihe s2 s3 e (by rw [hp2]; exact ha.tail) h5
          refine ⟨true, es, e1, Or.inl rfl, ?_⟩
          show _ = _ ++ s3.p
          rw [hp, ← hp2, e2]
          simp [cs]
        · rename_i hne
          obtain ⟨es, e1, e2⟩ := ihe s s1 ret ha h1
          refine ⟨false, es, e1, Or.inr ?_, by rw [e2]; rfl⟩
          obtain ⟨d, u, hd⟩ := Elems.head (es := es)
          rw [hd]
          intro hh
          cases hh
          exact hne _ (by rw [e2, hd]; rfl)
      split at h2
      · rename_i p hp
        obtain ⟨⟨t, s2⟩, h3, h4⟩ := sbind_inv' h2
        obtain ⟨⟨k, s3⟩, h5, h6⟩ := sbind_inv' h4
        cases h6
        have hp2 := (newnode_p h3).1
        dsimp only at hp2
        have hp2' : (s2.setLeft t ret).p = p := hp2
        have ha1 : NoNul s1.p := by rw [b3] at ha; exact ha.right
        rw [hp] at ha1
        obtain ⟨r, r1, r2⟩ := ihl (s2.setLeft t ret) s3 k (by rw [hp2']; exact ha1.tail) h5
        refine ⟨.alt bol es r, by rw [Re.Ok]; exact ⟨b1, r1, b2⟩, ?_⟩
        show _ = _ ++ s3.p
        rw [b3, hp, ← hp2', r2, Re.text]
        simp
      · cases h2
        exact ⟨.branch bol es, by rw [Re.Ok]; exact ⟨b1, b2⟩, by rw [Re.text]; exact b3⟩

/-- Every pattern that compiles is written by a tree. -/
theorem rexCompile_inv {pat : CStr} (ha : NoNul pat) {nodes : List RNode} (h : rexCompile pat = .ok (some nodes)) :
    ∃ r : Re, r.Ok ∧ r.text = pat := by
  unfold rexCompile at h
  dsimp only at h
  split at h
  · rename_i ns hr
    obtain ⟨⟨f, s1⟩, h1, h2⟩ := sbind_inv' hr
    obtain ⟨⟨k, s2⟩, h3, h4⟩ := sbind_inv' h2
    have p1 := (newnode_p h1).1
    dsimp only at p1 h4 h3
    obtain ⟨r, r1, r2⟩ := (rex_inv _).2 s1 s2 k (by rw [p1]; exact ha) h3
    split at h4
    · cases h4
    · rename_i hp
      have hp' : s2.p = [] := by
        have : (s2.setLeft f k).p = [] := by simpa using hp
        exact this
      exact ⟨r, r1, by rw [← p1, r2, hp', List.append_nil]⟩
  · cases h
  · cases h

end Argtable
