import Verif.Spec.Spelling
import Verif.Proofs.Entered
import Verif.Proofs.Remark
/-!
# Spellings of options: lemmas
-/

namespace Argtable

open Spec

variable {σ : Type} {env : Bool} {m : Nat}

theorem options_tokenize {ds : List Decl} {args : List CStr} {gs : List (Nat × Option CStr)} (h : Options ds args gs)
    (env : Bool) (post : List CStr) :
    tokenize ds env (args ++ post) = (tokenize ds env post).map fun p => (gs.map dlv ++ p.1, p.2) := by
  induction h with
  | nil => simp
  | @option body rest g gs hne hb _ ih =>
    have ho := body_option hb hne
    have hr := fun n => body_read hb ('-' :: body) n (by intro v h; cases h)
    rw [List.cons_append, tokenize_option _ ho (by unfold usesNext; simp [hr])]
    rw [List.tail_cons, hr, ih]
    cases tokenize ds env post <;> simp
  | @optionValue body v rest g gs hb _ ih =>
    have hne : body ≠ [] := by intro e; subst e; cases hb
    have ho := body_option hb hne
    have hr := body_read hb ('-' :: body) (some v) (by intro w h; cases h; rfl)
    rw [List.cons_append, List.cons_append, tokenize_option_val _ ho hr, ih]
    cases tokenize ds env post <;> simp

/-! ### the effect on each entry -/

/-- The arguments given in turn to a scan function: the final state and the number of rejections. -/
def feedAll (f : σ → Option CStr → M (σ × Int)) : σ → List (Option CStr) → M (σ × Nat)
  | p, [] => .ok (p, 0)
  | p, a :: as => do
    let (p', e) ← f p a
    let (q, n) ← feedAll f p' as
    .ok (q, (if e ≠ 0 then 1 else 0) + n)

def feedHdr (h : Hdr σ) (as : List (Option CStr)) : M (Hdr σ × Nat) :=
  match h.scanfn with
  | none => .ok (h, 0)
  | some f => (feedAll f h.parent as).map fun p => ({ h with parent := p.1 }, p.2)

theorem feedHdr_nil (h : Hdr σ) : feedHdr h [] = .ok (h, 0) := by
  obtain ⟨_, _, _, _, _, _, _, _, _, _, sc, _, _⟩ := h
  cases sc <;> rfl

/-- One delivery. -/
theorem feedHdr_cons {h : Hdr σ} {a : Option CStr} {as : List (Option CStr)} :
    feedHdr h (a :: as) = (match h.scanfn with
      | none => .ok (h, 0)
      | some f => do
        let (p, e) ← f h.parent a
        let (k, n) ← feedHdr { h with parent := p } as
        .ok (k, (if e ≠ 0 then 1 else 0) + n)) := by
  obtain ⟨_, _, _, _, _, _, _, _, pa, _, sc, _, _⟩ := h
  cases sc with
  | none => rfl
  | some f =>
    simp only [feedHdr]
    rw [feedAll]
    cases f pa a with
    | error e => rfl
    | ok p =>
      dsimp only [bind, Except.bind]
      cases feedAll f p.1 as <;> rfl

/-- The number of rejections by each entry. -/
def rejSum (n : Nat) (R : Nat → Nat) : Nat := ((List.range n).map R).sum

theorem rejSum_update (n i : Nat) (R R' : Nat → Nat) (c : Nat) (hi : i < n) (h : R' i = R i + c) (ho : ∀ j, j ≠ i → R' j = R j) :
    rejSum n R' = rejSum n R + c := by
  unfold rejSum
  induction n with
  | zero => omega
  | succ n ih =>
    rw [List.range_succ, List.map_append, List.sum_append, List.map_append, List.sum_append]
    by_cases hn : i = n
    · subst hn
      have : (List.range i).map R' = (List.range i).map R := by
        apply List.map_congr_left
        intro j hj
        exact ho j (by have := List.mem_range.1 hj; omega)
      rw [this]
      simp [h]; omega
    · rw [ih (by omega)]
      simp [ho n (Ne.symm hn)]; omega

theorem rejSum_congr (n : Nat) (R R' : Nat → Nat) (h : ∀ j, j < n → R j = R' j) : rejSum n R = rejSum n R' := by
  unfold rejSum
  congr 1
  exact List.map_congr_left fun j hj => h j (List.mem_range.1 hj)

/-- `deliverAll` without syntax errors works entry by entry. -/
theorem deliverAll_feed : ∀ (gs : List (Nat × Option CStr)) (es es' : List (Hdr σ)) (errs errs' : List ErrRec),
    deliverAll (gs.map dlv) (es, errs) = .ok (es', errs') →
    es'.length = es.length ∧ (∀ g ∈ gs, g.1 < es.length) ∧
    ∃ R, (∀ (i : Nat) (h : Hdr σ), es[i]? = some h → ∃ k, feedHdr h (given gs i) = .ok (k, R i) ∧ es'[i]? = some k) ∧
      errs'.length = errs.length + rejSum es.length R := by
  intro gs
  induction gs with
  | nil =>
    intro es es' errs errs' h
    cases h
    refine ⟨rfl, by simp, fun _ => 0, fun i h hi => ⟨h, feedHdr_nil h, hi⟩, ?_⟩
    have : rejSum es.length (fun _ => 0) = 0 := by unfold rejSum; simp
    omega
  | cons g gs ih =>
    intro es es' errs errs' h
    obtain ⟨i, a⟩ := g
    rw [List.map_cons] at h
    unfold deliverAll at h
    cases hd : deliver (es, errs) (dlv (i, a)) with
    | error e => rw [hd] at h; cases h
    | ok s =>
      rw [hd] at h
      change deliverAll (gs.map dlv) s = _ at h
      obtain ⟨es1, errs1⟩ := s
      obtain ⟨l1, l2, R, h1, h2⟩ := ih es1 es' errs1 errs' h
      have hlen : es1.length = es.length := deliver_length hd
      have hg : ∀ j : Nat, given ((i, a) :: gs) j = if i = j then a :: given gs j else given gs j := by
        intro j
        unfold given
        rw [List.filter_cons]
        by_cases hj : i = j <;> simp [hj]
      unfold deliver dlv at hd
      dsimp only at hd
      cases hi : es[i]? with
      | none => rw [hi] at hd; cases hd
      | some k =>
        rw [hi] at hd
        dsimp only at hd
        have hil := (List.getElem?_eq_some_iff.1 hi).1
        refine ⟨by omega, ?_, ?_⟩
        · intro g hg
          rcases List.mem_cons.1 hg with rfl | hg
          · exact hil
          · rw [← hlen]; exact l2 g hg
        cases hf : k.scanfn with
        | none =>
          rw [hf] at hd
          cases hd
          refine ⟨R, fun j h hj => ?_, h2⟩
          rw [hg]
          by_cases hij : i = j
          · subst hij
            rw [hi] at hj; cases hj
            obtain ⟨k1, h3, h4⟩ := h1 i k hi
            rw [if_pos rfl]
            refine ⟨k1, ?_, h4⟩
            unfold feedHdr at h3 ⊢
            rw [hf] at h3 ⊢
            exact h3
          · rw [if_neg hij]; exact h1 j h hj
        | some f =>
          rw [hf] at hd
          dsimp only at hd
          cases hp : f k.parent a with
          | error e => rw [hp] at hd; cases hd
          | ok p =>
            obtain ⟨p, e⟩ := p
            rw [hp] at hd
            dsimp only [bind, Except.bind] at hd
            cases hd
            refine ⟨fun j => R j + if j = i then (if e ≠ 0 then 1 else 0) else 0, fun j h hj => ?_, ?_⟩
            · rw [hg]
              by_cases hij : i = j
              · subst hij
                rw [hi] at hj; cases hj
                obtain ⟨k1, h3, h4⟩ := h1 i _ (List.getElem?_set_self hil)
                rw [if_pos rfl, feedHdr_cons, hf]
                dsimp only
                rw [hp]
                dsimp only [bind, Except.bind]
                rw [h3]
                refine ⟨k1, ?_, h4⟩
                simp only [if_true, Nat.add_comm]
              · rw [if_neg hij]
                obtain ⟨k1, h3, h4⟩ := h1 j h (by rw [List.getElem?_set_ne hij]; exact hj)
                exact ⟨k1, by simpa [Ne.symm hij] using h3, h4⟩
            · rw [h2, List.length_set]
              rw [rejSum_update es.length i R (fun j => R j + if j = i then (if e ≠ 0 then 1 else 0) else 0)
                (if e ≠ 0 then 1 else 0) hil (by simp only [if_true]) (fun j hj => by simp [hj])]
              by_cases he : e ≠ 0
              · simp [he]; omega
              · simp [he]

/-- The converse. -/
theorem feed_deliverAll : ∀ (gs : List (Nat × Option CStr)) (es : List (Hdr σ)) (errs : List ErrRec),
    (∀ g ∈ gs, g.1 < es.length) →
    (∀ (i : Nat) (h : Hdr σ), es[i]? = some h → ∃ k, feedHdr h (given gs i) = .ok k) →
    ∃ s, deliverAll (gs.map dlv) (es, errs) = .ok s := by
  intro gs
  induction gs with
  | nil => intro es errs _ _; exact ⟨_, rfl⟩
  | cons g gs ih =>
    intro es errs hlt hfd
    obtain ⟨i, a⟩ := g
    have hg : ∀ j : Nat, given ((i, a) :: gs) j = if i = j then a :: given gs j else given gs j := by
      intro j
      unfold given
      rw [List.filter_cons]
      by_cases hj : i = j <;> simp [hj]
    have hil : i < es.length := hlt (i, a) (by simp)
    rw [List.map_cons]
    unfold deliverAll
    unfold deliver dlv
    dsimp only
    rw [List.getElem?_eq_getElem hil]
    dsimp only
    obtain ⟨k, hk⟩ := hfd i _ (List.getElem?_eq_getElem hil)
    rw [hg, if_pos rfl, feedHdr_cons] at hk
    cases hf : es[i].scanfn with
    | none =>
      refine ih es errs (fun g hg => hlt g (by simp [hg])) fun j h hj => ?_
      by_cases hij : i = j
      · subst hij
        rw [List.getElem?_eq_getElem hil] at hj
        cases hj
        unfold feedHdr
        rw [hf]
        exact ⟨_, rfl⟩
      · obtain ⟨k', hk'⟩ := hfd j h hj
        rw [hg, if_neg hij] at hk'
        exact ⟨k', hk'⟩
    | some f =>
      rw [hf] at hk
      dsimp only at hk ⊢
      cases hp : f es[i].parent a with
      | error e => rw [hp] at hk; cases hk
      | ok p =>
        obtain ⟨p, e⟩ := p
        rw [hp] at hk
        dsimp only [bind, Except.bind] at hk ⊢
        refine ih _ _ (fun g hg => by rw [List.length_set]; exact hlt g (by simp [hg])) fun j h hj => ?_
        by_cases hij : i = j
        · subst hij
          rw [List.getElem?_set_self hil] at hj
          cases hj
          revert hk
          generalize feedHdr _ (given gs i) = x
          intro hk
          cases x with
          | error e => cases hk
          | ok q => exact ⟨q, rfl⟩
        · rw [List.getElem?_set_ne hij] at hj
          obtain ⟨k', hk'⟩ := hfd j h hj
          rw [hg, if_neg hij] at hk'
          exact ⟨k', hk'⟩

/-- The errors before are kept. -/
theorem deliverAll_before (evs : List Ev) : ∀ (es : List (Hdr σ)) (errs : List ErrRec),
    deliverAll evs (es, errs) = (deliverAll evs (es, [])).map fun s => (s.1, errs ++ s.2) := by
  induction evs with
  | nil => intro es errs; simp [deliverAll, Except.map]
  | cons ev evs ih =>
    intro es errs
    unfold deliverAll
    have h1 : deliver (es, errs) ev = (deliver (es, []) ev).map fun s => (s.1, errs ++ s.2) := by
      unfold deliver
      cases ev with
      | fail c a => rfl
      | deliver i a =>
        dsimp only
        cases es[i]? with
        | none => rfl
        | some h =>
          obtain ⟨_, _, _, _, _, _, _, _, pa, _, sc, _, _⟩ := h
          cases sc with
          | none => simp [Except.map]
          | some f =>
            dsimp only
            cases f pa a with
            | error e => rfl
            | ok p =>
              dsimp only [bind, Except.bind, Except.map]
              by_cases he : p.2 ≠ 0 <;> simp [he]
    rw [h1]
    cases deliver (es, []) ev with
    | error e => rfl
    | ok s =>
      dsimp only [Except.map, bind, Except.bind]
      rw [ih s.1 (errs ++ s.2), ih s.1 s.2]
      cases deliverAll evs (s.1, []) with
      | error e => rfl
      | ok q => simp [Except.map]

/-- Deliveries rearranged, but in the same order for each entry. -/
theorem deliverAll_rearranged {gs gs' : List (Nat × Option CStr)} (hg : ∀ i, given gs i = given gs' i)
    {es es' : List (Hdr σ)} {errs errs' : List ErrRec} (h : deliverAll (gs.map dlv) (es, errs) = .ok (es', errs')) :
    ∃ errs'', deliverAll (gs'.map dlv) (es, errs) = .ok (es', errs'') ∧ errs''.length = errs'.length := by
  obtain ⟨l1, l2, R, h1, h2⟩ := deliverAll_feed gs es es' errs errs' h
  have hlt : ∀ g ∈ gs', g.1 < es.length := by
    intro g hg'
    have : given gs' g.1 ≠ [] := by
      unfold given
      simp only [ne_eq, List.map_eq_nil_iff, List.filter_eq_nil_iff, not_forall]
      exact ⟨g, hg', by simp⟩
    rw [← hg] at this
    unfold given at this
    simp only [ne_eq, List.map_eq_nil_iff, List.filter_eq_nil_iff, not_forall, decide_eq_true_eq] at this
    obtain ⟨k, hk, h3⟩ := this
    have := l2 k hk
    simp only [not_not] at h3
    omega
  obtain ⟨s, hs⟩ := feed_deliverAll gs' es errs hlt fun i h hi => by
    obtain ⟨k, h3, -⟩ := h1 i h hi
    exact ⟨_, by rw [← hg]; exact h3⟩
  obtain ⟨es2, errs2⟩ := s
  obtain ⟨k1, -, R', h3, h4⟩ := deliverAll_feed gs' es es2 errs errs2 hs
  have key : ∀ (i : Nat) (h : Hdr σ), es[i]? = some h → es2[i]? = es'[i]? ∧ R i = R' i := by
    intro i h hi
    obtain ⟨k, h5, h6⟩ := h1 i h hi
    obtain ⟨k', h7, h8⟩ := h3 i h hi
    rw [← hg, h5] at h7
    have e := Prod.mk.inj (Except.ok.inj h7)
    exact ⟨by rw [h6, h8, e.1], e.2⟩
  have he : es2 = es' := by
    refine List.ext_getElem? fun i => ?_
    by_cases hi : i < es.length
    · exact (key i _ (List.getElem?_eq_getElem hi)).1
    · rw [List.getElem?_eq_none (by omega), List.getElem?_eq_none (by omega)]
  subst he
  refine ⟨errs2, hs, ?_⟩
  rw [h2, h4, rejSum_congr es.length R R' fun j hj => (key j _ (List.getElem?_eq_getElem hj)).2]

/-- The meaning of the command line, too. -/
theorem meaning_rearranged {gs gs' : List (Nat × Option CStr)} (hg : ∀ i, given gs i = given gs' i) {es : List (Hdr σ)}
    {e0 e1 : List Ev} {ops : List CStr} {w : List (Hdr σ) × List ErrRec}
    (h : meaning es (e0 ++ (gs.map dlv ++ e1)) ops = .ok w) :
    ∃ errs, meaning es (e0 ++ (gs'.map dlv ++ e1)) ops = .ok (w.1, errs) ∧ errs.length = w.2.length := by
  unfold meaning at h ⊢
  cases h0 : resetAll es with
  | error e => rw [h0] at h; cases h
  | ok es0 =>
    rw [h0] at h
    dsimp only [bind, Except.bind] at h ⊢
    rw [deliverAll_append] at h ⊢
    cases h1 : deliverAll e0 (es0, []) with
    | error e => rw [h1] at h; cases h
    | ok s1 =>
      obtain ⟨es1, er1⟩ := s1
      rw [h1] at h
      dsimp only [bind, Except.bind] at h ⊢
      rw [deliverAll_append] at h ⊢
      cases h2 : deliverAll (gs.map dlv) (es1, er1) with
      | error e => rw [h2] at h; cases h
      | ok s2 =>
        obtain ⟨es2, er2⟩ := s2
        rw [h2] at h
        obtain ⟨er2', h3, h4⟩ := deliverAll_rearranged hg h2
        rw [h3]
        dsimp only [bind, Except.bind] at h ⊢
        rw [deliverAll_before] at h ⊢
        cases h5 : deliverAll e1 (es2, []) with
        | error e => rw [h5] at h; cases h
        | ok s3 =>
          obtain ⟨es3, er3⟩ := s3
          rw [h5] at h
          dsimp only [Except.map] at h ⊢
          cases h6 : operands es3 0 none ops with
          | error e => rw [h6] at h; cases h
          | ok s4 =>
            obtain ⟨es4, er4⟩ := s4
            rw [h6] at h
            dsimp only at h ⊢
            cases h
            have hl : (er2' ++ er3 ++ er4).length = (er2 ++ er3 ++ er4).length := by simp [h4]
            by_cases hn : er2 ++ er3 ++ er4 = []
            · rw [if_pos hn]
              rw [if_pos (by rw [hn] at hl; exact List.length_eq_zero_iff.1 hl)]
              exact ⟨_, rfl, rfl⟩
            · rw [if_neg hn]
              rw [if_neg (by intro e; rw [e] at hl; exact hn (List.length_eq_zero_iff.1 hl.symm))]
              exact ⟨_, rfl, hl⟩

end Argtable
