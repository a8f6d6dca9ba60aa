import Verif.Spec.Extend
import Verif.Proofs.Reorder
import Verif.Proofs.Entered
/-!
# A table with one more entry (C61)
-/

namespace Argtable

open Spec

variable {σ : Type}

theorem shortLookup_extend (c : Char) (d : Decl) : ∀ (ds : List Decl) (i : Nat) (p : Nat × ValKind),
    shortLookup c ds i = some p → shortLookup c (ds ++ [d]) i = some p := by
  intro ds
  induction ds with
  | nil => intro i p h; cases h
  | cons e ds ih =>
    intro i p h
    rw [List.cons_append, shortLookup]
    rw [shortLookup] at h
    split
    · rename_i h1; rw [if_pos h1] at h; exact h
    · rename_i h1; rw [if_neg h1] at h; exact ih _ _ h

theorem longTable_extend (d : Decl) : ∀ (ds : List Decl) (i : Nat),
    ∃ new, longTable (ds ++ [d]) i = longTable ds i ++ new ∧ ∀ k ∈ new, k.name ∈ d.names := by
  intro ds
  induction ds with
  | nil =>
    intro i
    refine ⟨longTable [d] i, by simp [longTable], fun k hk => ?_⟩
    simp only [longTable, List.append_nil] at hk
    unfold Decl.names
    cases hl : d.long with
    | none => rw [hl] at hk; simp at hk
    | some s =>
      rw [hl] at hk
      simp at hk
      obtain ⟨a, h1, rfl⟩ := hk
      simpa using h1
  | cons e ds ih =>
    intro i
    obtain ⟨new, h1, h2⟩ := ih (i + 1)
    exact ⟨new, by simp [longTable, h1], h2⟩

theorem mem_longTable_names {p : CStr} : ∀ (ds : List Decl) (i : Nat), (∃ e ∈ ds, p ∈ e.names) → ∃ k ∈ longTable ds i, k.name = p := by
  intro ds
  induction ds with
  | nil => rintro i ⟨e, he, -⟩; cases he
  | cons d ds ih =>
    rintro i ⟨e, he, hp⟩
    rcases List.mem_cons.1 he with rfl | he
    · unfold Decl.names at hp
      cases hl : e.long with
      | none => rw [hl] at hp; simp at hp
      | some s =>
        rw [hl] at hp
        simp only [longTable, hl, List.mem_append]
        simp at hp
        exact ⟨_, Or.inl (List.mem_map.2 ⟨p, hp, rfl⟩), rfl⟩
    · obtain ⟨k, h1, h2⟩ := ih (i + 1) ⟨e, he, hp⟩
      exact ⟨k, by simp [longTable, h1], h2⟩

theorem denotes_extend {ds : List Decl} {d : Decl} {p : CStr} {l : Long} (h : Denotes (longTable ds 0) p l)
    (hn : (∃ e ∈ ds, p ∈ e.names) ∨ ∀ n ∈ d.names, ¬ p <+: n) : Denotes (longTable (ds ++ [d]) 0) p l := by
  obtain ⟨new, h1, h2⟩ := longTable_extend d ds 0
  rw [h1]
  rcases h with ⟨b, a, h3, h4, h5⟩ | ⟨h3, ⟨b, a, h4, h5, h6⟩, h7⟩
  · exact Or.inl ⟨b, a ++ new, by rw [h3]; simp, h4, h5⟩
  · have hn : ∀ n ∈ d.names, ¬ p <+: n := by
      rcases hn with hn | hn
      · obtain ⟨k, k1, k2⟩ := mem_longTable_names ds 0 hn
        exact absurd k2 (h3 k k1)
      · exact hn
    refine Or.inr ⟨fun k hk => ?_, ⟨b, a ++ new, by rw [h4]; simp, h5, h6⟩, fun k hk hp => ?_⟩
    · rcases List.mem_append.1 hk with hk | hk
      · exact h3 k hk
      · exact fun e => hn _ (h2 k hk) (by rw [e])
    · rcases List.mem_append.1 hk with hk | hk
      · exact h7 k hk hp
      · exact absurd hp (hn _ (h2 k hk))

theorem filled_extend {ds : List Decl} {d : Decl} {i : Nat} {v : CStr} (h : Filled ds i v) (hi : i < ds.length) :
    Filled (ds ++ [d]) i v := by
  unfold Filled at h ⊢
  rw [List.getElem?_append_left hi]
  exact h

theorem denotes_lt {ds : List Decl} {p : CStr} {l : Long} (h : Denotes (longTable ds 0) p l) : l.entry < ds.length := by
  obtain ⟨e, he, -⟩ := denotes_named h
  exact (List.getElem?_eq_some_iff.1 he).1

theorem body_extend {ds : List Decl} {d : Decl} {body : CStr} {gs : List (Nat × Option CStr)} {sep : Option CStr}
    (h : Body ds body gs sep)
    (hn : ∀ p, AsksFor ds ('-' :: body) p → (∃ e ∈ ds, p ∈ e.names) ∨ ∀ n ∈ d.names, ¬ p <+: n) :
    Body (ds ++ [d]) body gs sep := by
  induction h with
  | stop => exact .stop
  | @flag c i rest gs sep h1 h2 h3 ih =>
    refine .flag h1 (shortLookup_extend c d ds 0 _ h2) (ih fun p hp => hn p ?_)
    obtain ⟨u, r, e, h4, h5⟩ := hp
    refine ⟨c :: u, r, by rw [List.cons.injEq] at e; rw [e.2]; rfl, fun c' hc' => ?_, h5⟩
    rcases List.mem_cons.1 hc' with rfl | hc'
    · exact ⟨i, h2⟩
    · exact h4 c' hc'
  | attached h1 h2 h3 h4 => exact .attached h1 (shortLookup_extend _ d ds 0 _ h2) h3 h4
  | separate h1 h2 => exact .separate h1 (shortLookup_extend _ d ds 0 _ h2)
  | bare h1 h2 => exact .bare h1 (shortLookup_extend _ d ds 0 _ h2)
  | @long p l h1 h2 h3 h4 =>
    exact .long h1 h2 (denotes_extend h3 (hn p ⟨[], [], by simp, by simp, h2, Or.inl rfl⟩)) h4
  | @longValue p v l h1 h2 h3 h4 =>
    exact .longValue h1 (denotes_extend h2 (hn p ⟨[], '=' :: v, by simp, by simp, h1, Or.inr ⟨v, rfl⟩⟩)) h3
      (filled_extend h4 (denotes_lt h2))
  | @longSeparate p v l h1 h2 h3 h4 h5 =>
    exact .longSeparate h1 h2 (denotes_extend h3 (hn p ⟨[], [], by simp, by simp, h2, Or.inl rfl⟩)) h4
      (filled_extend h5 (denotes_lt h3))

theorem line_extend {ds : List Decl} {d : Decl} {posix : Bool} {args : List CStr} {gs : List (Nat × Option CStr)}
    {ops : List CStr} (h : Line ds posix args gs ops) (hn : Unconfused ds d args) : Line (ds ++ [d]) posix args gs ops := by
  induction h with
  | done => exact .done
  | dashes ops => exact .dashes ops
  | operand h1 h2 h3 ih => exact .operand h1 h2 (ih fun a ha => hn a (by simp [ha]))
  | posix rest h1 h2 => exact .posix rest h1 h2
  | option h1 h2 h3 ih => exact .option h1 (body_extend h2 (hn _ (by simp))) (ih fun a ha => hn a (by simp [ha]))
  | optionValue h2 h3 ih => exact .optionValue (body_extend h2 (hn _ (by simp))) (ih fun a ha => hn a (by simp [ha]))

theorem resetAll_extend {x x0 : Hdr σ} (hx : resetHdr x = .ok x0) : ∀ (es es0 : List (Hdr σ)), resetAll es = .ok es0 →
    resetAll (es ++ [x]) = .ok (es0 ++ [x0]) := by
  intro es
  induction es with
  | nil => intro es0 h; cases h; rw [List.nil_append, resetAll_cons_hdr, hx]; rfl
  | cons e es ih =>
    intro es0 h
    obtain ⟨e', t', h1, h2, rfl⟩ := resetAll_cons_split.1 h
    rw [List.cons_append, resetAll_cons_split]
    exact ⟨e', t' ++ [x0], h1, ih _ h2, rfl⟩

theorem deliverAll_extend (x : Hdr σ) : ∀ (gs : List (Nat × Option CStr)) (s w : List (Hdr σ) × List ErrRec),
    deliverAll (gs.map dlv) s = .ok w → deliverAll (gs.map dlv) (s.1 ++ [x], s.2) = .ok (w.1 ++ [x], w.2) := by
  intro gs
  induction gs with
  | nil => intro s w h; cases h; rfl
  | cons g gs ih =>
    intro s w h
    rw [List.map_cons, deliverAll] at h ⊢
    obtain ⟨s', h1, h2⟩ := bind_some_ok h
    have : deliver (s.1 ++ [x], s.2) (dlv g) = .ok (s'.1 ++ [x], s'.2) := by
      unfold deliver dlv at h1 ⊢
      dsimp only at h1 ⊢
      cases hi : s.1[g.1]? with
      | none => rw [hi] at h1; cases h1
      | some k =>
        have hlt := (List.getElem?_eq_some_iff.1 hi).1
        rw [List.getElem?_append_left hlt, hi]
        rw [hi] at h1
        dsimp only at h1 ⊢
        cases hf : k.scanfn with
        | none => rw [hf] at h1; cases h1; rfl
        | some f =>
          rw [hf] at h1
          dsimp only at h1 ⊢
          obtain ⟨⟨p, c⟩, h3, h4⟩ := bind_some_ok h1
          cases h4
          rw [h3, bind_ok, List.set_append_left _ _ hlt]
    rw [this, bind_ok]
    exact ih _ _ h2

theorem operands_extend (x : Hdr σ) : ∀ (es : List (Hdr σ)) (i : Nat) (last : Option (Int × Nat))
    (ops : List CStr) (es' : List (Hdr σ)), operands es i last ops = .ok (es', []) →
    operands (es ++ [x]) i last ops = .ok (es' ++ [x], []) := by
  intro es
  induction es with
  | nil =>
    intro i last ops w h
    rw [operands] at h
    obtain ⟨h1, h2⟩ := Prod.mk.inj (Except.ok.inj h)
    subst h1
    have h0 : ops = [] := by
      have := congrArg List.length h2
      rw [leftover_length] at this
      exact List.length_eq_zero_iff.1 this
    rw [List.nil_append, operands, if_pos h0]
  | cons e es ih =>
    intro i last ops w h
    by_cases h0 : ops = []
    · subst h0
      rw [operands, if_pos rfl] at h
      cases h
      rw [List.cons_append, operands, if_pos rfl]
    · obtain ⟨y, hy⟩ := operands_step e ops h0 i last
      rw [hy] at h
      rw [List.cons_append, hy]
      cases y with
      | error _ => cases h
      | ok p =>
        dsimp only [Except.bind] at h ⊢
        cases ho : operands es (i + 1) p.2.2 p.2.1 with
        | error _ => rw [ho] at h; cases h
        | ok q =>
          rw [ho] at h
          obtain ⟨q1, q2⟩ := q
          obtain ⟨h1, h2⟩ := Prod.mk.inj (Except.ok.inj h)
          dsimp only at h1 h2
          subst h1 h2
          rw [ih _ _ _ _ ho]
          rfl

theorem checks_extend {x : Hdr σ} (hx : ∀ i, checks [x] i = []) : ∀ (es : List (Hdr σ)) (i : Nat),
    checks (es ++ [x]) i = checks es i := by
  intro es
  induction es with
  | nil => intro i; exact hx i
  | cons e es ih =>
    intro i
    rw [List.cons_append, checks, checks, ih]

theorem meaning_extend {x x0 : Hdr σ} (hx : resetHdr x = .ok x0)
    (hc : ∀ i, checks [x0] i = []) {es es' : List (Hdr σ)} {gs : List (Nat × Option CStr)} {ops : List CStr}
    (h : meaning es (gs.map dlv) ops = .ok (es', [])) :
    meaning (es ++ [x]) (gs.map dlv) ops = .ok (es' ++ [x0], []) := by
  unfold meaning at h ⊢
  obtain ⟨es0, h1, h2⟩ := bind_some_ok h
  obtain ⟨⟨es1, e1⟩, h3, h4⟩ := bind_some_ok h2
  obtain ⟨⟨es2, e2⟩, h5, h6⟩ := bind_some_ok h4
  dsimp only at h4 h5 h6
  rw [resetAll_extend hx _ _ h1, bind_ok, deliverAll_extend x0 gs _ _ h3, bind_ok]
  dsimp only
  obtain ⟨h7, h8⟩ := Prod.mk.inj (Except.ok.inj h6)
  have hc0 : e1 ++ e2 = [] := by
    by_contra hne
    rw [if_neg hne] at h8
    exact hne h8
  rw [if_pos hc0] at h8
  obtain ⟨r1, r2⟩ := List.append_eq_nil_iff.1 hc0
  subst r1 r2 h7
  rw [operands_extend x0 _ _ _ _ _ h5, bind_ok]
  dsimp only
  rw [checks_extend hc, h8]
  rfl

/-- Errors once raised stay. -/
theorem deliverAll_grows : ∀ (evs : List Ev) (s w : List (Hdr σ) × List ErrRec), deliverAll evs s = .ok w →
    ∃ e, w.2 = s.2 ++ e ∧ (e = [] → NoFail evs) := by
  intro evs
  induction evs with
  | nil => intro s w h; cases h; exact ⟨[], by simp, fun _ c v h => by cases h⟩
  | cons ev evs ih =>
    intro s w h
    rw [deliverAll] at h
    obtain ⟨s', h1, h2⟩ := bind_some_ok h
    obtain ⟨e, h3, h4⟩ := ih _ _ h2
    cases ev with
    | fail c v =>
      cases h1
      exact ⟨[⟨c, .endt, v⟩] ++ e, by rw [h3]; simp, fun h => by simp at h⟩
    | deliver i a =>
      have : ∃ e', s'.2 = s.2 ++ e' := by
        unfold deliver at h1
        dsimp only at h1
        split at h1
        · cases h1
        · split at h1
          · cases h1; exact ⟨[], by simp⟩
          · obtain ⟨⟨p, c⟩, -, h6⟩ := bind_some_ok h1
            cases h6
            dsimp only
            split
            · exact ⟨_, rfl⟩
            · exact ⟨[], by simp⟩
      obtain ⟨e', h5⟩ := this
      refine ⟨e' ++ e, by rw [h3, h5]; simp, fun h => ?_⟩
      have := h4 (List.append_eq_nil_iff.1 h).2
      intro c v hm
      rcases List.mem_cons.1 hm with hm | hm
      · cases hm
      · exact this c v hm

theorem meaning_noFail {es es' : List (Hdr σ)} {evs : List Ev} {ops : List CStr} (h : meaning es evs ops = .ok (es', [])) :
    NoFail evs := by
  unfold meaning at h
  obtain ⟨es0, h1, h2⟩ := bind_some_ok h
  obtain ⟨⟨es1, e1⟩, h3, h4⟩ := bind_some_ok h2
  obtain ⟨⟨es2, e2⟩, h5, h6⟩ := bind_some_ok h4
  obtain ⟨e, h7, h8⟩ := deliverAll_grows _ _ _ h3
  dsimp only at h7 h6
  have h6 := (Prod.mk.inj (Except.ok.inj h6)).2
  by_cases hc : e1 ++ e2 = []
  · exact h8 (by simpa [(List.append_eq_nil_iff.1 hc).1] using h7.symm)
  · rw [if_neg hc] at h6; exact absurd h6 hc

/-- An entry that takes no operands moved past the entries `B`. -/
theorem meaning_leftwards {x : Hdr σ} (hx : operandEntry x = false) (A : List (Hdr σ)) {posix : Bool} {args : List CStr} {ops : List CStr}
    {x' : Hdr σ} {A' : List (Hdr σ)} (hA : A'.length = A.length) : ∀ (B C : List (Hdr σ)) (B' C' : List (Hdr σ)) (evs : List Ev) (errs : List ErrRec),
    (∀ b ∈ B, Apart (declOf b) (declOf x)) → B'.length = B.length →
    tokenize ((A ++ B ++ x :: C).map declOf) posix args = some (evs, ops) →
    meaning (A ++ B ++ x :: C) evs ops = .ok (A' ++ B' ++ x' :: C', errs) →
    ∃ evs' errs', tokenize ((A ++ x :: B ++ C).map declOf) posix args = some (evs', ops) ∧
      meaning (A ++ x :: B ++ C) evs' ops = .ok (A' ++ x' :: B' ++ C', errs') ∧ errs'.length = errs.length := by
  intro B
  induction B using List.reverseRecOn with
  | nil =>
    intro C B' C' evs errs _ hB h1 h2
    have : B' = [] := List.length_eq_zero_iff.1 hB
    subst this
    simp only [List.append_nil] at h1 h2
    exact ⟨evs, errs, by simpa using h1, by simpa using h2, rfl⟩
  | append_singleton B b ih =>
    intro C B' C' evs errs hap hB h1 h2
    obtain ⟨B0, b', rfl⟩ : ∃ B0 b', B' = B0 ++ [b'] := by
      have : B' ≠ [] := by rintro rfl; simp at hB
      exact ⟨B'.dropLast, B'.getLast this, (List.dropLast_append_getLast this).symm⟩
    have hB0 : B0.length = B.length := by simpa using hB
    have e1 : A ++ (B ++ [b]) ++ x :: C = (A ++ B) ++ b :: x :: C := by simp
    have e2 : A' ++ (B0 ++ [b']) ++ x' :: C' = (A' ++ B0) ++ b' :: x' :: C' := by simp
    rw [e1] at h1 h2
    rw [e2] at h2
    obtain ⟨ga, gb⟩ := getElem?_mid (A ++ B) C b x
    have hsw : swp (A ++ B).length ((A ++ B) ++ b :: x :: C) = (A ++ B) ++ x :: b :: C := swp_append _ _ _ _
    have hsw' : swp (A ++ B).length ((A' ++ B0) ++ b' :: x' :: C') = (A' ++ B0) ++ x' :: b' :: C' := by
      have : (A ++ B).length = (A' ++ B0).length := by simp [hA, hB0]
      rw [this]; exact swp_append _ _ _ _
    have hr : Renumbered (swapIx (A ++ B).length) (((A ++ B) ++ b :: x :: C).map declOf) (((A ++ B) ++ x :: b :: C).map declOf) := by
      rw [← hsw, swp_map]
      exact renumbered_swp (by rw [List.getElem?_map, ga]; rfl) (by rw [List.getElem?_map, gb]; rfl) (hap b (by simp))
    have ht := tokenize_ren hr posix _ args (Nat.le_refl _)
    rw [h1] at ht
    obtain ⟨errs1, h3, h4⟩ := meaning_swp ga gb (Or.inr hx) h2
    rw [hsw, hsw'] at h3
    obtain ⟨evs', errs', h5, h6, h7⟩ := ih (b :: C) B0 (b' :: C') _ errs1 (fun c hc => hap c (by simp [hc])) hB0 ht h3
    exact ⟨evs', errs', by simpa using h5, by simpa using h6, by rw [h7, h4]⟩

end Argtable
