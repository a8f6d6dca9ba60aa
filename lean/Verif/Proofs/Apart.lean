import Verif.Spec.Apart
import Verif.Proofs.Persist
import Verif.Proofs.Entered
import Verif.Props.Stored
/-!
# An entry with option names depends on nothing but what is given to it
-/

namespace Argtable

open Spec

variable {δ σ : Type} {lc : Libc δ}

/-- One argument after the other, whatever the answers are. -/
def scanEach (f : Option (σ → Option CStr → M (σ × Int))) : σ → List (Option CStr) → M σ
  | p, [] => .ok p
  | p, a :: l =>
    match f with
    | none => scanEach f p l
    | some g => do
      let (q, _) ← g p a
      scanEach f q l

theorem deliverAll_each : ∀ (evs : List Ev) {s w : List (Hdr σ)} {e e' : List ErrRec}, deliverAll evs (s, e) = .ok (w, e') →
    ∀ (i : Nat) (h : Hdr σ), s[i]? = some h →
      ∃ p, w[i]? = some { h with parent := p } ∧ scanEach h.scanfn h.parent (delivered evs i) = .ok p := by
  intro evs
  induction evs with
  | nil => intro s w e e' h i k hk; cases h; exact ⟨_, hk, rfl⟩
  | cons ev evs ih =>
    intro s w e e' h i k hk
    rw [deliverAll] at h
    obtain ⟨⟨s1, e1⟩, h1, h2⟩ := bind_some_ok h
    cases ev with
    | fail c v => cases h1; exact ih h2 i k hk
    | deliver j a =>
      unfold deliver at h1
      dsimp only at h1
      cases hj : s[j]? with
      | none => rw [hj] at h1; cases h1
      | some x =>
        rw [hj] at h1
        dsimp only at h1
        rw [delivered]
        cases hf : x.scanfn with
        | none =>
          rw [hf] at h1
          cases h1
          obtain ⟨p, g1, g2⟩ := ih h2 i k hk
          refine ⟨p, g1, ?_⟩
          by_cases hij : j = i
          · subst hij
            rw [hj] at hk
            cases hk
            rw [if_pos rfl, hf, scanEach]
            rw [hf] at g2
            exact g2
          · rw [if_neg hij]; exact g2
        | some f =>
          rw [hf] at h1
          dsimp only at h1
          obtain ⟨⟨q, c⟩, k1, k2⟩ := bind_some_ok h1
          dsimp only at k2
          obtain ⟨k3, -⟩ := Prod.mk.inj (Except.ok.inj k2)
          subst k3
          by_cases hij : j = i
          · subst hij
            rw [hj] at hk
            cases hk
            obtain ⟨p, g1, g2⟩ := ih h2 j _ (List.getElem?_set_self (List.getElem?_eq_some_iff.1 hj).1)
            refine ⟨p, ?_, ?_⟩
            · rw [g1]
              dsimp only
              rw [hf]
            · rw [if_pos rfl, hf, scanEach]
              dsimp only
              rw [k1]
              exact g2
          · rw [if_neg hij]
            exact ih h2 i k (by rw [List.getElem?_set_ne hij]; exact hk)

theorem operands_named : ∀ {es : List (Hdr σ)} (i : Nat) (last : Option (Int × Nat)) (ops : List CStr) {w : List (Hdr σ)}
    {e : List ErrRec}, operands es i last ops = .ok (w, e) → ∀ (j : Nat) (h : Hdr σ), es[j]? = some h → tagged h = true →
      w[j]? = some h := by
  intro es
  induction es with
  | nil => intro i last ops w e _ j h hj; simp at hj
  | cons k t ih =>
    intro i last ops w e h j x hj hx
    rw [operands] at h
    split at h
    · cases h; exact hj
    · split at h
      · obtain ⟨⟨w1, e1⟩, h1, h2⟩ := bind_some_ok h
        rw [← (Prod.mk.inj (Except.ok.inj h2)).1]
        cases j with
        | zero => exact hj
        | succ j => exact ih _ _ _ h1 j x hj hx
      · rename_i hn
        cases hf : k.scanfn with
        | none =>
          rw [hf] at h
          obtain ⟨⟨w1, e1⟩, h1, h2⟩ := bind_some_ok h
          rw [← (Prod.mk.inj (Except.ok.inj h2)).1]
          cases j with
          | zero => exact hj
          | succ j => exact ih _ _ _ h1 j x hj hx
        | some f =>
          rw [hf] at h
          dsimp only at h
          obtain ⟨⟨q, rest, c⟩, h1, h2⟩ := bind_some_ok h
          dsimp only at h2
          obtain ⟨⟨w1, e1⟩, h3, h4⟩ := bind_some_ok h2
          rw [← (Prod.mk.inj (Except.ok.inj h4)).1]
          cases j with
          | zero =>
            cases hj
            unfold tagged at hx
            simp at hx hn
            rcases hx with hx | hx
            · rw [hn.2] at hx; cases hx
            · rw [hn.1] at hx; cases hx
          | succ j => exact ih _ _ _ h3 j x hj hx

/-- After the command line, an entry with option names is what its reset function and its scan function have made of it. -/
theorem meaning_each {es w : List (Hdr σ)} {evs : List Ev} {ops : List CStr} {errs : List ErrRec}
    (h : meaning es evs ops = .ok (w, errs)) {i : Nat} {k : Hdr σ} (hi : es[i]? = some k) (ht : tagged k = true) :
    ∃ p0 p, (match k.resetfn with | none => .ok k.parent | some f => f k.parent) = (.ok p0 : M σ) ∧
      scanEach k.scanfn p0 (delivered evs i) = .ok p ∧ w[i]? = some { k with parent := p } := by
  unfold meaning at h
  obtain ⟨es0, h1, h2⟩ := bind_some_ok h
  obtain ⟨⟨es1, e1⟩, h3, h4⟩ := bind_some_ok h2
  obtain ⟨⟨es2, e2⟩, h5, h6⟩ := bind_some_ok h4
  dsimp only at h4 h5 h6
  obtain ⟨h7, -⟩ := Prod.mk.inj (Except.ok.inj h6)
  subst h7
  obtain ⟨-, g⟩ := resetAll_entry _ _ h1
  obtain ⟨p0, g1, g2⟩ := g i k hi
  obtain ⟨p, g3, g4⟩ := deliverAll_each evs h3 i _ g1
  exact ⟨p0, p, g2, g4, operands_named _ _ _ h5 i _ g3 ht⟩

/-! ### what is kept -/

theorem scanEach_snoc {f : σ → Option CStr → M (σ × Int)} : ∀ (l : List (Option CStr)) (p : σ) (a : Option CStr) {q : σ},
    scanEach (some f) p (l ++ [a]) = .ok q → ∃ p1 c, scanEach (some f) p l = .ok p1 ∧ f p1 a = .ok (q, c) := by
  intro l
  induction l with
  | nil =>
    intro p a q h
    rw [List.nil_append, scanEach] at h
    obtain ⟨⟨q1, c⟩, h1, h2⟩ := bind_some_ok h
    cases h2
    exact ⟨p, c, rfl, h1⟩
  | cons b l ih =>
    intro p a q h
    rw [List.cons_append, scanEach] at h
    obtain ⟨⟨q1, c⟩, h1, h2⟩ := bind_some_ok h
    obtain ⟨p1, c1, h3, h4⟩ := ih q1 a h2
    refine ⟨p1, c1, ?_, h4⟩
    rw [scanEach]
    dsimp only
    rw [h1]
    exact h3

theorem retains_takes {h : Hdr (Obj δ)} {args kept : List (Option CStr)} (hr : Retains lc h args kept) : Takes lc h kept := by
  induction hr with
  | nil => exact takes_nil h
  | keep _ h _ => exact h
  | drop _ _ ih => exact ih

theorem scanEach_retains {h : Hdr (Obj δ)} (hl : Live lc AnyPat h) (hrx : RexDecidable h)
    {f : Obj δ → Option CStr → M (Obj δ × Int)} (hf : h.scanfn = some f) {p0 : Obj δ} (hs : Stores lc h [] p0) :
    ∀ (args : List (Option CStr)) (p : Obj δ), (∀ s, some s ∈ args → s.length ≤ 65535) →
      scanEach (some f) p0 args = .ok p → ∃ kept, Retains lc h args kept ∧ Stores lc h kept p := by
  intro args
  induction args using List.reverseRecOn with
  | nil => intro p _ h; cases h; exact ⟨[], .nil, hs⟩
  | append_singleton args a ih =>
    intro p hlen h
    obtain ⟨p1, c, h1, h2⟩ := scanEach_snoc _ _ _ h
    obtain ⟨kept, g1, g2⟩ := ih p1 (fun s hs => hlen s (by simp [hs])) h1
    obtain ⟨q, c', k1, k2⟩ := live_answers hl hrx hf g2 (retains_takes g1) (a := a) fun s hs =>
      ⟨hlen s (by simp [hs]), Or.inr (Or.inr ⟨_, h2⟩)⟩
    rw [h2] at k1
    cases k1
    by_cases hc : c = 0
    · subst hc
      exact ⟨kept ++ [a], .keep g1 (k2.1 rfl), stores_step hl hf g2 h2⟩
    · have e := C24_rejected hl f hf p1 p a c h2 hc
      subst e
      exact ⟨kept, .drop g1 fun ht => hc (k2.2 ht), g2⟩

/-! ### operands -/

theorem unnamed_skip {k : Hdr σ} (hk : tagged k = true) (t : List (Hdr σ)) : unnamed (k :: t) = unnamed t := by
  simp [unnamed, hk]

theorem unnamed_take {k : Hdr σ} (hk : tagged k = false) (t : List (Hdr σ)) : unnamed (k :: t) = k :: unnamed t := by
  simp [unnamed, hk]

theorem resetAll_unnamed : ∀ {es s : List (Hdr σ)}, resetAll es = .ok s → resetAll (unnamed es) = .ok (unnamed s) := by
  intro es
  induction es with
  | nil => intro s h; cases h; rfl
  | cons k t ih =>
    intro s h
    have hs : ∃ q t', resetAll t = .ok t' ∧ s = { k with parent := q } :: t' ∧
        ∀ l l', resetAll l = .ok l' → resetAll (k :: l) = .ok ({ k with parent := q } :: l') := by
      rw [resetAll] at h
      split at h
      · rename_i hf
        obtain ⟨q, g0, g1⟩ := bind_some_ok h
        obtain ⟨t', g2, g3⟩ := bind_some_ok g1
        refine ⟨q, t', g2, (Except.ok.inj g3).symm, fun l l' hl => ?_⟩
        rw [resetAll, hf, hl]
        dsimp only
        rw [g0]
        rfl
      · rename_i f hf
        obtain ⟨q, g0, g1⟩ := bind_some_ok h
        obtain ⟨t', g2, g3⟩ := bind_some_ok g1
        refine ⟨q, t', g2, (Except.ok.inj g3).symm, fun l l' hl => ?_⟩
        rw [resetAll, hf, hl]
        dsimp only
        rw [g0]
        rfl
    obtain ⟨q, t', h1, rfl, h3⟩ := hs
    cases hk : tagged k with
    | true => rw [unnamed_skip hk, unnamed_skip (k := { k with parent := q }) hk]; exact ih h1
    | false =>
      rw [unnamed_take hk, unnamed_take (k := { k with parent := q }) hk]
      exact h3 _ _ (ih h1)

theorem apartNamed_unnamed {s w : List (Hdr σ)} (h : ApartNamed s w) : unnamed w = unnamed s := by
  induction h with
  | nil => rfl
  | @cons a b l l' hab _ ih =>
    have htag : tagged b = tagged a := by have h1 := hab.1; unfold SameHdr at h1; rw [h1]; rfl
    cases hk : tagged a with
    | true => rw [unnamed_skip hk, unnamed_skip (htag.trans hk), ih]
    | false =>
      rw [unnamed_take hk, unnamed_take (htag.trans hk), ih]
      rw [hab.2 (by
        intro hn
        unfold tagged at hk
        simp at hk hn
        rcases hn with hn | hn
        · rw [hk.2] at hn; cases hn
        · rw [hk.1] at hn; cases hn)]

theorem operands_unnamed : ∀ {es : List (Hdr σ)} (i : Nat) (last : Option (Int × Nat)) (ops : List CStr) {w : List (Hdr σ)}
    {e : List ErrRec}, operands es i last ops = .ok (w, e) → ∀ (i' : Nat) (last' : Option (Int × Nat)),
      ∃ e', operands (unnamed es) i' last' ops = .ok (unnamed w, e') := by
  intro es
  induction es with
  | nil => intro i last ops w e h i' last'; rw [← (Prod.mk.inj (Except.ok.inj h)).1]; exact ⟨_, rfl⟩
  | cons k t ih =>
    intro i last ops w e h i' last'
    rw [operands] at h
    by_cases h0 : ops = []
    · rw [if_pos h0] at h
      cases h
      refine ⟨[], ?_⟩
      cases unnamed (k :: t) with
      | nil => rw [operands, h0]; rfl
      | cons x l => rw [operands, if_pos h0]
    · rw [if_neg h0] at h
      split at h
      · rename_i hn
        obtain ⟨⟨w1, e1⟩, h1, h2⟩ := bind_some_ok h
        rw [← (Prod.mk.inj (Except.ok.inj h2)).1]
        obtain ⟨e', h3⟩ := ih _ _ _ h1 i' last'
        have hk : tagged k = true := by
          unfold tagged; simp; rcases hn with hn | hn
          · exact Or.inr hn
          · exact Or.inl hn
        exact ⟨e', by rw [unnamed_skip hk, unnamed_skip hk]; exact h3⟩
      · rename_i hn
        have hk : tagged k = false := by
          unfold tagged; simp at hn ⊢; exact ⟨hn.2, hn.1⟩
        rw [unnamed_take hk, operands, if_neg h0, if_neg hn]
        split at h
        · rename_i hf
          obtain ⟨⟨w1, e1⟩, h1, h2⟩ := bind_some_ok h
          rw [← (Prod.mk.inj (Except.ok.inj h2)).1, unnamed_take hk]
          obtain ⟨e', h3⟩ := ih _ _ _ h1 (i' + 1) last'
          exact ⟨e', by rw [h3]; rfl⟩
        · rename_i f hf
          obtain ⟨⟨q, rest, c⟩, h1, h2⟩ := bind_some_ok h
          dsimp only at h2
          obtain ⟨⟨w1, e1⟩, h3, h4⟩ := bind_some_ok h2
          rw [← (Prod.mk.inj (Except.ok.inj h4)).1, unnamed_take (k := { k with parent := q }) hk]
          obtain ⟨e', h5⟩ := ih _ _ _ h3 (i' + 1) (some (c, i'))
          refine ⟨e', ?_⟩
          rw [h1, bind_ok]
          dsimp only
          rw [h5]
          rfl

/-- After the command line, the entries without option names are what the operands have made of them. -/
theorem meaning_unnamed {es w : List (Hdr σ)} {posix : Bool} {args : List CStr} {evs : List Ev} {ops : List CStr}
    {errs : List ErrRec} (ht : tokenize (es.map declOf) posix args = some (evs, ops)) (h : meaning es evs ops = .ok (w, errs)) :
    ∃ s e, resetAll (unnamed es) = .ok s ∧ operands s 0 none ops = .ok (unnamed w, e) := by
  unfold meaning at h
  obtain ⟨es0, h1, h2⟩ := bind_some_ok h
  obtain ⟨⟨es1, e1⟩, h3, h4⟩ := bind_some_ok h2
  obtain ⟨⟨es2, e2⟩, h5, h6⟩ := bind_some_ok h4
  dsimp only at h4 h5 h6
  obtain ⟨h7, -⟩ := Prod.mk.inj (Except.ok.inj h6)
  subst h7
  have hev := tokenize_evNamed _ _ _ _ (Nat.le_refl _) _ _ ht
  have ha := deliverAll_apartNamed evs _ _ (by
    dsimp only
    rw [frame_declOf_eq (resetAll_frame _ _ h1)]
    exact hev) h3
  obtain ⟨e, h8⟩ := operands_unnamed _ _ _ h5 0 none
  rw [apartNamed_unnamed ha] at h8
  exact ⟨_, e, resetAll_unnamed h1, h8⟩

end Argtable
