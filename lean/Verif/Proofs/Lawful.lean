import Verif.Proofs.Outcome
import Verif.Spec.Lawful
/-!
# Invariants of entries under `arg_parse`
-/

namespace Argtable

open Spec

variable {σ : Type} {A : Option CStr → Prop} {J : Hdr σ → Prop} {E : Fault → Prop}

/-! ### events name existing entries -/

theorem readLong_evOK (ds : List Decl) (a : CStr) (n : Option CStr) (b : CStr) :
    EvOK ds (readLong ds a n b).1 := by
  unfold readLong
  simp only
  split
  · exact evOK_fail _ _
  · rename_i nm i kind hres
    obtain ⟨d, hd1, _⟩ := longTable_entry_lt ds 0 _ (resolve_mem hres)
    have hlt : i < ds.length := by
      by_contra hc
      simp only [Nat.sub_zero] at hd1
      rw [List.getElem?_eq_none (by omega)] at hd1; cases hd1
    split
    · exact evOK_fail _ _
    · exact (evOK_empty _ _ _).append (evOK_deliver hlt _)
    · split
      · exact evOK_fail _ _
      · exact (evOK_empty _ _ _).append (evOK_deliver hlt _)
    · exact evOK_deliver hlt _

theorem readCluster_evOK (ds : List Decl) (a : CStr) (n : Option CStr) :
    ∀ (cl : CStr) (evs : List Ev) (u : Bool), readCluster ds a n cl = some (evs, u) →
      EvOK ds evs := by
  intro cl
  induction cl with
  | nil => intro evs u h; cases h; exact evOK_nil
  | cons c tl ih =>
    intro evs u h
    simp only [readCluster] at h
    split at h
    · split at h
      · cases h
      · have := readLong_evOK ds a n tl
        rw [Option.some.inj h] at this; exact this
    · split at h
      · cases hr : readCluster ds a n tl with
        | none => rw [hr] at h; cases h
        | some p =>
          rw [hr] at h; cases h
          exact (evOK_fail _ _).append (ih _ _ hr)
      · rename_i i hl
        cases hr : readCluster ds a n tl with
        | none => rw [hr] at h; cases h
        | some p =>
          rw [hr] at h; cases h
          exact (evOK_deliver (by have := shortLookup_lt hl; omega) _).append (ih _ _ hr)
      · rename_i i hl
        have hlt : i < ds.length := by have := shortLookup_lt hl; omega
        split at h
        · cases h; exact evOK_deliver hlt _
        · split at h
          · cases h; exact evOK_fail _ _
          · cases h; exact evOK_deliver hlt _
      · rename_i i hl
        have hlt : i < ds.length := by have := shortLookup_lt hl; omega
        cases h; exact evOK_deliver hlt _

theorem tokenize_evOK (ds : List Decl) (posix : Bool) :
    ∀ (m : Nat) (args : List CStr), args.length ≤ m → ∀ (evs : List Ev) (ops : List CStr),
      tokenize ds posix args = some (evs, ops) → EvOK ds evs := by
  intro m
  induction m with
  | zero =>
    intro args hl evs ops h
    have : args = [] := List.length_eq_zero_iff.1 (by omega)
    subst this; cases h; exact evOK_nil
  | succ m ih =>
    intro args hl evs ops h
    cases args with
    | nil => cases h; exact evOK_nil
    | cons a rest =>
      have hl' : rest.length ≤ m := by simpa using hl
      rw [tokenize] at h
      split at h
      · cases h; exact evOK_nil
      · split at h
        · split at h
          · cases h; exact evOK_nil
          · cases hr : tokenize ds posix rest with
            | none => rw [hr] at h; cases h
            | some p => rw [hr] at h; cases h; exact ih rest hl' _ _ hr
        · split at h
          · cases h
          · rename_i evs1 hrc
            cases hr : tokenize ds posix rest with
            | none => rw [hr] at h; cases h
            | some p =>
              rw [hr] at h; cases h
              exact (readCluster_evOK _ _ _ _ _ _ hrc).append (ih rest hl' _ _ hr)
          · rename_i evs1 hrc
            cases rest with
            | nil => cases h; exact readCluster_evOK _ _ _ _ _ _ hrc
            | cons b rest =>
              simp only at h
              cases hr : tokenize ds posix rest with
              | none => rw [hr] at h; cases h
              | some p =>
                rw [hr] at h; cases h
                exact (readCluster_evOK _ _ _ _ _ _ hrc).append
                  (ih rest (by simp at hl'; omega) _ _ hr)

/-! ### the specification keeps invariants -/

/-- All entries satisfy `J`. -/
def All (J : Hdr σ → Prop) (es : List (Hdr σ)) : Prop := ∀ h ∈ es, J h

theorem All.set {es : List (Hdr σ)} (h : All J es) (i : Nat) {x : Hdr σ} (hx : J x) :
    All J (es.set i x) := by
  intro y hy
  rcases List.mem_or_eq_of_mem_set hy with hy | rfl
  · exact h y hy
  · exact hx

/-- Good outcome: an error in `E`, or a result satisfying `P`. -/
def Good {α : Type} (E : Fault → Prop) (P : α → Prop) : M α → Prop
  | .ok a => P a
  | .error e => E e

theorem Good.bind {α β : Type} {P : α → Prop} {Q : β → Prop} {x : M α} {f : α → M β}
    (h : Good E P x) (hf : ∀ a, P a → Good E Q (f a)) : Good E Q (x >>= f) := by
  cases x with
  | error e => exact h
  | ok a => exact hf a h

theorem Good.mono {α : Type} {P Q : α → Prop} {x : M α} (h : Good E P x) (hpq : ∀ a, P a → Q a) :
    Good E Q x := by
  cases x with
  | error e => exact h
  | ok a => exact hpq a h

theorem deliver_good (hL : Lawful A J E) {s : List (Hdr σ) × List ErrRec} (hs : All J s.1)
    {ds : List Decl} (hd : s.1.map declOf = ds) {ev : Ev} (hev : EvOK ds [ev])
    (hA : ∀ i a, Ev.deliver i a ∈ [ev] → A a) :
    Good E (fun s' => All J s'.1 ∧ s'.1.map declOf = ds) (deliver s ev) := by
  cases ev with
  | fail c a => exact ⟨hs, hd⟩
  | deliver i a =>
    have hi : i < s.1.length := by
      have := hev i a (by simp)
      rw [← hd, List.length_map] at this; exact this
    simp only [deliver, List.getElem?_eq_getElem hi]
    cases hf : s.1[i].scanfn with
    | none => exact ⟨hs, hd⟩
    | some f =>
      simp only
      have := hL.scan s.1[i] f a (hs _ (List.getElem_mem hi)) (hA i a (by simp)) hf
      cases hfr : f s.1[i].parent a with
      | error e => rw [hfr] at this; exact this
      | ok q =>
        rw [hfr] at this
        refine ⟨hs.set i ?_, ?_⟩
        · have := this
          simp only [hf] at this
          exact this
        · rw [← hd]
          exact map_set_same declOf s.1 i s.1[i] _ (List.getElem?_eq_getElem hi) rfl

theorem deliverAll_good (hL : Lawful A J E) {ds : List Decl} :
    ∀ (evs : List Ev) (s : List (Hdr σ) × List ErrRec), All J s.1 → s.1.map declOf = ds →
      EvOK ds evs → (∀ i a, Ev.deliver i a ∈ evs → A a) →
      Good E (fun s' => All J s'.1 ∧ s'.1.map declOf = ds) (deliverAll evs s) := by
  intro evs
  induction evs with
  | nil => intro s hs hd _ _; exact ⟨hs, hd⟩
  | cons ev evs ih =>
    intro s hs hd hev hA
    simp only [deliverAll]
    refine (deliver_good hL hs hd (ev := ev) ?_ ?_).bind fun s' h' => ih s' h'.1 h'.2 ?_ ?_
    · intro i a h
      exact hev i a (by simp at h; simp [h])
    · intro i a h
      exact hA i a (by simp at h; simp [h])
    · intro i a h
      exact hev i a (by simp [h])
    · intro i a h
      exact hA i a (by simp [h])

theorem feed_good (hL : Lawful A J E) (h : Hdr σ) {f : σ → Option CStr → M (σ × Int)}
    (hf : h.scanfn = some f) : ∀ (ops : List CStr) (p : σ), J { h with parent := p } →
    (∀ a ∈ ops, A (some a)) →
    Good E (fun q => J { h with parent := q.1 }) (feed f p ops) := by
  intro ops
  induction ops with
  | nil => intro p hp _; exact hp
  | cons a ops ih =>
    intro p hp hA
    simp only [feed]
    have := hL.scan { h with parent := p } f (some a) hp (hA a (by simp)) hf
    simp only at this
    cases hfr : f p (some a) with
    | error e => rw [hfr] at this; exact this
    | ok q =>
      rw [hfr] at this
      simp only [bind_ok]
      split
      · exact ih q.1 this fun b hb => hA b (by simp [hb])
      · exact this

theorem feed_suffix (f : σ → Option CStr → M (σ × Int)) : ∀ (ops : List CStr) (p : σ),
    match feed f p ops with
    | .ok q => q.2.1 <:+ ops
    | .error _ => True := by
  intro ops
  induction ops with
  | nil => intro p; exact List.suffix_refl _
  | cons a ops ih =>
    intro p
    simp only [feed]
    cases f p (some a) with
    | error e => trivial
    | ok q =>
      simp only [bind_ok]
      split
      · rename_i q' hq
        split at hq
        · have := ih q.1
          rw [hq] at this
          exact this.trans (List.suffix_cons _ _)
        · cases hq; exact List.suffix_refl _
      · trivial

theorem operands_good (hL : Lawful A J E) : ∀ (es : List (Hdr σ)) (i : Nat)
    (last : Option (Int × Nat)) (ops : List CStr), All J es → (∀ a ∈ ops, A (some a)) →
    Good E (fun q => All J q.1) (operands es i last ops) := by
  intro es
  induction es with
  | nil => intro i last ops h _; exact h
  | cons h t ih =>
    intro i last ops hJ hA
    have hJh : J h := hJ h (by simp)
    have hJt : All J t := fun x hx => hJ x (by simp [hx])
    have keep : ∀ last, Good E (fun q : List (Hdr σ) × List ErrRec => All J q.1)
        (operands t (i + 1) last ops >>= fun q => .ok (h :: q.1, q.2)) := fun last =>
      (ih (i + 1) last ops hJt hA).bind fun q hq => by
        intro x hx
        rcases List.mem_cons.1 hx with rfl | hx
        · exact hJh
        · exact hq x hx
    simp only [operands]
    split
    · exact hJ
    · split
      · exact keep last
      · split
        · exact keep last
        · rename_i f hf
          have hfs := feed_suffix f ops h.parent
          cases hfd : feed f h.parent ops with
          | error e =>
            have := feed_good hL h hf ops h.parent hJh hA
            rw [hfd] at this; exact this
          | ok q =>
          have hq := feed_good hL h hf ops h.parent hJh hA
          rw [hfd] at hq hfs
          show Good E _ (operands t (i + 1) _ q.2.1 >>= _)
          refine (ih (i + 1) _ q.2.1 hJt fun a ha => hA a (hfs.subset ha)).bind fun r hr => ?_
          intro x hx
          rcases List.mem_cons.1 hx with rfl | hx
          · exact hq
          · exact hr x hx

theorem resetAll_good (hL : Lawful A J E) : ∀ (es : List (Hdr σ)), All J es →
    Good E (fun q => All J q ∧ q.map declOf = es.map declOf) (resetAll es) := by
  intro es
  induction es with
  | nil => intro h; exact ⟨h, rfl⟩
  | cons h t ih =>
    intro hJ
    have hJh : J h := hJ h (by simp)
    have hJt : All J t := fun x hx => hJ x (by simp [hx])
    have hh : Good E (fun p => J { h with parent := p })
        (match h.resetfn with | none => .ok h.parent | some f => f h.parent) := by
      cases hf : h.resetfn with
      | none =>
        obtain ⟨a1, a2, a3, a4, a5, a6, a7, a8, a9, r, a11, a12, a13⟩ := h
        cases hf
        exact hJh
      | some f =>
        have := hL.reset h f hJh hf
        simp only [hf] at this
        simp only
        cases hfr : f h.parent with
        | error e => rw [hfr] at this; exact this
        | ok q => rw [hfr] at this; exact this
    have heq : resetAll (h :: t) =
        ((match h.resetfn with | none => .ok h.parent | some f => f h.parent) >>= fun p =>
          resetAll t >>= fun t' => .ok ({ h with parent := p } :: t')) := by
      simp only [resetAll]
      cases h.resetfn <;> rfl
    rw [heq]
    refine hh.bind fun p hp => (ih hJt).bind fun q hq => ?_
    show All J _ ∧ _
    refine ⟨?_, ?_⟩
    · intro x hx
      rcases List.mem_cons.1 hx with rfl | hx
      · exact hp
      · exact hq.1 x hx
    · simp [hq.2, declOf]

theorem meaning_good (hL : Lawful A J E) {es : List (Hdr σ)} (hJ : All J es) {evs : List Ev}
    {ops : List CStr} (hev : EvOK (es.map declOf) evs) (hA : ArgsIn A evs ops) :
    Good E (fun q => All J q.1) (meaning es evs ops) := by
  unfold meaning
  refine (resetAll_good hL es hJ).bind fun es0 h0 => ?_
  refine (deliverAll_good hL evs (es0, []) h0.1 h0.2 hev hA.1).bind fun s hs => ?_
  exact (operands_good hL s.1 0 none ops hs.1 hA.2).bind fun r hr => hr

theorem argsIn_any (evs : List Ev) (ops : List CStr) : ArgsIn AnyArg evs ops :=
  ⟨fun _ _ _ => trivial, fun _ _ => trivial⟩

/-! ### the model keeps invariants -/

theorem applyAll_good (hL : Lawful AnyArg J E) {m : Nat} {t : Table σ} {errs : List ErrRec}
    (hr : EndRel m errs t.fin) (hJ : All J t.entries) {evs : List Ev}
    (hev : EvOK (t.entries.map declOf) evs) :
    Good E (fun t' => All J t'.entries ∧ ∃ errs', EndRel m errs' t'.fin) (applyAll evs t) := by
  have hs := applyAll_sim evs hr
  have hg := deliverAll_good hL evs (t.entries, errs) hJ rfl hev (fun _ _ _ => trivial)
  cases hd : deliverAll evs (t.entries, errs) with
  | error e =>
    rw [hd] at hs hg
    rw [show applyAll evs t = .error e from hs]; exact hg
  | ok q =>
    rw [hd] at hs hg
    obtain ⟨t', h1, h2, h3⟩ := hs
    rw [h1]
    exact ⟨by rw [h2]; exact hg.1, _, h3⟩

theorem hung_good (hL : Lawful AnyArg J E) {env posix : Bool} {log : List CStr} {tot : List CStr}
    {ds : List Decl} (hwf : WF ds) {so : CStr} (hso : SoptsOK so ds) {m : Nat} :
    ∀ (fuel : Nat) (g : GState) (P N O R : List CStr) (a : CStr),
      HungAt ds posix log tot g P N O R a → ∀ (t : Table σ), t.entries.map declOf = ds →
      All J t.entries → (∃ errs, EndRel m errs t.fin) →
      ∀ e, taggedLoop env g.nargv.length (':' :: so) ((longTable ds 0).map toLongOpt) fuel g t
        = .error e → e = .fuel ∨ E e := by
  intro fuel
  induction fuel using Nat.strongRecOn with
  | ind fuel ih =>
    intro g P N O R a h t ht hJ hr e he
    obtain ⟨k, evs, g', hst, hh, hlen⟩ := hung_cycle (env := env) hwf hso h
    by_cases hfe : e = .fuel
    · exact Or.inl hfe
    right
    obtain ⟨errs, hr⟩ := hr
    have hgood := applyAll_good hL hr hJ (evs := evs) (by rw [ht]; exact hst.idx)
    by_cases hle : k + 1 ≤ fuel
    · obtain ⟨n, rfl⟩ := Nat.exists_eq_add_of_le hle
      rw [show k + 1 + n = n + (k + 1) by omega, hst.run t n ht] at he
      cases ha : applyAll evs t with
      | error e' => rw [ha] at he hgood; cases he; exact hgood
      | ok t' =>
        rw [ha] at hgood
        rw [ha, bind_ok, ← hlen] at he
        exact (ih n (by omega) g' P N O R a hh t' ((applyAll_decl ha).trans ht) hgood.1 hgood.2 e
          he).resolve_left hfe
    · have := taggedLoop_mono env _ _ _ fuel (k + 1 - fuel) g t _ he (by simpa using hfe)
      rw [show fuel + (k + 1 - fuel) = 0 + (k + 1) by omega, hst.run t 0 ht] at this
      cases ha : applyAll evs t with
      | error e' => rw [ha] at this hgood; cases this; exact hgood
      | ok t' =>
        rw [ha] at this
        simp only [bind_ok, taggedLoop, Except.error.injEq] at this
        exact absurd this.symm hfe

theorem parseTagged_hung_good (hL : Lawful AnyArg J E) (env : Bool) (a0 : CStr) (args : List CStr)
    (hargs : CArgs args) (g : GState) (t : Table σ) {m : Nat} {errs : List ErrRec}
    (hr : EndRel m errs t.fin) (hJ : All J t.entries) (hwf : WF (t.entries.map declOf))
    (htok : tokenize (t.entries.map declOf) env args = none) (fuel : Nat) (e : Fault)
    (he : parseTagged env fuel (a0 :: args).length { g with nargv := a0 :: args } t = .error e) :
    e = .fuel ∨ E e := by
  have := loop_spec (env := env) hwf (sopts_ok t.entries hwf) args.length args (Nat.le_refl _) hargs
    _ _ _ _ (initState_lay env a0 args g) rfl (Or.inl rfl)
  rw [htok] at this
  obtain ⟨k, evs, g', P', N', O', R', a, hst, hh, hlen⟩ := this
  by_cases hfe : e = .fuel
  · exact Or.inl hfe
  rw [parseTagged_eq env _ a0 args g t hwf] at he
  have hr' := taggedLoop_mono env _ _ _ fuel k _ t _ he (by simpa using hfe)
  have h2 := hst.run t fuel rfl
  have h3 : (a0 :: args).length = (initState env (a0 :: args) g).nargv.length := rfl
  rw [h3] at hr'
  rw [h2] at hr'
  have hgood := applyAll_good hL hr hJ hst.idx
  cases ha : applyAll evs t with
  | error e' => rw [ha] at hr' hgood; cases hr'; exact Or.inr hgood
  | ok t' =>
    rw [ha] at hgood
    rw [ha, bind_ok, ← hlen] at hr'
    exact hung_good hL hwf (sopts_ok t.entries hwf) fuel g' P' N' O' R' a hh t' (applyAll_decl ha)
      hgood.1 hgood.2 e hr'

/-- The only undefined operations `arg_parse` can perform are those of scan and reset functions. -/
theorem argParse_error (hL : Lawful AnyArg J E) (env : Bool) (t : Table σ) (m : Nat) (hend : EndOK m t.fin)
    (hwf : WF (t.entries.map declOf)) (hJ : All J t.entries) (argv : List CStr)
    (hargs : CArgs argv.tail) (g : GState) (fuel : Nat) (e : Fault)
    (he : argParse env fuel argv t g = .error e) : e = .fuel ∨ E e := by
  by_cases hfe : e = .fuel
  · exact Or.inl hfe
  right
  cases htok : tokenize (t.entries.map declOf) env argv.tail with
  | some p =>
    obtain ⟨evs, ops⟩ := p
    obtain ⟨N, hN⟩ := argParse_spec env t m hend hwf argv hargs g htok
    have h1 := hN (N + fuel) (by omega)
    have h2 := argParse_mono env fuel N argv t g _ he (by simpa using hfe)
    have hg := meaning_good hL hJ (ops := ops) (tokenize_evOK _ _ _ _ (Nat.le_refl _) _ _ htok)
      (argsIn_any evs ops)
    rw [Nat.add_comm] at h2
    cases hm : meaning t.entries evs ops with
    | error e' =>
      rw [hm] at h1 hg
      simp only at h1
      rw [h1] at h2; cases h2; exact hg
    | ok q =>
      rw [hm] at h1
      obtain ⟨r, h1, _⟩ := h1
      rw [h1] at h2; cases h2
  | none =>
    unfold argParse at he
    have hg := resetAll_good hL _ hJ
    unfold argReset at he
    rw [resetEntries_eq] at he
    cases hr : resetAll t.entries with
    | error e' => rw [hr] at he hg; cases he; exact hg
    | ok es =>
      rw [hr] at he hg
      cases argv with
      | nil => simp [tokenize] at htok
      | cons a0 args =>
        simp only [bind_ok, List.length_cons, Nat.add_eq_zero_iff, Nat.one_ne_zero, and_false,
          if_false] at he
        set t0 : Table σ := ⟨es, { t.fin with count := 0 }⟩ with ht0
        cases hp : parseTagged env fuel (args.length + 1) { g with nargv := a0 :: args } t0 with
        | error e' =>
          rw [hp] at he; cases he
          exact (parseTagged_hung_good hL env a0 args hargs g t0 (endRel_nil hend) hg.1
            (by rw [show t0.entries = es from rfl, hg.2]; exact hwf)
            (by rw [show t0.entries = es from rfl, hg.2]; exact htok) fuel _ hp).resolve_left hfe
        | ok p =>
          exact absurd hp (parseTagged_hung env a0 args hargs g t0
            (by rw [show t0.entries = es from rfl, hg.2]; exact hwf)
            (by rw [show t0.entries = es from rfl, hg.2]; exact htok) fuel p)

/-- With fault-free entries, `arg_parse` returns or runs forever, according to the tokenizer. -/
theorem argParse_hangs (hL : Lawful AnyArg J (fun _ => False)) (env : Bool) (t : Table σ) (m : Nat)
    (hend : EndOK m t.fin) (hwf : WF (t.entries.map declOf)) (hJ : All J t.entries)
    (argv : List CStr) (hargs : CArgs argv.tail) (g : GState)
    (htok : tokenize (t.entries.map declOf) env argv.tail = none) : Hangs env argv t g := by
  intro fuel
  cases h : argParse env fuel argv t g with
  | ok r => exact absurd ⟨fuel, h⟩ (argParse_hung env t hwf argv hargs g htok r)
  | error e =>
    rcases argParse_error hL env t m hend hwf hJ argv hargs g fuel e h with rfl | h
    · rfl
    · exact h.elim

theorem argParse_terminates (hL : Lawful A J (fun _ => False)) (env : Bool) (t : Table σ) (m : Nat)
    (hend : EndOK m t.fin) (hwf : WF (t.entries.map declOf)) (hJ : All J t.entries)
    (argv : List CStr) (hargs : CArgs argv.tail) (g : GState) {evs : List Ev} {ops : List CStr}
    (htok : tokenize (t.entries.map declOf) env argv.tail = some (evs, ops))
    (hA : ArgsIn A evs ops) :
    ∃ es errs r, meaning t.entries evs ops = .ok (es, errs) ∧ All J es ∧
      Returns env argv t g r ∧ Shows m argv g es errs r := by
  have hg := meaning_good hL hJ (ops := ops) (tokenize_evOK _ _ _ _ (Nat.le_refl _) _ _ htok)
      hA
  cases hm : meaning t.entries evs ops with
  | error e => rw [hm] at hg; exact hg.elim
  | ok q =>
    rw [hm] at hg
    obtain ⟨r, h1, h2⟩ := argParse_returns env t m hend hwf argv hargs g htok (es := q.1)
      (errs := q.2) hm
    exact ⟨q.1, q.2, r, rfl, hg, h1, h2⟩

/-- When `arg_parse` returns, the entries still satisfy the invariant. -/
theorem returns_good (hL : Lawful AnyArg J E) (env : Bool) (t : Table σ) (m : Nat) (hend : EndOK m t.fin)
    (hwf : WF (t.entries.map declOf)) (hJ : All J t.entries) (argv : List CStr)
    (hargs : CArgs argv.tail) (g : GState) {r : Nat × Table σ × GState}
    (h : Returns env argv t g r) : All J r.2.1.entries ∧ EndOK m r.2.1.fin ∧
      ∃ evs ops es errs, tokenize (t.entries.map declOf) env argv.tail = some (evs, ops) ∧
        meaning t.entries evs ops = .ok (es, errs) ∧ Shows m argv g es errs r := by
  cases htok : tokenize (t.entries.map declOf) env argv.tail with
  | none => exact absurd h (argParse_hung env t hwf argv hargs g htok r)
  | some p =>
    obtain ⟨evs, ops⟩ := p
    obtain ⟨es, errs, hm, hs⟩ := returns_inv env t m hend hwf argv hargs g htok h
    have hg := meaning_good hL hJ (ops := ops) (tokenize_evOK _ _ _ _ (Nat.le_refl _) _ _ htok)
      (argsIn_any evs ops)
    rw [hm] at hg
    refine ⟨by rw [hs.entries]; exact hg, hs.rel.ok, evs, ops, es, errs, rfl, hm, hs⟩

end Argtable
