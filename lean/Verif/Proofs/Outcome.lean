import Verif.Proofs.ParseSpec
import Verif.Spec.Outcome
/-!
# Outcomes: step budgets, determinism, divergence
-/

namespace Argtable

open Spec

variable {σ : Type}

theorem taggedLoop_mono (env : Bool) (nargc : Nat) (so : CStr) (lo : List LongOpt) :
    ∀ (f k : Nat) (g : GState) (t : Table σ) (x : M (GState × Table σ)),
      taggedLoop env nargc so lo f g t = x → x ≠ .error .fuel →
      taggedLoop env nargc so lo (f + k) g t = x := by
  intro f
  induction f with
  | zero => intro k g t x h hx; exact absurd h.symm hx
  | succ f ih =>
    intro k g t x h hx
    rw [show f + 1 + k = (f + k) + 1 by omega]
    simp only [taggedLoop] at h ⊢
    cases hgo : getoptLong env nargc so lo g with
    | error e => rw [hgo] at h; exact h
    | ok p =>
      rw [hgo] at h
      simp only [bind_ok] at h ⊢
      split at h
      · rename_i hc; rw [if_pos hc]; exact h
      · rename_i hc
        rw [if_neg hc]
        cases hb : taggedBody p.1 p.2 t with
        | error e => rw [hb] at h; exact h
        | ok t' =>
          rw [hb] at h
          simp only [bind_ok] at h ⊢
          exact ih k _ _ _ h hx

theorem bind_mono {α β : Type} {x y : M α} {f : α → M β} {z : M β} (h : (x >>= f) = z)
    (hz : z ≠ .error .fuel) (hxy : x ≠ .error .fuel → y = x) : (y >>= f) = z := by
  cases x with
  | error e =>
    have he : (Except.error e : M α) ≠ .error .fuel := by
      intro hc; cases hc; exact hz h.symm
    rw [hxy he]; exact h
  | ok a => rw [hxy (by simp)]; exact h

theorem argParse_mono (env : Bool) (f k : Nat) (argv : List CStr) (t : Table σ) (g : GState)
    (x : M (Nat × Table σ × GState)) (h : argParse env f argv t g = x) (hx : x ≠ .error .fuel) :
    argParse env (f + k) argv t g = x := by
  unfold argParse at h ⊢
  cases hr : argReset t with
  | error e => rw [hr] at h; exact h
  | ok t0 =>
    rw [hr] at h
    simp only [bind_ok] at h ⊢
    split at h
    · rename_i hc; rw [if_pos hc]; exact h
    · rename_i hc
      rw [if_neg hc]
      refine bind_mono h hx fun hne => ?_
      unfold parseTagged at hne ⊢
      cases h1 : allocLongoptions t0.entries with
      | error e => rfl
      | ok lo =>
        cases h2 : allocShortoptions t0.entries with
        | error e => rfl
        | ok so =>
          rw [h1, h2] at hne
          simp only [bind_ok] at hne ⊢
          exact taggedLoop_mono env _ so lo f k _ _ _ rfl hne

/-- Two runs with different budgets agree unless one ran out of budget. -/
theorem argParse_agree (env : Bool) (f f' : Nat) (argv : List CStr) (t : Table σ) (g : GState)
    (h : argParse env f argv t g ≠ .error .fuel) (h' : argParse env f' argv t g ≠ .error .fuel) :
    argParse env f argv t g = argParse env f' argv t g := by
  rcases Nat.le_total f f' with hle | hle
  · obtain ⟨k, rfl⟩ := Nat.exists_eq_add_of_le hle
    exact (argParse_mono env f k argv t g _ rfl h).symm
  · obtain ⟨k, rfl⟩ := Nat.exists_eq_add_of_le hle
    exact argParse_mono env f' k argv t g _ rfl h'

theorem Spec.Returns.unique {env : Bool} {argv : List CStr} {t : Table σ} {g : GState}
    {r r' : Nat × Table σ × GState} (h : Returns env argv t g r) (h' : Returns env argv t g r') :
    r = r' := by
  obtain ⟨f, h⟩ := h
  obtain ⟨f', h'⟩ := h'
  have := argParse_agree env f f' argv t g (by rw [h]; simp) (by rw [h']; simp)
  rw [h, h'] at this
  exact Except.ok.inj this

theorem Spec.Returns.not_crashes {env : Bool} {argv : List CStr} {t : Table σ} {g : GState}
    {r : Nat × Table σ × GState} (h : Returns env argv t g r) (w : String) :
    ¬ Crashes env argv t g w := by
  rintro ⟨f', h'⟩
  obtain ⟨f, h⟩ := h
  have := argParse_agree env f f' argv t g (by rw [h]; simp) (by rw [h']; simp)
  rw [h, h'] at this
  cases this

theorem Spec.Returns.not_hangs {env : Bool} {argv : List CStr} {t : Table σ} {g : GState}
    {r : Nat × Table σ × GState} (h : Returns env argv t g r) : ¬ Hangs env argv t g := by
  intro hh
  obtain ⟨f, h⟩ := h
  rw [hh f] at h
  cases h

/-- The refinement theorem in terms of outcomes. -/
theorem argParse_returns (env : Bool) (t : Table σ) (m : Nat) (hend : EndOK m t.fin)
    (hwf : WF (t.entries.map declOf)) (argv : List CStr) (hargs : CArgs argv.tail) (g : GState)
    {evs : List Ev} {ops : List CStr}
    (htok : tokenize (t.entries.map declOf) env argv.tail = some (evs, ops))
    {es : List (Hdr σ)} {errs : List ErrRec} (hm : meaning t.entries evs ops = .ok (es, errs)) :
    ∃ r, Returns env argv t g r ∧ Shows m argv g es errs r := by
  obtain ⟨N, h⟩ := argParse_spec env t m hend hwf argv hargs g htok
  have := h N (Nat.le_refl _)
  rw [hm] at this
  obtain ⟨r, h1, h2⟩ := this
  exact ⟨r, ⟨N, h1⟩, h2⟩

theorem returns_inv (env : Bool) (t : Table σ) (m : Nat) (hend : EndOK m t.fin)
    (hwf : WF (t.entries.map declOf)) (argv : List CStr) (hargs : CArgs argv.tail) (g : GState)
    {evs : List Ev} {ops : List CStr}
    (htok : tokenize (t.entries.map declOf) env argv.tail = some (evs, ops))
    {r : Nat × Table σ × GState} (h : Returns env argv t g r) :
    ∃ es errs, meaning t.entries evs ops = .ok (es, errs) ∧ Shows m argv g es errs r := by
  obtain ⟨N, hs⟩ := argParse_spec env t m hend hwf argv hargs g htok
  have := hs N (Nat.le_refl _)
  cases hm : meaning t.entries evs ops with
  | error f =>
    rw [hm] at this
    obtain ⟨f', hf'⟩ := h
    have h1 : argParse env (N + f') argv t g = .ok r := by
      rw [Nat.add_comm]; exact argParse_mono env f' N argv t g _ hf' (by simp)
    have := hs (N + f') (by omega)
    rw [hm] at this
    rw [h1] at this
    cases this
  | ok p =>
    rw [hm] at this
    obtain ⟨r', h1, h2⟩ := this
    have : r = r' := h.unique ⟨N, h1⟩
    subst this
    exact ⟨p.1, p.2, rfl, h2⟩

/-- A state at an argument that is never finished: the loop does not return. -/
theorem hung_not_ok {env posix : Bool} {log : List CStr} {tot : List CStr} {ds : List Decl}
    (hwf : WF ds) {so : CStr} (hso : SoptsOK so ds) :
    ∀ (fuel : Nat) (g : GState) (P N O R : List CStr) (a : CStr),
      HungAt ds posix log tot g P N O R a → ∀ (t : Table σ), t.entries.map declOf = ds →
      ∀ r, taggedLoop env g.nargv.length (':' :: so) ((longTable ds 0).map toLongOpt) fuel g t
        ≠ .ok r := by
  intro fuel
  induction fuel using Nat.strongRecOn with
  | ind fuel ih =>
    intro g P N O R a h t ht r hr
    obtain ⟨k, evs, g', hst, hh, hlen⟩ := hung_cycle (env := env) hwf hso h
    by_cases hle : k + 1 ≤ fuel
    · obtain ⟨n, rfl⟩ := Nat.exists_eq_add_of_le hle
      rw [show k + 1 + n = n + (k + 1) by omega, hst.run t n ht] at hr
      cases ha : applyAll evs t with
      | error e => rw [ha] at hr; cases hr
      | ok t' =>
        rw [ha, bind_ok, ← hlen] at hr
        exact ih n (by omega) g' P N O R a hh t' ((applyAll_decl ha).trans ht) r hr
    · have := taggedLoop_mono env _ _ _ fuel (k + 1 - fuel) g t _ hr (by simp)
      rw [show fuel + (k + 1 - fuel) = 0 + (k + 1) by omega, hst.run t 0 ht] at this
      cases ha : applyAll evs t with
      | error e => rw [ha] at this; cases this
      | ok t' => rw [ha] at this; simp [taggedLoop] at this

theorem parseTagged_hung (env : Bool) (a0 : CStr) (args : List CStr) (hargs : CArgs args)
    (g : GState) (t : Table σ) (hwf : WF (t.entries.map declOf))
    (htok : tokenize (t.entries.map declOf) env args = none) (fuel : Nat)
    (r : GState × Table σ) :
    parseTagged env fuel (a0 :: args).length { g with nargv := a0 :: args } t ≠ .ok r := by
  have := loop_spec (env := env) hwf (sopts_ok t.entries hwf) args.length args (Nat.le_refl _) hargs
    _ _ _ _ (initState_lay env a0 args g) rfl (Or.inl rfl)
  rw [htok] at this
  obtain ⟨k, evs, g', P', N', O', R', a, hst, hh, hlen⟩ := this
  rw [parseTagged_eq env _ a0 args g t hwf]
  intro hr
  have hr' := taggedLoop_mono env _ _ _ fuel k _ t _ hr (by simp)
  have h2 := hst.run t fuel rfl
  have h3 : (a0 :: args).length = (initState env (a0 :: args) g).nargv.length := rfl
  rw [h3] at hr'
  rw [h2] at hr'
  cases ha : applyAll evs t with
  | error e => rw [ha] at hr'; cases hr'
  | ok t' =>
    rw [ha, bind_ok, ← hlen] at hr'
    exact hung_not_ok hwf (sopts_ok t.entries hwf) fuel g' P' N' O' R' a hh t' (applyAll_decl ha) r hr'

/-- If the command line has a cluster with a lone `-` at its end, `arg_parse` does not return. -/
theorem argParse_hung (env : Bool) (t : Table σ) (hwf : WF (t.entries.map declOf))
    (argv : List CStr) (hargs : CArgs argv.tail) (g : GState)
    (htok : tokenize (t.entries.map declOf) env argv.tail = none) (r : Nat × Table σ × GState) :
    ¬ Returns env argv t g r := by
  rintro ⟨fuel, h⟩
  unfold argParse at h
  cases hr : argReset t with
  | error e => rw [hr] at h; cases h
  | ok t0 =>
    have hd : t0.entries.map declOf = t.entries.map declOf := by
      unfold argReset at hr
      rw [resetEntries_eq] at hr
      cases he : resetAll t.entries with
      | error e => rw [he] at hr; cases hr
      | ok es => rw [he] at hr; cases hr; exact resetAll_decl he
    cases argv with
    | nil => simp [tokenize] at htok
    | cons a0 args =>
      rw [hr] at h
      simp only [bind_ok, List.length_cons, Nat.add_eq_zero_iff, Nat.one_ne_zero, and_false,
        if_false] at h
      cases hp : parseTagged env fuel (args.length + 1) { g with nargv := a0 :: args } t0 with
      | error e => rw [hp] at h; cases h
      | ok p =>
        exact parseTagged_hung env a0 args hargs g t0 (by rw [hd]; exact hwf) (by rw [hd]; exact htok)
          fuel p hp

end Argtable
