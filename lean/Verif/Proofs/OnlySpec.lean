import Verif.Proofs.Only
import Verif.Proofs.ParseSpec
import Verif.Proofs.Outcome
/-!
# `arg_parse` in a build with `ARG_LONG_ONLY` follows the specification
-/

namespace Argtable
open Spec

variable {σ : Type}

theorem getoptLongOnly_init (env : Bool) (nargc : Nat) (so : CStr) (ls : List LongOpt) (g : GState) :
    getoptLongOnly env nargc (':' :: so) ls { g with optind := 0 } =
      getoptLongOnly env nargc (':' :: so) ls
        { g with optind := 1, optreset := false, place := [], nonoptStart := none,
                 nonoptEnd := none, posixly := some env } := by
  conv_rhs => rw [getoptLongOnly_eq env nargc so ls _ env (by simp) rfl rfl]
  unfold getoptLongOnly getoptInternal
  simp only [if_true, List.head?_cons, or_true]
  have e := scanStart_reset nargc (!env)
    { g with optind := 1, optarg := none, nonoptStart := none, nonoptEnd := none,
             posixly := some env } g.place
  simp only at e
  cases env <;>
  · simp at e ⊢
    rw [e]
    generalize scanStart _ _ _ _ = x
    cases x with
    | error e => rfl
    | ok st =>
      cases st with
      | ret c s => simp [afterStartOnly]
      | go s => simp [afterStartOnly]; rfl


theorem parseTagged_eqOnly (env : Bool) (fuel : Nat) (a0 : CStr) (args : List CStr) (g : GState)
    (t : Table σ) (hwf : WF (t.entries.map declOf)) :
    parseTaggedOnly env fuel (a0 :: args).length { g with nargv := a0 :: args } t =
      taggedLoopOnly env (a0 :: args).length (':' :: t.entries.flatMap shortChars)
        ((longTable (t.entries.map declOf) 0).map toLongOpt) fuel
        (initState env (a0 :: args) g) t := by
  unfold parseTaggedOnly
  rw [allocLongoptions_ok _ hwf, allocShortoptions_ok]
  simp only [bind_ok]
  exact taggedLoopOnly_congr (getoptLongOnly_init _ _ _ _ { g with nargv := a0 :: args, opterr := false }) _ _

theorem parseTagged_specOnly (env : Bool) (a0 : CStr) (args : List CStr) (hargs : CArgs args)
    (g : GState) (t : Table σ) (hwf : WF (t.entries.map declOf)) {evs : List Ev} {ops : List CStr}
    (htok : tokenizeOnly (t.entries.map declOf) env args = some (evs, ops)) :
    ∃ k gf, Final g.stderr (a0 :: args) gf ops ∧ ∀ n,
        parseTaggedOnly env (n + (k + 1)) (a0 :: args).length { g with nargv := a0 :: args } t =
          applyAll evs t >>= fun t' => .ok (gf, t') := by
  have := loop_specOnly (env := env) hwf (sopts_ok t.entries hwf) args.length args (Nat.le_refl _) hargs
    _ _ _ _ (initState_lay env a0 args g) rfl (Or.inl rfl)
  rw [htok] at this
  obtain ⟨k, gf, hf, hrun⟩ := this
  refine ⟨k, gf, by simpa using hf, fun n => ?_⟩
  rw [parseTagged_eqOnly env _ a0 args g t hwf]
  exact hrun t n rfl

theorem argParse_specOnly (env : Bool) (t : Table σ) (m : Nat) (hend : EndOK m t.fin)
    (hwf : WF (t.entries.map declOf)) (argv : List CStr) (hargs : CArgs argv.tail) (g : GState)
    {evs : List Ev} {ops : List CStr}
    (htok : tokenizeOnly (t.entries.map declOf) env argv.tail = some (evs, ops)) :
    ∃ N, ∀ fuel, N ≤ fuel →
      match meaning t.entries evs ops with
      | .error f => argParseOnly env fuel argv t g = .error f
      | .ok (es, errs) => ∃ r, argParseOnly env fuel argv t g = .ok r ∧ Shows m argv g es errs r := by
  unfold meaning
  cases hres : resetAll t.entries with
  | error f =>
    refine ⟨0, fun fuel _ => ?_⟩
    simp only [bind_err, argParseOnly, argReset, resetEntries_eq, hres]
  | ok es0 =>
    simp only [bind_ok]
    have hdecl := resetAll_decl hres
    set t0 : Table σ := ⟨es0, { t.fin with count := 0 }⟩ with ht0
    have h0 : EndRel m [] t0.fin := endRel_nil hend
    have hsim := applyAll_sim evs h0
    have hreset : argReset t = .ok t0 := by
      simp only [argReset, resetEntries_eq, hres, bind_ok, ht0]
    cases argv with
    | nil =>
      simp only [List.tail_nil, tokenizeOnly, Option.some.injEq, Prod.mk.injEq] at htok
      obtain ⟨rfl, rfl⟩ := htok
      obtain ⟨e, he, hr⟩ := finish_spec h0 g
      refine ⟨0, fun fuel _ => ?_⟩
      simp only [deliverAll, bind_ok, operands_nil, List.append_nil, if_true]
      refine ⟨(e.count, ⟨t0.entries, e⟩, g), ?_, ?_⟩
      · simp only [argParseOnly, hreset, bind_ok, List.length_nil, if_true]
        rw [if_pos (by rfl)] at he
        exact he
      · simp only [if_true] at hr
        exact ⟨hr.count, rfl, hr, rfl, fun h => absurd rfl h, fun h => absurd rfl h⟩
    | cons a0 args =>
      have hwf0 : WF (t0.entries.map declOf) := by rw [show t0.entries = es0 from rfl, hdecl]; exact hwf
      have htok0 : tokenizeOnly (t0.entries.map declOf) env args = some (evs, ops) := by
        rw [show t0.entries = es0 from rfl, hdecl]; exact htok
      obtain ⟨k, gf, hfin, hrun⟩ := parseTagged_specOnly env a0 args hargs g t0 hwf0 htok0
      refine ⟨k + 1, fun fuel hfuel => ?_⟩
      obtain ⟨n, rfl⟩ : ∃ n, fuel = n + (k + 1) := ⟨fuel - (k + 1), by omega⟩
      have hmain : argParseOnly env (n + (k + 1)) (a0 :: args) t g =
          applyAll evs t0 >>= fun t1 =>
            parseUntagged gf.nargv (a0 :: args).length 0 gf.optind none t1 >>= fun p =>
              (if p.2.fin.count = 0 then
                (parseCheck p.2.entries 0 p.2.fin >>= fun e =>
                  .ok (e.count, { p.2 with fin := e }, { gf with optind := p.1 }))
              else .ok (p.2.fin.count, p.2, { gf with optind := p.1 })) := by
        unfold argParseOnly
        rw [hreset]
        simp only [bind_ok]
        rw [if_neg (by simp), hrun n, M_bind_assoc]
        rfl
      rw [hmain]
      cases hd : deliverAll evs (es0, ([] : List ErrRec)) with
      | error f =>
        have : Sim m (applyAll evs t0) (.error f) := by rw [← hd]; exact hsim
        rw [show applyAll evs t0 = .error f from this]
        simp only [bind_err]
      | ok q =>
        obtain ⟨es1, errs1⟩ := q
        have : Sim m (applyAll evs t0) (.ok (es1, errs1)) := by rw [← hd]; exact hsim
        obtain ⟨t1, h1, rfl, hr1⟩ := this
        rw [h1]
        simp only [bind_ok]
        obtain ⟨X, hX1, hX2, hX3, hX4, hX5, hX6⟩ := hfin
        have hlen : (a0 :: args).length = (X ++ ops).length := by rw [← hX1]; exact hX5.length_eq.symm
        have hunt := untagged_sim (m := m) t1.entries [] ops X none none t1.fin errs1
          (Or.inl ⟨rfl, Or.inl rfl⟩) hr1
        simp only [List.nil_append, List.length_nil] at hunt
        have hpu : parseUntagged gf.nargv (a0 :: args).length 0 gf.optind none t1 =
            parseUntagged (X ++ ops) (X ++ ops).length 0 X.length none t1 := by
          rw [hX1, hX2, hlen]
        rw [hpu]
        cases hop : operands t1.entries 0 none ops with
        | error f =>
          rw [hop] at hunt
          have := dropIdx_err (show dropIdx _ = .error f from hunt)
          rw [this]
          simp only [bind_err]
        | ok q =>
          obtain ⟨es2, errs2⟩ := q
          rw [hop] at hunt
          obtain ⟨t2, h2, rfl, hr2⟩ := hunt
          obtain ⟨i, hi⟩ := dropIdx_ok h2
          rw [hi]
          simp only [bind_ok]
          obtain ⟨e, he, hr⟩ := finish_spec hr2 { gf with optind := i }
          refine ⟨_, he, hr.count, rfl, hr, hX4, fun _ => hX5, fun _ => ?_⟩
          simp only [hX1]
          rw [head_append hX3, hX6]

theorem taggedLoopOnly_mono (env : Bool) (nargc : Nat) (so : CStr) (lo : List LongOpt) :
    ∀ (f k : Nat) (g : GState) (t : Table σ) (x : M (GState × Table σ)),
      taggedLoopOnly env nargc so lo f g t = x → x ≠ .error .fuel →
      taggedLoopOnly env nargc so lo (f + k) g t = x := by
  intro f
  induction f with
  | zero => intro k g t x h hx; exact absurd h.symm hx
  | succ f ih =>
    intro k g t x h hx
    rw [show f + 1 + k = (f + k) + 1 by omega]
    simp only [taggedLoopOnly] at h ⊢
    cases hgo : getoptLongOnly env nargc so lo g with
    | error e => rw [hgo] at h; exact h
    | ok p =>
      rw [hgo] at h
      simp only [bind_ok] at h ⊢
      split at h
      · rename_i hc; rw [if_pos hc]; exact h
      · rename_i hc
        rw [if_neg hc]
        cases hb : taggedBody p.1 p.2 t with
        | error e => rw [hb] at h; exact h
        | ok t' =>
          rw [hb] at h
          simp only [bind_ok] at h ⊢
          exact ih k _ _ _ h hx

theorem argParse_monoOnly (env : Bool) (f k : Nat) (argv : List CStr) (t : Table σ) (g : GState)
    (x : M (Nat × Table σ × GState)) (h : argParseOnly env f argv t g = x) (hx : x ≠ .error .fuel) :
    argParseOnly env (f + k) argv t g = x := by
  unfold argParseOnly at h ⊢
  cases hr : argReset t with
  | error e => rw [hr] at h; exact h
  | ok t0 =>
    rw [hr] at h
    simp only [bind_ok] at h ⊢
    split at h
    · rename_i hc; rw [if_pos hc]; exact h
    · rename_i hc
      rw [if_neg hc]
      refine bind_mono h hx fun hne => ?_
      unfold parseTaggedOnly at hne ⊢
      cases h1 : allocLongoptions t0.entries with
      | error e => rfl
      | ok lo =>
        cases h2 : allocShortoptions t0.entries with
        | error e => rfl
        | ok so =>
          rw [h1, h2] at hne
          simp only [bind_ok] at hne ⊢
          exact taggedLoopOnly_mono env _ so lo f k _ _ _ rfl hne

/-- Two runs with different budgets agree unless one ran out of budget. -/
theorem argParse_agreeOnly (env : Bool) (f f' : Nat) (argv : List CStr) (t : Table σ) (g : GState)
    (h : argParseOnly env f argv t g ≠ .error .fuel) (h' : argParseOnly env f' argv t g ≠ .error .fuel) :
    argParseOnly env f argv t g = argParseOnly env f' argv t g := by
  rcases Nat.le_total f f' with hle | hle
  · obtain ⟨k, rfl⟩ := Nat.exists_eq_add_of_le hle
    exact (argParse_monoOnly env f k argv t g _ rfl h).symm
  · obtain ⟨k, rfl⟩ := Nat.exists_eq_add_of_le hle
    exact argParse_monoOnly env f' k argv t g _ rfl h'

theorem Spec.ReturnsOnly.unique {env : Bool} {argv : List CStr} {t : Table σ} {g : GState}
    {r r' : Nat × Table σ × GState} (h : ReturnsOnly env argv t g r) (h' : ReturnsOnly env argv t g r') :
    r = r' := by
  obtain ⟨f, h⟩ := h
  obtain ⟨f', h'⟩ := h'
  have := argParse_agreeOnly env f f' argv t g (by rw [h]; simp) (by rw [h']; simp)
  rw [h, h'] at this
  exact Except.ok.inj this

theorem Spec.ReturnsOnly.not_crashes {env : Bool} {argv : List CStr} {t : Table σ} {g : GState}
    {r : Nat × Table σ × GState} (h : ReturnsOnly env argv t g r) (w : String) :
    ¬ CrashesOnly env argv t g w := by
  rintro ⟨f', h'⟩
  obtain ⟨f, h⟩ := h
  have := argParse_agreeOnly env f f' argv t g (by rw [h]; simp) (by rw [h']; simp)
  rw [h, h'] at this
  cases this

theorem Spec.ReturnsOnly.not_hangs {env : Bool} {argv : List CStr} {t : Table σ} {g : GState}
    {r : Nat × Table σ × GState} (h : ReturnsOnly env argv t g r) : ¬ HangsOnly env argv t g := by
  intro hh
  obtain ⟨f, h⟩ := h
  rw [hh f] at h
  cases h

/-- The refinement theorem in terms of outcomes. -/
theorem argParse_returnsOnly (env : Bool) (t : Table σ) (m : Nat) (hend : EndOK m t.fin)
    (hwf : WF (t.entries.map declOf)) (argv : List CStr) (hargs : CArgs argv.tail) (g : GState)
    {evs : List Ev} {ops : List CStr}
    (htok : tokenizeOnly (t.entries.map declOf) env argv.tail = some (evs, ops))
    {es : List (Hdr σ)} {errs : List ErrRec} (hm : meaning t.entries evs ops = .ok (es, errs)) :
    ∃ r, ReturnsOnly env argv t g r ∧ Shows m argv g es errs r := by
  obtain ⟨N, h⟩ := argParse_specOnly env t m hend hwf argv hargs g htok
  have := h N (Nat.le_refl _)
  rw [hm] at this
  obtain ⟨r, h1, h2⟩ := this
  exact ⟨r, ⟨N, h1⟩, h2⟩

theorem returns_invOnly (env : Bool) (t : Table σ) (m : Nat) (hend : EndOK m t.fin)
    (hwf : WF (t.entries.map declOf)) (argv : List CStr) (hargs : CArgs argv.tail) (g : GState)
    {evs : List Ev} {ops : List CStr}
    (htok : tokenizeOnly (t.entries.map declOf) env argv.tail = some (evs, ops))
    {r : Nat × Table σ × GState} (h : ReturnsOnly env argv t g r) :
    ∃ es errs, meaning t.entries evs ops = .ok (es, errs) ∧ Shows m argv g es errs r := by
  obtain ⟨N, hs⟩ := argParse_specOnly env t m hend hwf argv hargs g htok
  have := hs N (Nat.le_refl _)
  cases hm : meaning t.entries evs ops with
  | error f =>
    rw [hm] at this
    obtain ⟨f', hf'⟩ := h
    have h1 : argParseOnly env (N + f') argv t g = .ok r := by
      rw [Nat.add_comm]; exact argParse_monoOnly env f' N argv t g _ hf' (by simp)
    have := hs (N + f') (by omega)
    rw [hm] at this
    rw [h1] at this
    cases this
  | ok p =>
    rw [hm] at this
    obtain ⟨r', h1, h2⟩ := this
    have : r = r' := h.unique ⟨N, h1⟩
    subst this
    exact ⟨p.1, p.2, rfl, h2⟩

/-- A state at an argument that is never finished: the loop does not return. -/
theorem hung_not_okOnly {env posix : Bool} {log : List CStr} {tot : List CStr} {ds : List Decl}
    (hwf : WF ds) {so : CStr} (hso : SoptsOK so ds) :
    ∀ (fuel : Nat) (g : GState) (P N O R : List CStr) (a : CStr),
      HungAtOnly ds posix log tot g P N O R a → ∀ (t : Table σ), t.entries.map declOf = ds →
      ∀ r, taggedLoopOnly env g.nargv.length (':' :: so) ((longTable ds 0).map toLongOpt) fuel g t
        ≠ .ok r := by
  intro fuel
  induction fuel using Nat.strongRecOn with
  | ind fuel ih =>
    intro g P N O R a h t ht r hr
    obtain ⟨k, evs, g', hst, hh, hlen⟩ := hung_cycleOnly (env := env) hwf hso h
    by_cases hle : k + 1 ≤ fuel
    · obtain ⟨n, rfl⟩ := Nat.exists_eq_add_of_le hle
      rw [show k + 1 + n = n + (k + 1) by omega, hst.run t n ht] at hr
      cases ha : applyAll evs t with
      | error e => rw [ha] at hr; cases hr
      | ok t' =>
        rw [ha, bind_ok, ← hlen] at hr
        exact ih n (by omega) g' P N O R a hh t' ((applyAll_decl ha).trans ht) r hr
    · have := taggedLoopOnly_mono env _ _ _ fuel (k + 1 - fuel) g t _ hr (by simp)
      rw [show fuel + (k + 1 - fuel) = 0 + (k + 1) by omega, hst.run t 0 ht] at this
      cases ha : applyAll evs t with
      | error e => rw [ha] at this; cases this
      | ok t' => rw [ha] at this; simp [taggedLoopOnly] at this

theorem parseTagged_hungOnly (env : Bool) (a0 : CStr) (args : List CStr) (hargs : CArgs args)
    (g : GState) (t : Table σ) (hwf : WF (t.entries.map declOf))
    (htok : tokenizeOnly (t.entries.map declOf) env args = none) (fuel : Nat)
    (r : GState × Table σ) :
    parseTaggedOnly env fuel (a0 :: args).length { g with nargv := a0 :: args } t ≠ .ok r := by
  have := loop_specOnly (env := env) hwf (sopts_ok t.entries hwf) args.length args (Nat.le_refl _) hargs
    _ _ _ _ (initState_lay env a0 args g) rfl (Or.inl rfl)
  rw [htok] at this
  obtain ⟨k, evs, g', P', N', O', R', a, hst, hh, hlen⟩ := this
  rw [parseTagged_eqOnly env _ a0 args g t hwf]
  intro hr
  have hr' := taggedLoopOnly_mono env _ _ _ fuel k _ t _ hr (by simp)
  have h2 := hst.run t fuel rfl
  have h3 : (a0 :: args).length = (initState env (a0 :: args) g).nargv.length := rfl
  rw [h3] at hr'
  rw [h2] at hr'
  cases ha : applyAll evs t with
  | error e => rw [ha] at hr'; cases hr'
  | ok t' =>
    rw [ha, bind_ok, ← hlen] at hr'
    exact hung_not_okOnly hwf (sopts_ok t.entries hwf) fuel g' P' N' O' R' a hh t' (applyAll_decl ha) r hr'

/-- If the command line has a cluster with a lone `-` at its end, `arg_parse` does not return. -/
theorem argParse_hungOnly (env : Bool) (t : Table σ) (hwf : WF (t.entries.map declOf))
    (argv : List CStr) (hargs : CArgs argv.tail) (g : GState)
    (htok : tokenizeOnly (t.entries.map declOf) env argv.tail = none) (r : Nat × Table σ × GState) :
    ¬ ReturnsOnly env argv t g r := by
  rintro ⟨fuel, h⟩
  unfold argParseOnly at h
  cases hr : argReset t with
  | error e => rw [hr] at h; cases h
  | ok t0 =>
    have hd : t0.entries.map declOf = t.entries.map declOf := by
      unfold argReset at hr
      rw [resetEntries_eq] at hr
      cases he : resetAll t.entries with
      | error e => rw [he] at hr; cases hr
      | ok es => rw [he] at hr; cases hr; exact resetAll_decl he
    cases argv with
    | nil => simp [tokenizeOnly] at htok
    | cons a0 args =>
      rw [hr] at h
      simp only [bind_ok, List.length_cons, Nat.add_eq_zero_iff, Nat.one_ne_zero, and_false,
        if_false] at h
      cases hp : parseTaggedOnly env fuel (args.length + 1) { g with nargv := a0 :: args } t0 with
      | error e => rw [hp] at h; cases h
      | ok p =>
        exact parseTagged_hungOnly env a0 args hargs g t0 (by rw [hd]; exact hwf) (by rw [hd]; exact htok)
          fuel p hp

end Argtable
