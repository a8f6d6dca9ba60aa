import Verif.Proofs.ExchangesWorst
import Verif.Proofs.ExchangesNone
import Verif.Spec.Exchanges
import Verif.Proofs.ParseSpec

/-!
# The exact number of exchanges: proofs
-/

namespace Argtable

open Spec

variable {log : List CStr} {tot : List CStr} {nargc : Nat} {sopts : CStr} {lopts : List LongOpt} {ds : List Decl}

/-- Starting in `g`, `k` rounds of the loop have the effect of `evs`, lead to `g'`, and make no exchange. -/
structure StepsX (nargc : Nat) (sopts : CStr) (lopts : List LongOpt) (ds : List Decl)
    (g : GState) (k : Nat) (evs : List Ev) (g' : GState) : Prop where
  idx : EvOK ds evs
  run : ∀ {σ : Type} (t : Table σ) (n : Nat), t.entries.map declOf = ds →
    taggedLoopX false nargc sopts lopts (n + k) g t =
      applyAll evs t >>= fun t' => taggedLoopX false nargc sopts lopts n g' t'

theorem StepsX.refl (g : GState) : StepsX nargc sopts lopts ds g 0 [] g :=
  ⟨evOK_nil, by intro σ t n _; rfl⟩

theorem StepsX.trans {g g1 g2 : GState} {k1 k2 : Nat} {e1 e2 : List Ev}
    (h1 : StepsX nargc sopts lopts ds g k1 e1 g1)
    (h2 : StepsX nargc sopts lopts ds g1 k2 e2 g2) :
    StepsX nargc sopts lopts ds g (k1 + k2) (e1 ++ e2) g2 := by
  refine ⟨h1.idx.append h2.idx, ?_⟩
  intro σ t n ht
  rw [show n + (k1 + k2) = (n + k2) + k1 by omega, h1.run t _ ht, applyAll_append, M_bind_assoc]
  refine bind_congr_ok fun t' ht' => ?_
  exact h2.run t' n (by rw [applyAll_decl ht', ht])

theorem scanStartX_place {g : GState} (hr : g.optreset = false) (hp : g.place ≠ []) (n : Nat) (permute : Bool) :
    scanStartX n permute false g = .ok (.go g, 0) := by
  rw [scanStartX]
  have : (g.optreset || g.place.isEmpty) = false := by
    rw [hr]; cases hg : g.place with
    | nil => exact absurd hg hp
    | cons => rfl
  simp [this]

theorem StepsX.one {so : CStr} {g g' : GState} {P N O R : List CStr} (hl : Lay false log tot g P N O R) (hp : g.place ≠ [])
    {code : Int} {evs : List Ev} (hg : getoptLong false nargc (':' :: so) lopts g = .ok (code, g')) (hc : code ≠ -1)
    (hi : EvOK ds evs)
    (hb : ∀ {σ : Type} (t : Table σ), t.entries.map declOf = ds → taggedBody code g' t = applyAll evs t) :
    StepsX nargc (':' :: so) lopts ds g 1 evs g' := by
  refine ⟨hi, ?_⟩
  intro σ t n ht
  have h1 := getoptInternal_rest false nargc (':' :: so) (some lopts) true false g
  rw [show getoptInternal false nargc (':' :: so) (some lopts) true false g = _ from hg] at h1
  have h2 := getoptX_inner (n := nargc) (options := ':' :: so) (ls := lopts) rfl hl.optind_ne hl.reset hl.posixly
  rw [scanStartX_place (by exact hl.reset) (by exact hp), bind_ok] at h2
  have h3 : getoptInternalX false nargc (':' :: so) (some lopts) true false g = .ok ((code, g'), 0) := by
    dsimp only at h2
    rw [h2] at h1 ⊢
    generalize getoptRest nargc (':' :: so) (some lopts) false _ = y at h1 ⊢
    cases y with
    | error e => cases h1
    | ok q => cases h1; rfl
  rw [taggedLoopX, h3, bind_ok]
  dsimp only
  rw [if_neg hc, hb t ht]
  refine bind_congr_ok fun t' _ => ?_
  generalize taggedLoopX false nargc (':' :: so) lopts n g' t' = y
  cases y with
  | error e => rfl
  | ok q => simp [bind, Except.bind]

/-- Reading a cluster. -/
theorem cluster_stepsX {ds : List Decl} (hwf : WF ds) {so : CStr} (hso : SoptsOK so ds)
    {P N O R : List CStr} {a : CStr} :
    ∀ (cl : CStr), cl ≠ [] → '\x00' ∉ cl → ∀ (g : GState), g.place = cl →
      Lay false log tot g P N O (a :: R) → (N = [] ∨ g.nonoptEnd ≠ none) →
      match readCluster ds a R.head? cl with
      | some (evs, u) => ∃ k g' P' O',
          StepsX g.nargv.length (':' :: so) ((longTable ds 0).map toLongOpt) ds g (k + 1) evs g' ∧
          Done false log tot g.nargv.length g' N (if u then R.tail else R) P' O' ∧
          (u = true → R ≠ []) ∧ g'.nonoptStart = g.nonoptStart ∧ g'.optind = g.optind + usedN u
      | none => ∃ k evs g',
          StepsX g.nargv.length (':' :: so) ((longTable ds 0).map toLongOpt) ds g k evs g' ∧
          Lay false log tot g' P N O (a :: R) ∧ (N = [] ∨ g'.nonoptEnd ≠ none) ∧
          g'.place = ['-'] ∧ g'.nargv.length = g.nargv.length := by
  intro cl
  induction cl with
  | nil => intro h; exact absurd rfl h
  | cons c tl ih =>
    intro _ hnul g hp hlay hm
    have hgo := getoptLong_place (env := false) (nargc := g.nargv.length)
      (lopts := (longTable ds 0).map toLongOpt) (so := so) hlay (by rw [hp]; simp)
    by_cases hc : c = '-'
    · subst hc
      simp only [readCluster, if_true]
      by_cases htl : tl = []
      · subst htl
        simp only [if_true]
        exact ⟨0, [], g, StepsX.refl g, hlay, hm, hp, rfl⟩
      · simp only [htl, if_false]
        set s : GState := { g with optarg := none, place := tl } with hs
        have hlay' : Lay false log tot s P N O (a :: R) := hlay.congr rfl rfl rfl rfl rfl rfl rfl
        obtain ⟨code, s', e, hr, hu⟩ := parseLong_read ds so hlay' rfl
        set rl := readLong ds a R.head? tl with hrl
        obtain ⟨A, hA, hsplit, hlen⟩ := split_list (a := a) (u := rl.2) hu
        have hadv := Lay.advance (g := s) (g' := { s' with place := [] }) (A := A)
          (R := if rl.2 then R.tail else R) (by rw [← hsplit]; exact hlay') hA hm
          (by exact hr.nargv) (by rw [hlen]; exact hr.optind) (by exact hr.optreset)
          (by exact hr.posixly) (by exact hr.nonoptStart) (by exact hr.nonoptEnd)
          (by exact hr.stderr)
        obtain ⟨P', O', hl2, hset⟩ := hadv
        refine ⟨0, { s' with place := [] }, P', O', ?_, ⟨hl2, rfl, hset, ?_⟩, hu, hr.nonoptStart, hr.optind⟩
        · refine StepsX.one hlay (by rw [hp]; simp) (code := code) ?_ hr.code_ne hr.idx (fun t ht => hr.body t [] ht)
          rw [hgo]
          unfold afterStart
          simp only [hp, List.head?_cons, List.tail_cons, if_true, htl, if_false]
          rw [← hs, e]
          simp only [bind_ok, ne_eq, hr.code_ne, not_false_eq_true, if_true]
        · simp only [hr.nargv]; rfl
    · have hc0 : c ≠ '\x00' := fun h => hnul (by simp [h])
      obtain ⟨code, s', evs, n, e, hr, hcase⟩ := short_read (s := { g with optarg := none }) hwf hso
        ((longTable ds 0).map toLongOpt) (hlay.congr rfl rfl rfl rfl rfl rfl rfl) rfl (c := c)
        (tl := tl) hp hc hc0
      have hg : getoptLong false g.nargv.length (':' :: so) ((longTable ds 0).map toLongOpt) g
          = .ok (code, s') := by
        rw [hgo]
        unfold afterStart
        dsimp only
        rw [if_neg (by simp only [hp, List.head?_cons, Option.some.injEq]; exact hc)]
        exact e
      have hstep : StepsX g.nargv.length (':' :: so) ((longTable ds 0).map toLongOpt) ds g 1
          evs s' := StepsX.one hlay (by rw [hp]; simp) hg hr.code_ne hr.idx (fun t ht => by
            have := hr.body t s'.place ht
            exact this)
      rcases hcase with ⟨hpl, hn, hrc⟩ | ⟨hpl, u, hn, hu, hrc⟩
      · rw [hrc]
        by_cases htl : tl = []
        · subst htl
          simp only [readCluster, Option.map_some, List.append_nil]
          have hadv := Lay.advance (g' := s') (A := [a]) (R := R) hlay (by simp) hm
            (by exact hr.nargv) (by rw [hr.optind, hn]; simp) (by exact hr.optreset)
            (by exact hr.posixly) (by exact hr.nonoptStart) (by exact hr.nonoptEnd)
            (by exact hr.stderr)
          obtain ⟨P', O', hl2, hset⟩ := hadv
          exact ⟨0, s', P', O', hstep, ⟨hl2, hpl, hset, by rw [hr.nargv]⟩, by simp, hr.nonoptStart, by rw [hr.optind, hn]; simp [usedN]⟩
        · have hlay' : Lay false log tot s' P N O (a :: R) :=
            hlay.congr (by exact hr.nargv) (by rw [hr.optind, hn]; simp [htl]) (by exact hr.optreset)
              (by exact hr.posixly) (by exact hr.nonoptStart) (by exact hr.nonoptEnd)
              (by exact hr.stderr)
          have hlen : s'.nargv.length = g.nargv.length := by rw [hr.nargv]
          have := ih htl (fun h => hnul (by simp [h])) s' hpl hlay' (by rw [hr.nonoptEnd]; exact hm)
          rw [hlen] at this
          cases hrest : readCluster ds a R.head? tl with
          | none =>
            rw [hrest] at this
            obtain ⟨k, evs', g', h1, h2, h3, h4, h5⟩ := this
            exact ⟨1 + k, evs ++ evs', g', hstep.trans h1, h2, h3, h4, h5⟩
          | some p =>
            obtain ⟨evs', u⟩ := p
            rw [hrest] at this
            obtain ⟨k, g', P', O', h1, h2, h3, h4, h5⟩ := this
            refine ⟨1 + k, g', P', O', ?_, h2, h3, h4.trans hr.nonoptStart, by rw [h5, hr.optind, hn]; simp [htl]⟩
            rw [show 1 + k + 1 = 1 + (k + 1) by omega]
            exact hstep.trans h1
      · rw [hrc]
        obtain ⟨A, hA, hsplit, hlen⟩ := split_list (a := a) (u := u) hu
        have hadv := Lay.advance (g' := s') (A := A) (R := if u then R.tail else R)
          (by rw [← hsplit]; exact hlay) hA hm
          (by exact hr.nargv) (by rw [hlen, hr.optind, hn]) (by exact hr.optreset)
          (by exact hr.posixly) (by exact hr.nonoptStart) (by exact hr.nonoptEnd)
          (by exact hr.stderr)
        obtain ⟨P', O', hl2, hset⟩ := hadv
        exact ⟨0, s', P', O', hstep, ⟨hl2, hpl, hset, by rw [hr.nargv]⟩, hu, hr.nonoptStart, by rw [hr.optind, hn]⟩



theorem exchanges_cons (ds : List Decl) (a : CStr) (rest : List CStr) (n m : Nat) : exchanges ds (a :: rest) n m =
    if a = ['-', '-'] then moving n (m + 1)
    else if isOperand a then moving n m + exchanges ds rest (n + 1) 0
    else
      match readCluster ds a rest.head? a.tail with
      | some (_, true) =>
        match rest with
        | [] => moving n (m + 1)
        | _ :: rest' => exchanges ds rest' n (m + 2)
      | _ => exchanges ds rest n (m + 1) := by
  rw [exchanges.eq_def]
  dsimp only
  split
  · rfl
  · split
    · rfl
    · generalize readCluster ds a rest.head? a.tail = x
      rcases x with _ | ⟨e, _ | _⟩
      · rfl
      · rfl
      · cases rest <;> rfl

section
variable {g : GState} {P N O R : List CStr} {a : CStr}

theorem endOfArgsX_lay {r : Start × Nat} (h : Lay false log tot g P N O []) (hset : g.nonoptEnd = none ∨ O ≠ []) (hr : endOfArgsX g = .ok r) :
    r.2 = moving N.length O.length ∧ ∃ s, r.1 = .ret (-1) s := by
  unfold endOfArgsX at hr
  dsimp only at hr
  rcases h.mode with ⟨rfl, rfl, m1, m2⟩ | ⟨hN, rfl, m1, m2⟩ | ⟨hN, m1, m2⟩
  · rw [m1, m2] at hr
    cases hr
    exact ⟨by simp [moving], _, rfl⟩
  · rw [m1, m2] at hr
    cases hr
    exact ⟨by simp [moving], _, rfl⟩
  · have hO : O ≠ [] := by
      rcases hset with hs | hs
      · rw [m2] at hs; cases hs
      · exact hs
    rw [m1, m2] at hr
    dsimp only at hr
    rw [h.optind, h.argv, permuteArgsX_blocks P N O [] hN hO, bind_ok] at hr
    cases hr
    exact ⟨by simp [moving, hN, hO], _, rfl⟩

theorem foundDashDashX_lay {r : Start × Nat} (h : Lay false log tot g P N O (a :: R)) (hm : N = [] ∨ g.nonoptEnd ≠ none)
    (hr : foundDashDashX g = .ok r) : r.2 = moving N.length (O.length + 1) ∧ ∃ s, r.1 = .ret (-1) s := by
  unfold foundDashDashX at hr
  dsimp only at hr
  rcases h.mode with ⟨rfl, rfl, m1, m2⟩ | ⟨hN, rfl, m1, m2⟩ | ⟨hN, m1, m2⟩
  · rw [m1, m2] at hr
    cases hr
    exact ⟨by simp [moving], _, rfl⟩
  · rcases hm with hm | hm
    · exact absurd hm hN
    · exact absurd m2 hm
  · rw [m1, m2] at hr
    dsimp only at hr
    have hp := permuteArgsX_blocks P N (O ++ [a]) R hN (by simp)
    rw [show P.length + N.length + (O ++ [a]).length = g.optind + 1 by rw [h.optind]; simp; omega,
      show P ++ N ++ (O ++ [a]) ++ R = g.nargv by rw [h.argv]; simp] at hp
    rw [hp, bind_ok] at hr
    cases hr
    exact ⟨by simp [moving, hN], _, rfl⟩

theorem skipOperandX_lay (h : Lay false log tot g P N O (a :: R)) (hset : g.nonoptEnd = none ∨ O ≠ []) {r : GState × Nat}
    (hr : skipOperandX g = .ok r) : r.2 = moving N.length O.length := by
  unfold skipOperandX at hr
  rcases h.mode with ⟨rfl, rfl, m1, m2⟩ | ⟨hN, rfl, m1, m2⟩ | ⟨hN, m1, m2⟩
  · rw [m1] at hr
    cases hr
    simp [moving]
  · rw [m1, m2] at hr
    cases hr
    simp [moving]
  · have hO : O ≠ [] := by
      rcases hset with hs | hs
      · rw [m2] at hs; cases hs
      · exact hs
    rw [m1, m2] at hr
    dsimp only at hr
    rw [h.optind, h.argv, permuteArgsX_blocks P N O (a :: R) hN hO, bind_ok] at hr
    cases hr
    simp [moving, hN, hO]

theorem scanStartX_option (h : Lay false log tot g P N O (a :: R)) (hp : g.place = []) (ha : isOperand a = false) (permute : Bool) :
    scanStartX g.nargv.length permute false g =
      if a.tail = ['-'] then foundDashDashX (enter g a.tail) else .ok (.go (enter g a.tail), 0) := by
  have hlt := h.lt
  rw [scanStartX]
  have hcond : ¬ (a.head? ≠ some '-' ∨ a.tail = []) := by
    rw [← isOperand_iff, ha]; decide
  simp only [hp, List.isEmpty_nil, Bool.or_true, if_true, ge_iff_le, Nat.not_le.2 hlt, dite_false,
    h.getElem, hcond]
  unfold enter
  cases hs : (g.nonoptStart.isSome && g.nonoptEnd.isNone) <;> simp [hs]
end

theorem taggedLoopX_congr {σ : Type} {g g1 : GState}
    (h : getoptInternalX false nargc sopts (some lopts) true false g = getoptInternalX false nargc sopts (some lopts) true false g1)
    (n : Nat) (t : Table σ) : taggedLoopX false nargc sopts lopts n g t = taggedLoopX false nargc sopts lopts n g1 t := by
  cases n with
  | zero => rfl
  | succ n => rw [taggedLoopX, taggedLoopX, h]

theorem loop_scan {σ : Type} {so : CStr} {g : GState} {P N O R : List CStr} (hl : Lay false log tot g P N O R) {t : Table σ} {f : Nat}
    {r : (GState × Table σ) × Nat} (h : taggedLoopX false nargc (':' :: so) lopts f g t = .ok r) :
    ∃ x, scanStartX nargc true false { g with optarg := none } = .ok x ∧ ∀ s, x.1 = .ret (-1) s → r.2 = x.2 := by
  cases f with
  | zero => cases h
  | succ f =>
    rw [taggedLoopX] at h
    obtain ⟨a, ha, h⟩ := mbind_ok_inv h
    obtain ⟨x, h1, h2, h3⟩ := getoptX_next rfl hl.optind_ne hl.reset hl.posixly ha
    refine ⟨x, h1, fun s hs => ?_⟩
    rw [hs] at h2
    have h4 : a.1 = (-1, s) := by injection h2 with h2; exact h2.symm
    rw [h4, if_pos rfl] at h
    cases h
    exact h3

theorem loop_operand {σ : Type} {so : CStr} {g : GState} {P N O R : List CStr} {a : CStr} (hl : Lay false log tot g P N O (a :: R))
    (hp : g.place = []) (ha : isOperand a = true) (hset : g.nonoptEnd = none ∨ O ≠ []) {t : Table σ} {f : Nat}
    {r : (GState × Table σ) × Nat} (h : taggedLoopX false g.nargv.length (':' :: so) lopts f g t = .ok r) :
    ∃ g' P' r', Lay false log tot g' P' (N ++ [a]) [] R ∧ g'.place = [] ∧ g'.nonoptEnd = none ∧ g'.nargv.length = g.nargv.length ∧
      taggedLoopX false g.nargv.length (':' :: so) lopts f g' t = .ok r' ∧ r.2 = moving N.length O.length + r'.2 := by
  cases f with
  | zero => cases h
  | succ f =>
    rw [taggedLoopX] at h
    obtain ⟨c, hc, h⟩ := mbind_ok_inv h
    obtain ⟨x, h1, h2, h3⟩ := getoptX_next rfl hl.optind_ne hl.reset hl.posixly hc
    obtain ⟨sk, q, k1, k2, k3⟩ := scan_operand (s := { g with optarg := none }) hp hl.lt hl.getElem ((isOperand_iff a).1 ha) h1
    have hl0 : Lay false log tot { g with optarg := none, optreset := false, place := [] } P N O (a :: R) :=
      hl.congr rfl rfl hl.reset.symm rfl rfl rfl rfl
    obtain ⟨g', P', e1, e2, e3, e4, e5, e6⟩ := skipOperand_lay hl0 hset rfl
    have hs := skipOperandX_fst { g with optarg := none, optreset := false, place := [] }
    rw [k1, e1] at hs
    have hs : sk.1 = g' := by injection hs
    subst hs
    have e5 : sk.1.optarg = none := e5
    have k4 := skipOperandX_lay hl0 hset k1
    have k5 : ({ sk.1 with optarg := none } : GState) = sk.1 := by
      generalize sk.1 = u at e5
      cases u
      simp only at e5
      simp [e5]
    have k6 : getoptInternalX false g.nargv.length (':' :: so) (some lopts) true false sk.1 = .ok (c.1, q.2) := by
      rw [getoptX_inner rfl e2.optind_ne e2.reset e2.posixly, k5]
      rw [show scanStartX g.nargv.length (!false) false sk.1 = .ok q from k2, bind_ok]
      rw [k3] at h2
      rw [show getoptRest g.nargv.length (':' :: so) (some lopts) false q.1 = .ok c.1 from h2, bind_ok]
    have k7 : c.2 = sk.2 + q.2 := by rw [h3, k3]
    by_cases hc1 : c.1.1 = -1
    · rw [if_pos hc1] at h
      cases h
      refine ⟨sk.1, P', ((c.1.2, t), q.2), e2, e3, e4, e6, ?_, by dsimp only; omega⟩
      rw [taggedLoopX, k6, bind_ok]
      dsimp only
      rw [if_pos hc1]
    · rw [if_neg hc1] at h
      obtain ⟨t', ht, h⟩ := mbind_ok_inv h
      obtain ⟨u, hu, h⟩ := mbind_ok_inv h
      cases h
      refine ⟨sk.1, P', (u.1, q.2 + u.2), e2, e3, e4, e6, ?_, by dsimp only; omega⟩
      rw [taggedLoopX, k6, bind_ok]
      dsimp only
      rw [if_neg hc1, ht, bind_ok, hu, bind_ok]

theorem moving_eq {N : List CStr} {k b : Nat} (h : N ≠ [] → b = k) (d : Nat) : moving N.length (k + d) = moving N.length (b + d) := by
  by_cases hN : N = []
  · simp [moving, hN]
  · rw [h hN]

theorem loop_end {σ : Type} {so : CStr} {g : GState} {P N O : List CStr} (hl : Lay false log tot g P N O [])
    (hp : g.place = []) (hset : g.nonoptEnd = none ∨ O ≠ []) {t : Table σ} {f : Nat}
    {r : (GState × Table σ) × Nat} (h : taggedLoopX false g.nargv.length (':' :: so) lopts f g t = .ok r) :
    r.2 = moving N.length O.length := by
  obtain ⟨x, h1, h2⟩ := loop_scan hl h
  rw [scanStartX, if_pos (by simp [hp]), dif_pos (by show g.nargv.length ≤ g.optind; rw [hl.argv, hl.optind]; simp; omega)] at h1
  obtain ⟨h3, s, h4⟩ := endOfArgsX_lay (g := { g with optarg := none, optreset := false }) (hl.congr rfl rfl hl.reset.symm rfl rfl rfl rfl) hset h1
  rw [h2 s h4, h3]

/-- The loop makes as many exchanges as `exchanges` says. -/
theorem loop_exact {ds : List Decl} (hwf : WF ds) {so : CStr} (hso : SoptsOK so ds) :
    ∀ (m : Nat) (R : List CStr), R.length ≤ m → CArgs R → ∀ (g : GState) (P N O : List CStr), Lay false log tot g P N O R → g.place = [] →
      (g.nonoptEnd = none ∨ O ≠ []) → (tokenize ds false R).isSome → ∀ (b : Nat), (N ≠ [] → b = O.length) →
      ∀ {σ : Type} (t : Table σ) (f : Nat) (r : (GState × Table σ) × Nat), t.entries.map declOf = ds →
        taggedLoopX false g.nargv.length (':' :: so) ((longTable ds 0).map toLongOpt) f g t = .ok r → r.2 = exchanges ds R N.length b := by
  intro m
  induction m with
  | zero =>
    intro R hR _ g P N O hl hp hset htok b hb σ t f r ht h
    obtain rfl := List.length_eq_zero_iff.1 (Nat.le_zero.1 hR)
    rw [loop_end hl hp hset h]
    exact moving_eq hb 0
  | succ m ih =>
    intro R hR hca g P N O hl hp hset htok b hb σ t f r ht h
    cases R with
    | nil =>
      rw [loop_end hl hp hset h]
      exact moving_eq hb 0
    | cons a R =>
      have hR' : R.length ≤ m := by simpa using hR
      have hcaR : CArgs R := fun b hb => hca b (by simp [hb])
      have hnul : '\x00' ∉ a := hca a (by simp)
      have hl0 : Lay false log tot { g with optarg := none } P N O (a :: R) := hl.congr rfl rfl rfl rfl rfl rfl rfl
      rw [tokenize] at htok
      rw [exchanges_cons]
      by_cases hdd : a = ['-', '-']
      · rw [if_pos hdd]
        have ha : isOperand a = false := by rw [hdd]; rfl
        obtain ⟨x, h1, h2⟩ := loop_scan hl h
        rw [show scanStartX g.nargv.length true false { g with optarg := none } = _ from scanStartX_option hl0 hp ha true,
          if_pos (by rw [hdd]; rfl)] at h1
        obtain ⟨el, em⟩ := enter_lay (cl := a.tail) hl0
        obtain ⟨h3, s, h4⟩ := foundDashDashX_lay el em h1
        rw [h2 s h4, h3]
        exact moving_eq hb 1
      · rw [if_neg hdd] at htok ⊢
        by_cases ha : isOperand a = true
        · rw [if_pos ha] at htok ⊢
          rw [if_neg (by simp), Option.isSome_map] at htok
          obtain ⟨g', P', r', e1, e2, e3, e4, e5, e6⟩ := loop_operand hl hp ha hset h
          rw [← e4] at e5
          have := ih R hR' hcaR g' P' (N ++ [a]) [] e1 e2 (.inl e3) htok 0 (fun _ => rfl) t f r' ht e5
          rw [e6, this, List.length_append, List.length_singleton]
          rw [show moving N.length O.length = moving N.length b from moving_eq hb 0]
        · rw [if_neg ha] at htok ⊢
          have ha' : isOperand a = false := by simpa using ha
          have hdd' : a.tail ≠ ['-'] := by
            intro ht
            cases a with
            | nil => simp at ht
            | cons c tl =>
              simp only [List.tail_cons] at ht
              subst ht
              by_cases hc : c = '-'
              · exact hdd (by rw [hc])
              · exact absurd ((isOperand_iff _).2 (Or.inl (by simpa using hc))) ha
          obtain ⟨el, em⟩ := enter_lay (cl := a.tail) hl
          have hcong : getoptInternalX false g.nargv.length (':' :: so) (some ((longTable ds 0).map toLongOpt)) true false g =
              getoptInternalX false g.nargv.length (':' :: so) (some ((longTable ds 0).map toLongOpt)) true false (enter g a.tail) := by
            rw [getoptX_inner rfl hl.optind_ne hl.reset hl.posixly, getoptX_inner rfl el.optind_ne el.reset el.posixly,
              show scanStartX g.nargv.length (!false) false { g with optarg := none } = _ from scanStartX_option hl0 hp ha' true,
              if_neg hdd', scanStartX_place (by rfl) (by exact opt_tail_ne ha')]
            rfl
          rw [taggedLoopX_congr hcong] at h
          have hcl := cluster_stepsX (log := log) (tot := tot) hwf hso a.tail (opt_tail_ne ha') (not_mem_tail hnul) (enter g a.tail) rfl el em
          cases hrc : readCluster ds a R.head? a.tail with
          | none => rw [hrc] at htok; cases htok
          | some p =>
            obtain ⟨evs, u⟩ := p
            rw [hrc] at hcl htok
            obtain ⟨k, g1, P1, O1, hst, hdone, hu, hs1, hs2⟩ := hcl
            have h := taggedLoopX_mono _ (k + 1) h
            rw [show taggedLoopX false g.nargv.length (':' :: so) ((longTable ds 0).map toLongOpt) (f + (k + 1)) (enter g a.tail) t = _ from
              hst.run t f ht] at h
            obtain ⟨t', ht', h⟩ := mbind_ok_inv h
            have hlen : g1.nargv.length = g.nargv.length := hdone.len
            have hb1 : N ≠ [] → b + usedN u = O1.length := by
              intro hN
              have p1 : (enter g a.tail).nonoptStart = some P.length := by
                rcases el.mode with m | m | m
                · exact absurd m.1 hN
                · exact m.2.2.1
                · exact m.2.1
              have p2 : g1.nonoptStart = some P1.length := by
                rcases hdone.lay.mode with m | m | m
                · exact absurd m.1 hN
                · exact m.2.2.1
                · exact m.2.1
              rw [hs1, p1] at p2
              have p2 : P.length = P1.length := by injection p2
              have p3 := hdone.lay.optind
              rw [hs2, el.optind] at p3
              have := hb hN
              omega
            have key : ∀ R1 : List CStr, R1 = (if u = true then R.tail else R) → R1.length ≤ m → CArgs R1 →
                (tokenize ds false R1).isSome → r.2 = exchanges ds R1 N.length (b + usedN u) := by
              intro R1 hR1 hlen1 hca1 htok1
              exact ih R1 hlen1 hca1 g1 P1 N O1 (by rw [hR1]; exact hdone.lay) hdone.place hdone.set htok1 _ hb1 t' f r
                (by rw [applyAll_decl ht', ht]) (by rw [hlen]; exact h)
            cases u with
            | false => exact key R rfl hR' hcaR (by simpa using htok)
            | true =>
              cases R with
              | nil => exact absurd rfl (hu rfl)
              | cons v R => exact key R rfl (by simp at hR'; omega) (fun b hb => hcaR b (by simp [hb])) (by simpa using htok)

theorem scanStartX_reset (n : Nat) (permute : Bool) (s : GState) (p : CStr) :
    scanStartX n permute false { s with optreset := true, place := p } =
      scanStartX n permute false { s with optreset := false, place := [] } := by
  conv_lhs => rw [scanStartX]
  conv_rhs => rw [scanStartX]
  simp only [Bool.true_or, Bool.false_or, List.isEmpty_nil, if_true, endOfArgsX]
  cases h : (s.nonoptStart.isSome && s.nonoptEnd.isNone) <;> simp only [if_true, if_false, Bool.false_eq_true]

theorem argParseX_exact {σ : Type} {f : Nat} {argv : List CStr} {t : Table σ} {g : GState} {r : (Nat × Table σ × GState) × Nat}
    (hwf : WF (t.entries.map declOf)) (hargs : CArgs argv.tail) (h : argParseX false f argv t g = .ok r)
    (htok : (tokenize (t.entries.map declOf) false argv.tail).isSome) : r.2 = exchanges (t.entries.map declOf) argv.tail 0 0 := by
  rcases argParseX_inv h with ⟨rfl, h2⟩ | ⟨t0, a, h1, h2, h3, h4⟩
  · simp [h2, exchanges, moving]
  · cases argv with
    | nil => exact absurd rfl h1
    | cons a0 args =>
      have hd := argReset_decls h2
      rw [← hd] at hwf htok ⊢
      unfold parseTaggedX at h3
      rw [allocLongoptions_ok _ hwf, allocShortoptions_ok] at h3
      simp only [bind_ok] at h3
      have hcong : getoptInternalX false (a0 :: args).length (':' :: t0.entries.flatMap shortChars)
            (some ((longTable (t0.entries.map declOf) 0).map toLongOpt)) true false
            { g with nargv := a0 :: args, optind := 0, opterr := false } =
          getoptInternalX false (a0 :: args).length (':' :: t0.entries.flatMap shortChars)
            (some ((longTable (t0.entries.map declOf) 0).map toLongOpt)) true false (initState false (a0 :: args) g) := by
        rw [getoptX_outer rfl rfl, getoptX_inner (s := initState false (a0 :: args) g) rfl (by simp [initState]) rfl rfl]
        have e := scanStartX_reset (a0 :: args).length true
          { g with nargv := a0 :: args, opterr := false, optind := 1, optarg := none, nonoptStart := none, nonoptEnd := none, posixly := some false } g.place
        dsimp only at e
        rw [show (!false) = true from rfl]
        unfold initState
        rw [e]
      rw [taggedLoopX_congr hcong] at h3
      rw [h4]
      exact loop_exact (log := g.stderr) (tot := a0 :: args) hwf (sopts_ok t0.entries hwf) args.length args (Nat.le_refl _) hargs
        _ _ _ _ (initState_lay false a0 args g) rfl (.inl rfl) htok 0 (fun hh => absurd rfl hh) t0 f a rfl h3

end Argtable
