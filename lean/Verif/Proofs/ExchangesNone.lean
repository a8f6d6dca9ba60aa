import Verif.Proofs.Exchanges

/-!
# Command lines without exchanges: proofs
-/

namespace Argtable

open Spec

variable {α σ : Type}

/-! ### when an operand has been skipped -/

theorem permuteArgsX_pos {b e o : Nat} {v : List α} {r : List α × Nat} (h : permuteArgsX b e o v = .ok r) : e < o := by
  unfold permuteArgsX at h
  obtain ⟨n, h1, h⟩ := mbind_ok_inv h
  by_contra hc
  rw [show o - e = 0 by omega, gcdLoop, dif_pos rfl] at h1
  cases h1

/-- The first operand was found at `b0`; no exchange has been made if and only if the skipped operands begin there. -/
def OpenFrom (b0 c : Nat) (s : GState) : Prop := ∃ b, s.nonoptStart = some b ∧ b0 ≤ b ∧ (c = 0 ↔ b = b0)

/-- The same at the end. -/
def EndsAt (b0 c : Nat) (s : GState) : Prop := b0 ≤ s.optind ∧ (c = 0 ↔ s.optind = b0)

theorem skipOperandX_behind {n b0 c : Nat} {s : GState} {r : GState × Nat} (h : Moved false n c s) (hb : OpenFrom b0 c s)
    (hr : skipOperandX s = .ok r) : OpenFrom b0 (c + r.2) r.1 := by
  obtain ⟨b, h1, h2, h3⟩ := hb
  unfold skipOperandX at hr
  rw [h1] at hr
  cases he : s.nonoptEnd with
  | none => rw [he] at hr; cases hr; exact ⟨b, rfl, h2, h3⟩
  | some e =>
    rw [he] at hr
    dsimp only at hr
    obtain ⟨a, ha, hr⟩ := mbind_ok_inv hr
    cases hr
    obtain ⟨p1, p2, p3, -⟩ := h.cls b e h1 he
    have q := (permuteArgsX_count (by omega) p3 ha).1
    have q2 := permuteArgsX_pos ha
    exact ⟨_, rfl, by omega, by dsimp only; omega⟩

theorem endOfArgsX_behind {n b0 c : Nat} {s : GState} {r : Start × Nat} (h : Moved false n c s) (hb : OpenFrom b0 c s)
    (hr : endOfArgsX s = .ok r) : ∃ s', r.1 = .ret (-1) s' ∧ EndsAt b0 (c + r.2) s' := by
  obtain ⟨b, h1, h2, h3⟩ := hb
  unfold endOfArgsX at hr
  dsimp only at hr
  rw [h1] at hr
  cases he : s.nonoptEnd with
  | none => rw [he] at hr; cases hr; exact ⟨_, rfl, h2, h3⟩
  | some e =>
    rw [he] at hr
    dsimp only at hr
    obtain ⟨a, ha, hr⟩ := mbind_ok_inv hr
    cases hr
    obtain ⟨p1, p2, p3, -⟩ := h.cls b e h1 he
    have q := (permuteArgsX_count (by omega) p3 ha).1
    have q2 := permuteArgsX_pos ha
    exact ⟨_, rfl, by dsimp only; omega, by dsimp only; omega⟩

theorem foundDashDashX_behind {n b0 c : Nat} {s : GState} {r : Start × Nat} (h : Moved false n c s) (hr' : Reading n s) (hb : OpenFrom b0 c s)
    (hr : foundDashDashX s = .ok r) : ∃ s', r.1 = .ret (-1) s' ∧ EndsAt b0 (c + r.2) s' := by
  obtain ⟨b, h1, h2, h3⟩ := hb
  unfold foundDashDashX at hr
  dsimp only at hr
  rw [h1] at hr
  cases he : s.nonoptEnd with
  | none => exact absurd he (hr'.2.resolve_left (by rw [h1]; simp))
  | some e =>
    rw [he] at hr
    dsimp only at hr
    obtain ⟨a, ha, hr⟩ := mbind_ok_inv hr
    cases hr
    obtain ⟨p1, p2, p3, -⟩ := h.cls b e h1 he
    have q := (permuteArgsX_count (by omega) (by omega) ha).1
    exact ⟨_, rfl, by dsimp only; omega, by dsimp only; omega⟩

theorem scanStartX_behind {n b0 : Nat} : ∀ (m : Nat) (c : Nat) (s : GState) (r : Start × Nat), n - s.optind ≤ m →
    Moved false n c s → OpenFrom b0 c s →
    scanStartX n true false s = .ok r →
    (∃ s', r.1 = .go s' ∧ OpenFrom b0 (c + r.2) s') ∨ (∃ s', r.1 = .ret (-1) s' ∧ EndsAt b0 (c + r.2) s') := by
  intro m
  induction m with
  | zero =>
    intro c s r hm h hb hr
    rw [scanStartX] at hr
    split at hr
    · rw [dif_pos (by omega)] at hr
      exact .inr (endOfArgsX_behind (h.place s.place false) hb hr)
    · cases hr
      exact .inl ⟨s, rfl, hb⟩
  | succ m ih =>
    intro c s r hm h hb hr
    rw [scanStartX] at hr
    split at hr
    · split at hr
      · exact .inr (endOfArgsX_behind (h.place s.place false) hb hr)
      · next hge =>
        dsimp only at hr
        split at hr
        · cases hr
        · next arg _ =>
          split at hr
          · rw [if_neg (by simp), if_neg (by simp)] at hr
            split at hr
            · cases hr
            · next a ha =>
              have h1 := skipOperandX_optind ha
              obtain ⟨m1, -⟩ := skipOperandX_moved (h.place [] false) rfl (by simpa using (by omega : s.optind < n)) ha
              have m2 := skipOperandX_behind (h.place [] false) hb ha
              dsimp only at h1
              split at hr
              · cases hr
              · next q hq =>
                cases hr
                have := ih (c + a.2) a.1 q (by omega) m1 m2 hq
                rw [Nat.add_assoc] at this
                exact this
          · next hop =>
            obtain ⟨b, hb1, hb2, hb3⟩ := hb
            have hgo : Moved false n c { (if s.nonoptStart.isSome && s.nonoptEnd.isNone
                  then { s with optreset := false, nonoptEnd := some s.optind } else { s with optreset := false } : GState) with place := arg.tail } ∧
                Reading n { (if s.nonoptStart.isSome && s.nonoptEnd.isNone
                  then { s with optreset := false, nonoptEnd := some s.optind } else { s with optreset := false } : GState) with place := arg.tail } ∧
                OpenFrom b0 c { (if s.nonoptStart.isSome && s.nonoptEnd.isNone
                  then { s with optreset := false, nonoptEnd := some s.optind } else { s with optreset := false } : GState) with place := arg.tail } := by
              split
              · next hc =>
                simp only [Bool.and_eq_true, Option.isSome_iff_exists, Option.isNone_iff_eq_none] at hc
                obtain ⟨p1, p2, p3⟩ := h.opn b hb1 hc.2
                refine ⟨⟨h.len, h.pos, h.le, h.mode, ?_, ?_, ?_⟩, ⟨by dsimp only; omega, .inr (by simp)⟩, ⟨b, hb1, hb2, hb3⟩⟩
                · intro hn; rw [show _ = some b from hb1] at hn; cases hn
                · intro b' _ hn; cases hn
                · intro b' e' hb' he'
                  obtain rfl : b = b' := by rw [show _ = some b from hb1] at hb'; injection hb'
                  cases he'
                  exact ⟨p1, p2, Nat.le_refl _, p3⟩
              · next hc =>
                refine ⟨h.place _ _, ⟨by dsimp only; omega, ?_⟩, ⟨b, hb1, hb2, hb3⟩⟩
                dsimp only
                refine .inr fun hn => hc ?_
                rw [hb1, hn]; rfl
            split at hr
            · exact .inr (foundDashDashX_behind hgo.1 hgo.2.1 hgo.2.2 hr)
            · cases hr
              exact .inl ⟨_, rfl, hgo.2.2⟩
    · cases hr
      exact .inl ⟨s, rfl, hb⟩

theorem OpenFrom.kept {n b0 c : Nat} {s s' : GState} (h : OpenFrom b0 c s) (hk : KeptBy n s s') : OpenFrom b0 c s' := by
  obtain ⟨b, h1, h2⟩ := h
  exact ⟨b, hk.start.trans h1, h2⟩

/-! ### without regard to the environment -/

theorem warn_silent {o : CStr} (ho : o.head? = some ':') (m : CStr) (s : GState) : warn o m s = s := by
  unfold warn; rw [ho]; simp

/-- With another value of `posixly_correct`. -/
def GState.px (s : GState) (p : Option Bool) : GState := { s with posixly := p }

/-- The same for a result. -/
def pxr (p : Option Bool) (r : Int × GState) : Int × GState := (r.1, r.2.px p)

theorem fetch_px (o : LongOpt) (he : Option CStr) (s : GState) (p : Option Bool) :
    fetchLongArg o he (s.px p) = (fetchLongArg o he s).map (fun s => s.px p) := by
  unfold fetchLongArg
  split
  · cases he with
    | some v => rfl
    | none =>
      dsimp only
      split
      · change (argvAt s.nargv s.optind >>= _) = (argvAt s.nargv s.optind >>= _).map _
        cases argvAt s.nargv s.optind <;> rfl
      · rfl
  · rfl

theorem parseLong_px {o : CStr} (ho : o.head? = some ':') (ls : List LongOpt) (st lo : Bool) (dash : CStr) (s : GState) (p : Option Bool) :
    parseLongOptions o ls st lo dash (s.px p) = (parseLongOptions o ls st lo dash s).map (pxr p) := by
  unfold parseLongOptions
  simp only [warn_silent ho]
  change (if _ then _ else _ : M (Int × GState)) = (if _ then _ else _ : M (Int × GState)).map _
  change (if (!(matchLoop s.place (curLen s.place) st lo ls none false).exact && (matchLoop s.place (curLen s.place) st lo ls none false).second) = true then _ else _ : M (Int × GState)) = _
  split
  · rfl
  · change (match (matchLoop s.place (curLen s.place) st lo ls none false).mtch with | some o => _ | none => _ : M (Int × GState)) = _
    cases (matchLoop s.place (curLen s.place) st lo ls none false).mtch with
    | none =>
      dsimp only
      split <;> rfl
    | some x =>
      dsimp only
      change (if x.hasArg = 0 ∧ (hasEqual s.place).isSome = true then _ else _ : M (Int × GState)) = _
      split
      · rfl
      · have := fetch_px x (hasEqual s.place) { s with optind := s.optind + 1 } p
        change (fetchLongArg x (hasEqual s.place) (GState.px { s with optind := s.optind + 1 } p) >>= _) = _
        rw [this]
        cases fetchLongArg x (hasEqual s.place) { s with optind := s.optind + 1 } with
        | error e => rfl
        | ok s1 =>
          change (if x.hasArg = 1 ∧ s1.optarg = none then _ else _ : M (Int × GState)) = (if x.hasArg = 1 ∧ s1.optarg = none then _ else _ : M (Int × GState)).map _
          split
          · rfl
          · split <;> rfl

theorem shortPart_px {o : CStr} (ho : o.head? = some ':') (n : Nat) (ls : List LongOpt) (s : GState) (p : Option Bool) :
    shortPart n o (some ls) false (s.px p) = (shortPart n o (some ls) false s).map (pxr p) := by
  unfold shortPart
  simp only [warn_silent ho]
  change (match s.place with | [] => _ | c :: place => _ : M (Int × GState)) = _
  cases s.place with
  | nil => rfl
  | cons c place =>
    dsimp only
    generalize (if c = ':' ∨ (c = '-' ∧ place ≠ []) then none else strchr o c) = x
    cases x with
    | none =>
      dsimp only
      split
      · rfl
      · split <;> rfl
    | some oli =>
      dsimp only
      split
      · split
        · have := parseLong_px ho ((some ls).getD []) false false (cs "-W ") { s with place := place } p
          change (parseLongOptions o ((some ls).getD []) false false (cs "-W ") (GState.px { s with place := place } p) >>= _) = _
          rw [this]
          cases parseLongOptions o ((some ls).getD []) false false (cs "-W ") { s with place := place } <;> rfl
        · change (if s.optind + 1 ≥ n then _ else _ : M (Int × GState)) = (if s.optind + 1 ≥ n then _ else _ : M (Int × GState)).map _
          split
          · rfl
          · change (argvAt s.nargv (s.optind + 1) >>= _) = (argvAt s.nargv (s.optind + 1) >>= _).map _
            cases argvAt s.nargv (s.optind + 1) with
            | error e => rfl
            | ok v =>
              cases v with
              | none => rfl
              | some v =>
                have := parseLong_px ho ((some ls).getD []) false false (cs "-W ") { s with place := v, optind := s.optind + 1 } p
                change (parseLongOptions o ((some ls).getD []) false false (cs "-W ") (GState.px { s with place := v, optind := s.optind + 1 } p) >>= _) =
                  (parseLongOptions o ((some ls).getD []) false false (cs "-W ") { s with place := v, optind := s.optind + 1 } >>= _).map _
                rw [this]
                cases parseLongOptions o ((some ls).getD []) false false (cs "-W ") { s with place := v, optind := s.optind + 1 } <;> rfl
      · split
        · split <;> rfl
        · split
          · rfl
          · split
            · change (if s.optind + 1 ≥ n then _ else _ : M (Int × GState)) = (if s.optind + 1 ≥ n then _ else _ : M (Int × GState)).map _
              split
              · rfl
              · change (argvAt s.nargv (s.optind + 1) >>= _) = (argvAt s.nargv (s.optind + 1) >>= _).map _
                cases argvAt s.nargv (s.optind + 1) <;> rfl
            · rfl

theorem rest_px {o : CStr} (ho : o.head? = some ':') (n : Nat) (ls : List LongOpt) (s : GState) (p : Option Bool) :
    getoptRest n o (some ls) false (.go (s.px p)) = (getoptRest n o (some ls) false (.go s)).map (pxr p) := by
  unfold getoptRest
  dsimp only
  change (if s.place.head? = some '-' then _ else _ : M (Int × GState)) = (if s.place.head? = some '-' then _ else _ : M (Int × GState)).map _
  split
  · change (if s.place.tail = [] then _ else _ : M (Int × GState)) = (if s.place.tail = [] then _ else _ : M (Int × GState)).map _
    split
    · rfl
    · have := parseLong_px ho ls false false (cs "--") { s with place := s.place.tail } p
      change (parseLongOptions o ls false false (cs "--") (GState.px { s with place := s.place.tail } p) >>= _) = _
      rw [this]
      cases parseLongOptions o ls false false (cs "--") { s with place := s.place.tail } with
      | error e => rfl
      | ok r =>
        change (if r.1 ≠ -1 then _ else shortPart n o (some ls) false (r.2.px p) : M (Int × GState)) = (if r.1 ≠ -1 then _ else _ : M (Int × GState)).map _
        split
        · rfl
        · exact shortPart_px ho n ls r.2 p
  · rw [if_neg (by simp), if_neg (by simp)]
    exact shortPart_px ho n ls s p

theorem taggedBody_px (code : Int) (g : GState) (t : Table σ) (p : Option Bool) : taggedBody code (g.px p) t = taggedBody code g t := rfl

/-! ### the two runs -/

/-- `start:` with and without POSIXLY_CORRECT, before an operand was found. -/
theorem scanStartX_two {n : Nat} {s : GState} {r : Start × Nat} (h1 : s.nonoptStart = none) (h2 : s.nonoptEnd = none)
    (h : scanStartX n true false s = .ok r) :
    (∃ s', r = (.go s', 0) ∧ s'.nonoptStart = none ∧ s'.nonoptEnd = none ∧
      scanStartX n false false (s.px (some true)) = .ok (.go (s'.px (some true)), 0)) ∨
    (∃ s', r = (.ret (-1) s', 0) ∧ scanStartX n false false (s.px (some true)) = .ok (.ret (-1) (s'.px (some true)), 0)) ∨
    (s.optind < n ∧ scanStartX n false false (s.px (some true)) =
        .ok (.ret (-1) { s.px (some true) with optreset := false, place := [] }, 0) ∧
      scanStartX n true false { s with optreset := false, place := [], nonoptStart := some s.optind, optind := s.optind + 1 } = .ok r) := by
  rw [scanStartX] at h
  rw [show scanStartX n false false (s.px (some true)) = _ from scanStartX.eq_def ..]
  by_cases hc : (s.optreset || s.place.isEmpty) = true
  · rw [if_pos hc] at h
    have hc' : ((s.px (some true)).optreset || (s.px (some true)).place.isEmpty) = true := hc
    rw [if_pos hc']
    by_cases hge : s.optind ≥ n
    · rw [dif_pos hge] at h
      have hge' : (s.px (some true)).optind ≥ n := hge
      rw [dif_pos hge']
      unfold endOfArgsX at h ⊢
      dsimp only at h
      rw [h1, h2] at h
      cases h
      refine .inr (.inl ⟨_, rfl, ?_⟩)
      dsimp only [GState.px]
      rw [h1, h2]
    · rw [dif_neg hge] at h
      have hge' : ¬ (s.px (some true)).optind ≥ n := hge
      rw [dif_neg hge']
      dsimp only [GState.px] at h ⊢
      cases ha : s.nargv[s.optind]? with
      | none => rw [ha] at h; cases h
      | some arg =>
        rw [ha] at h
        dsimp only at h ⊢
        by_cases ho : arg.head? ≠ some '-' ∨ arg.tail = []
        · rw [if_pos ho, if_neg (by simp), if_neg (by simp)] at h
          rw [if_pos ho, if_neg (by simp), if_pos (by simp)]
          refine .inr (.inr ⟨by omega, rfl, ?_⟩)
          split at h
          · cases h
          · next a ha =>
            unfold skipOperandX at ha
            dsimp only at ha
            rw [h1] at ha
            cases ha
            split at h
            · cases h
            · next q hq =>
              cases h
              rw [Nat.zero_add]
              exact hq
        · rw [if_neg ho] at h
          rw [if_neg ho]
          simp only [h1, h2, Option.isSome_none, Bool.false_and, Bool.false_eq_true, if_false] at h ⊢
          by_cases hd : arg.tail = ['-']
          · rw [if_pos hd] at h
            rw [if_pos hd]
            unfold foundDashDashX at h ⊢
            dsimp only at h
            cases h
            exact .inr (.inl ⟨_, rfl, rfl⟩)
          · rw [if_neg hd] at h
            rw [if_neg hd]
            cases h
            exact .inl ⟨_, rfl, rfl, rfl, rfl⟩
  · rw [if_neg hc] at h
    have hc' : ¬ ((s.px (some true)).optreset || (s.px (some true)).place.isEmpty) = true := hc
    rw [if_neg hc']
    cases h
    exact .inl ⟨s, rfl, h1, h2, rfl⟩

/-- What `getopt_long` works on when it has looked at the environment. -/
theorem getoptX_inner {env : Bool} {n : Nat} {options : CStr} {ls : List LongOpt} {s : GState}
    (ho : options.head? = some ':') (hi : s.optind ≠ 0) (hr : s.optreset = false) (hx : s.posixly = some env) :
    getoptInternalX env n options (some ls) true false s =
      (scanStartX n (!env) false { s with optarg := none } >>= fun a =>
        getoptRest n options (some ls) false a.1 >>= fun r => .ok (r, a.2)) := by
  unfold getoptInternalX
  dsimp only
  rw [ho]
  simp only [if_neg hi, hr, hx]
  cases env <;> simp

theorem getoptX_outer {env : Bool} {n : Nat} {options : CStr} {ls : List LongOpt} {s : GState}
    (ho : options.head? = some ':') (hi : s.optind = 0) :
    getoptInternalX env n options (some ls) true false s =
      (scanStartX n (!env) false { s with optind := 1, optreset := true, posixly := some env, optarg := none, nonoptStart := none, nonoptEnd := none } >>= fun a =>
        getoptRest n options (some ls) false a.1 >>= fun r => .ok (r, a.2)) := by
  unfold getoptInternalX
  dsimp only
  rw [ho]
  simp only [if_pos hi]
  cases env <;> simp

/-- The rest of the loop when an operand has been found. -/
theorem taggedLoopX_behind {n b0 : Nat} {so : CStr} {lo : List LongOpt} (ho : so.head? = some ':')
    (hf : ∀ o ∈ lo, o.flag = true) (hff : '\xff' ∉ so) (hn : 1 ≤ n) : ∀ (fuel c : Nat) (s : GState) (t : Table σ) (r : (GState × Table σ) × Nat),
    MovedTo false n c s → OpenFrom b0 c s → taggedLoopX false n so lo fuel s t = .ok r → EndsAt b0 (c + r.2) r.1.1 := by
  intro fuel
  induction fuel with
  | zero => intro c s t r _ _ h; cases h
  | succ fuel ih =>
    intro c s t r hs hb h
    rw [taggedLoopX] at h
    obtain ⟨a, ha, h⟩ := mbind_ok_inv h
    have hm := getopt_moved ho hf hff hn (.inl hs) ha
    have hpos := hs.pos
    rw [getoptX_inner ho (by omega) hs.reset hs.posix] at ha
    obtain ⟨x, hx, ha⟩ := mbind_ok_inv ha
    obtain ⟨q, hq, ha⟩ := mbind_ok_inv ha
    cases ha
    dsimp only at h hm
    have hmv : Moved false n c { s with optarg := none } := ⟨hs.len, hs.pos, hs.le, hs.mode, hs.free, hs.opn, hs.cls⟩
    have hbv : OpenFrom b0 c { s with optarg := none } := hb
    rcases scanStartX_behind _ _ _ _ (Nat.le_refl _) hmv hbv hx with ⟨s', e1, e2⟩ | ⟨s', e1, e2⟩
    · rcases scanStartX_moved _ _ _ _ (Nat.le_refl _) hmv (fun _ hp => hs.inside hp) hx with ⟨s2, f1, f2, f3, -⟩ | ⟨s2, f1, -⟩
      · rw [e1] at f1
        cases f1
        rw [e1] at hq
        obtain ⟨p1, p2, -⟩ := rest_kept hf hff f2.len f3.1 hq
        rw [if_neg p1] at h
        obtain ⟨t', _, h⟩ := mbind_ok_inv h
        obtain ⟨u, hu, h⟩ := mbind_ok_inv h
        cases h
        have := ih _ _ _ _ (hm.resolve_left (fun hh => p1 hh.1)).2 (e2.kept p2) hu
        rwa [Nat.add_assoc] at this
      · rw [e1] at f1; cases f1
    · rw [e1] at hq
      cases hq
      rw [if_pos rfl] at h
      cases h
      exact e2

/-- The loop with and without POSIXLY_CORRECT, from states that differ only in that. -/
theorem taggedLoopX_two {n : Nat} {so : CStr} {lo : List LongOpt} (ho : so.head? = some ':')
    (hf : ∀ o ∈ lo, o.flag = true) (hff : '\xff' ∉ so) (hn : 1 ≤ n) : ∀ (fuel : Nat) (s : GState) (t : Table σ) (r : (GState × Table σ) × Nat),
    (MovedTo false n 0 s ∧ s.nonoptStart = none ∨ s.optind = 0 ∧ s.nargv.length = n) → taggedLoopX false n so lo fuel s t = .ok r →
    ∃ gT t', taggedLoopX true n so lo fuel (s.px (some true)) t = .ok ((gT, t'), 0) ∧ EndsAt gT.optind r.2 r.1.1 := by
  intro fuel
  induction fuel with
  | zero => intro s t r _ h; cases h
  | succ fuel ih =>
    intro s t r hs h
    rw [taggedLoopX] at h
    obtain ⟨a, ha, h⟩ := mbind_ok_inv h
    have hm := getopt_moved (c := 0) ho hf hff hn (hs.imp (fun h => h.1) (fun h => ⟨h.1, rfl, h.2⟩)) ha
    have key : ∃ s1 : GState, getoptInternalX false n so (some lo) true false s = (scanStartX n true false s1 >>= fun a =>
          getoptRest n so (some lo) false a.1 >>= fun r => .ok (r, a.2)) ∧
        getoptInternalX true n so (some lo) true false (s.px (some true)) = (scanStartX n false false (s1.px (some true)) >>= fun a =>
          getoptRest n so (some lo) false a.1 >>= fun r => .ok (r, a.2)) ∧
        Moved false n 0 s1 ∧ (s1.optreset = false → s1.place ≠ [] → Reading n s1) ∧ s1.nonoptStart = none ∧ s1.nonoptEnd = none := by
      rcases hs with ⟨hs, h0⟩ | ⟨h0, hl⟩
      · have hpos := hs.pos
        refine ⟨{ s with optarg := none }, getoptX_inner ho (by omega) hs.reset hs.posix, ?_,
          ⟨hs.len, hs.pos, hs.le, hs.mode, hs.free, hs.opn, hs.cls⟩, fun _ hp => hs.inside hp, h0, (hs.free h0).1⟩
        exact getoptX_inner (s := s.px (some true)) ho (by show s.optind ≠ 0; omega) hs.reset rfl
      · refine ⟨{ s with optind := 1, optreset := true, posixly := some false, optarg := none, nonoptStart := none, nonoptEnd := none },
          getoptX_outer ho h0, getoptX_outer (s := s.px (some true)) ho h0,
          ⟨hl, Nat.le_refl _, hn, fun _ => rfl, fun _ => ⟨rfl, rfl⟩, fun b hb => (by cases hb), fun b e hb => (by cases hb)⟩,
          fun hh => (by cases hh), rfl, rfl⟩
    obtain ⟨s1, k1, k2, k3, k4, k5, k6⟩ := key
    rw [k1] at ha
    obtain ⟨x, hx, ha⟩ := mbind_ok_inv ha
    obtain ⟨q, hq, ha⟩ := mbind_ok_inv ha
    cases ha
    dsimp only at h hm
    rw [taggedLoopX, k2]
    rcases scanStartX_two k5 k6 hx with ⟨s', e1, e2, e3, e4⟩ | ⟨s', e1, e2⟩ | ⟨e1, e2, e3⟩
    · subst e1
      rcases scanStartX_moved _ _ _ _ (Nat.le_refl _) k3 k4 hx with ⟨s2, f1, f2, f3, -⟩ | ⟨s2, f1, -⟩
      · cases f1
        obtain ⟨p1, p2, -⟩ := rest_kept hf hff f2.len f3.1 hq
        rw [if_neg p1] at h
        obtain ⟨t', ht, h⟩ := mbind_ok_inv h
        obtain ⟨u, hu, h⟩ := mbind_ok_inv h
        cases h
        obtain ⟨gT, t2, j1, j2⟩ := ih _ _ _ (.inl ⟨(hm.resolve_left (fun hh => p1 hh.1)).2, p2.start.trans e2⟩) hu
        refine ⟨gT, t2, ?_, by dsimp only; rwa [Nat.zero_add]⟩
        rw [e4, bind_ok]
        dsimp only
        rw [rest_px ho, hq]
        change (if q.1 = -1 then _ else _ : M ((GState × Table σ) × Nat)) = _
        rw [if_neg p1]
        change (taggedBody q.1 (q.2.px (some true)) t >>= _) = _
        rw [taggedBody_px, ht, bind_ok]
        change (taggedLoopX true n so lo fuel (q.2.px (some true)) t' >>= _) = _
        rw [j1, bind_ok]
        rfl
      · cases f1
    · subst e1
      cases hq
      rw [if_pos rfl] at h
      cases h
      refine ⟨s'.px (some true), t, ?_, Nat.le_refl _, by simp [GState.px]⟩
      rw [e2]
      rfl
    · refine ⟨{ s1.px (some true) with optreset := false, place := [] }, t, by rw [e2]; rfl, ?_⟩
      change EndsAt s1.optind r.2 r.1.1
      have hsk : skipOperandX { s1 with optreset := false, place := [] } =
          .ok ({ s1 with optreset := false, place := [], nonoptStart := some s1.optind, optind := s1.optind + 1 }, 0) := by
        unfold skipOperandX
        dsimp only
        rw [k5]
      obtain ⟨m1, -⟩ := skipOperandX_moved (k3.place [] false) rfl e1 hsk
      have hb : OpenFrom s1.optind 0 { s1 with optreset := false, place := [], nonoptStart := some s1.optind, optind := s1.optind + 1 } :=
        ⟨s1.optind, rfl, Nat.le_refl _, by simp⟩
      rcases scanStartX_behind _ _ _ _ (Nat.le_refl _) m1 hb e3 with ⟨s', e1, e2⟩ | ⟨s', e1, e2⟩
      · rcases scanStartX_moved _ _ _ _ (Nat.le_refl _) k3 k4 hx with ⟨s2, f1, f2, f3, -⟩ | ⟨s2, f1, -⟩
        · rw [e1] at f1
          cases f1
          rw [e1] at hq
          obtain ⟨p1, p2, -⟩ := rest_kept hf hff f2.len f3.1 hq
          rw [if_neg p1] at h
          obtain ⟨t', _, h⟩ := mbind_ok_inv h
          obtain ⟨u, hu, h⟩ := mbind_ok_inv h
          cases h
          have := taggedLoopX_behind ho hf hff hn _ _ _ _ _ (hm.resolve_left (fun hh => p1 hh.1)).2 (e2.kept p2) hu
          rwa [Nat.zero_add] at this
        · rw [e1] at f1; cases f1
      · rw [e1] at hq
        cases hq
        rw [if_pos rfl] at h
        cases h
        dsimp only at e2
        rw [Nat.zero_add] at e2
        exact e2

theorem taggedLoopX_fresh {env : Bool} {n : Nat} {so : CStr} {lo : List LongOpt} (ho : so.head? = some ':') {fuel : Nat} {s : GState}
    {t : Table σ} (hi : s.optind = 0) (p : Option Bool) : taggedLoopX env n so lo fuel (s.px p) t = taggedLoopX env n so lo fuel s t := by
  cases fuel with
  | zero => rfl
  | succ fuel =>
    rw [taggedLoopX, taggedLoopX, getoptX_outer ho hi, getoptX_outer (s := s.px p) ho hi]
    rfl

/-! ### reading with and without POSIXLY_CORRECT -/

theorem tokenize_all {ds : List Decl} : ∀ (m : Nat) (args : List CStr), args.length ≤ m → ∀ {evs : List Ev} {ops : List CStr},
    tokenize ds false args = some (evs, ops) → ops.length ≤ args.length ∧ (ops.length = args.length → evs = [] ∧ ops = args) := by
  intro m
  induction m with
  | zero =>
    intro args hm evs ops h
    obtain rfl := List.length_eq_zero_iff.1 (Nat.le_zero.1 hm)
    cases h
    simp
  | succ m ih =>
    intro args hm evs ops h
    cases args with
    | nil => cases h; simp
    | cons a rest =>
      rw [tokenize] at h
      simp only [List.length_cons] at hm ⊢
      split at h
      · cases h
        exact ⟨by omega, fun h => by omega⟩
      · split at h
        · rw [if_neg (by simp)] at h
          obtain ⟨⟨e, o⟩, h1, h⟩ := Option.map_eq_some_iff.1 h
          cases h
          obtain ⟨i1, i2⟩ := ih rest (by omega) h1
          refine ⟨by simp; omega, fun hl => ?_⟩
          obtain ⟨j1, j2⟩ := i2 (by simpa using hl)
          exact ⟨j1, by rw [j2]⟩
        · split at h
          · cases h
          · obtain ⟨⟨e, o⟩, h1, h⟩ := Option.map_eq_some_iff.1 h
            cases h
            obtain ⟨i1, -⟩ := ih rest (by omega) h1
            exact ⟨by omega, fun hl => by omega⟩
          · cases rest with
            | nil => cases h; simp
            | cons b rest =>
              dsimp only at h
              obtain ⟨⟨e, o⟩, h1, h⟩ := Option.map_eq_some_iff.1 h
              cases h
              simp only [List.length_cons] at hm ⊢
              obtain ⟨i1, -⟩ := ih rest (by omega) h1
              exact ⟨by omega, fun hl => by omega⟩

theorem tokenize_posix {ds : List Decl} : ∀ (m : Nat) (args : List CStr), args.length ≤ m → ∀ {evs : List Ev} {ops : List CStr},
    tokenize ds false args = some (evs, ops) → ∃ evs' ops', tokenize ds true args = some (evs', ops') ∧
      (ops'.length = ops.length → evs' = evs ∧ ops' = ops) := by
  intro m
  induction m with
  | zero =>
    intro args hm evs ops h
    obtain rfl := List.length_eq_zero_iff.1 (Nat.le_zero.1 hm)
    cases h
    exact ⟨_, _, rfl, fun _ => ⟨rfl, rfl⟩⟩
  | succ m ih =>
    intro args hm evs ops h
    cases args with
    | nil => cases h; exact ⟨_, _, rfl, fun _ => ⟨rfl, rfl⟩⟩
    | cons a rest =>
      rw [tokenize] at h
      rw [show tokenize ds true (a :: rest) = _ from tokenize.eq_2 ..]
      simp only [List.length_cons] at hm
      by_cases hd : a = ['-', '-']
      · rw [if_pos hd] at h
        cases h
        rw [if_pos hd]
        exact ⟨_, _, rfl, fun _ => ⟨rfl, rfl⟩⟩
      · rw [if_neg hd] at h
        rw [if_neg hd]
        by_cases hop : isOperand a = true
        · rw [if_pos hop, if_neg (by simp)] at h
          rw [if_pos hop, if_pos rfl]
          obtain ⟨⟨e, o⟩, h1, h⟩ := Option.map_eq_some_iff.1 h
          cases h
          refine ⟨_, _, rfl, fun hl => ?_⟩
          obtain ⟨j1, j2⟩ := (tokenize_all _ _ (Nat.le_refl _) h1).2 (by simpa using hl.symm)
          rw [j1, j2]
          exact ⟨rfl, rfl⟩
        · rw [if_neg hop] at h
          rw [if_neg hop]
          cases hr : readCluster ds a rest.head? a.tail with
          | none => rw [hr] at h; cases h
          | some p =>
            obtain ⟨e0, b⟩ := p
            rw [hr] at h
            cases b with
            | false =>
              dsimp only at h ⊢
              obtain ⟨⟨e, o⟩, h1, h⟩ := Option.map_eq_some_iff.1 h
              cases h
              obtain ⟨e', o', j1, j2⟩ := ih rest (by omega) h1
              refine ⟨e0 ++ e', o', by rw [j1]; rfl, fun hl => ?_⟩
              obtain ⟨j3, j4⟩ := j2 hl
              rw [j3, j4]
              exact ⟨rfl, rfl⟩
            | true =>
              cases rest with
              | nil => cases h; exact ⟨_, _, rfl, fun _ => ⟨rfl, rfl⟩⟩
              | cons c rest =>
                dsimp only at h ⊢
                simp only [List.length_cons] at hm
                obtain ⟨⟨e, o⟩, h1, h⟩ := Option.map_eq_some_iff.1 h
                cases h
                obtain ⟨e', o', j1, j2⟩ := ih rest (by omega) h1
                refine ⟨e0 ++ e', o', by rw [j1]; rfl, fun hl => ?_⟩
                obtain ⟨j3, j4⟩ := j2 hl
                rw [j3, j4]
                exact ⟨rfl, rfl⟩

/-- Where the operands begin in the end. -/
theorem parseTaggedX_optind {env : Bool} {f : Nat} {a0 : CStr} {args : List CStr} {g : GState} {t : Table σ} {a : (GState × Table σ) × Nat}
    (hwf : WF (t.entries.map declOf)) (hargs : CArgs args) {evs : List Ev} {ops : List CStr}
    (htok : tokenize (t.entries.map declOf) env args = some (evs, ops))
    (h : parseTaggedX env f (a0 :: args).length { g with nargv := a0 :: args } t = .ok a) : a.1.1.optind + ops.length = args.length + 1 := by
  obtain ⟨k, gf, ⟨X, hX1, hX2, hX3, -, hX5, -⟩, hrun⟩ := parseTagged_spec env a0 args hargs g t hwf htok
  have h5 := parseTaggedX_fst env (f + (k + 1)) (a0 :: args).length { g with nargv := a0 :: args } t
  rw [parseTaggedX_mono h, hrun f] at h5
  obtain ⟨t', _, h5⟩ := mbind_ok_inv h5.symm
  have h5 : gf = a.1.1 := by
    have : (gf, t') = a.1 := by injection h5
    rw [← this]
  subst h5
  have hl := hX5.length_eq
  rw [hX1] at hl
  simp only [List.length_append, List.length_cons] at hl
  omega

theorem argParseX_zero {f : Nat} {argv : List CStr} {t : Table σ} {g : GState} {r : (Nat × Table σ × GState) × Nat}
    (hwf : WF (t.entries.map declOf)) (hargs : CArgs argv.tail) (h : argParseX false f argv t g = .ok r)
    {evs : List Ev} {ops : List CStr} (htok : tokenize (t.entries.map declOf) false argv.tail = some (evs, ops)) :
    r.2 = 0 ↔ tokenize (t.entries.map declOf) true argv.tail = tokenize (t.entries.map declOf) false argv.tail := by
  rcases argParseX_inv h with ⟨rfl, h2⟩ | ⟨t0, a, h1, h2, h3, h4⟩
  · simp [h2, tokenize]
  · cases argv with
    | nil => exact absurd rfl h1
    | cons a0 args =>
      have hd := argReset_decls h2
      rw [← hd] at hwf htok ⊢
      obtain ⟨evs', ops', p1, p2⟩ := tokenize_posix _ _ (Nat.le_refl _) htok
      have q1 := parseTaggedX_optind hwf hargs htok h3
      have hf : ∀ o ∈ (longTable (t0.entries.map declOf) 0).map toLongOpt, o.flag = true := by
        intro o ho
        obtain ⟨l, _, rfl⟩ := List.mem_map.1 ho
        rfl
      have h3' := h3
      unfold parseTaggedX at h3'
      rw [allocLongoptions_ok _ hwf, allocShortoptions_ok] at h3'
      simp only [bind_ok] at h3'
      obtain ⟨gT, t', j1, j2, j3⟩ := taggedLoopX_two (n := (a0 :: args).length) rfl hf (letters_ok _ hwf) (by simp) _ _ _ _
        (.inr ⟨rfl, rfl⟩) h3'
      rw [taggedLoopX_fresh rfl rfl] at j1
      have j4 : parseTaggedX true f (a0 :: args).length { g with nargv := a0 :: args } t0 = .ok ((gT, t'), 0) := by
        unfold parseTaggedX
        rw [allocLongoptions_ok _ hwf, allocShortoptions_ok]
        simp only [bind_ok]
        exact j1
      have q2 := parseTaggedX_optind hwf hargs p1 j4
      rw [h4, j3]
      simp only [List.tail_cons] at htok p1 p2 ⊢
      rw [htok, p1]
      constructor
      · intro he
        obtain ⟨z1, z2⟩ := p2 (by dsimp only at q2; omega)
        rw [z1, z2]
      · intro he
        have : ops' = ops := by injection he with he; injection he
        rw [this] at q2
        dsimp only at q2
        omega

end Argtable
