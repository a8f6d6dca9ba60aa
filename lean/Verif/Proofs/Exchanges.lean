import Verif.Model.Exchanges
import Verif.Proofs.Permute
import Verif.Proofs.ParseSpec
import Verif.Proofs.Decode

/-!
# How many exchanges `arg_parse` makes: proofs
-/

namespace Argtable

open Spec

variable {α σ : Type}

/-! ### the other results are the same -/

theorem permInnerX_fst (e m o cs : Nat) : ∀ (k pos : Nat) (v : List α),
    (permInnerX e m o cs k pos v).map Prod.fst = permInner e m o cs k pos v := by
  intro k
  induction k with
  | zero => intro pos v; rfl
  | succ k ih =>
    intro pos v
    rw [permInnerX, permInner]
    cases swapAt v (if pos ≥ e then pos - m else pos + o) cs with
    | error x => rfl
    | ok v' =>
      rw [bind_ok, bind_ok, ← ih]
      cases permInnerX e m o cs k (if pos ≥ e then pos - m else pos + o) v' <;> rfl

theorem permOuterX_fst (e m o l : Nat) : ∀ (k i : Nat) (v : List α),
    (permOuterX e m o l k i v).map Prod.fst = permOuter e m o l k i v := by
  intro k
  induction k with
  | zero => intro i v; rfl
  | succ k ih =>
    intro i v
    rw [permOuterX, permOuter, ← permInnerX_fst]
    cases permInnerX e m o (e + i) l (e + i) v with
    | error x => rfl
    | ok a =>
      change (permOuterX e m o l k (i + 1) a.1 >>= _).map Prod.fst = permOuter e m o l k (i + 1) a.1
      rw [← ih]
      cases permOuterX e m o l k (i + 1) a.1 <;> rfl

theorem permuteArgsX_fst (b e o : Nat) (v : List α) : (permuteArgsX b e o v).map Prod.fst = permuteArgs b e o v := by
  unfold permuteArgsX permuteArgs
  dsimp only
  cases gcdLoop (e - b) (o - e) with
  | error x => rfl
  | ok n => exact permOuterX_fst _ _ _ _ _ _ _

theorem endOfArgsX_fst (s : GState) : (endOfArgsX s).map Prod.fst = endOfArgs s := by
  unfold endOfArgsX endOfArgs
  dsimp only
  cases s.nonoptEnd with
  | none => cases s.nonoptStart <;> rfl
  | some e =>
    cases s.nonoptStart with
    | none => rfl
    | some b =>
      dsimp only
      rw [← permuteArgsX_fst]
      cases permuteArgsX b e s.optind s.nargv <;> rfl

theorem skipOperandX_fst (s : GState) : (skipOperandX s).map Prod.fst = skipOperand s := by
  unfold skipOperandX skipOperand
  cases s.nonoptStart with
  | none => rfl
  | some b =>
    cases s.nonoptEnd with
    | none => rfl
    | some e =>
      dsimp only
      rw [← permuteArgsX_fst]
      cases permuteArgsX b e s.optind s.nargv <;> rfl

theorem foundDashDashX_fst (s : GState) : (foundDashDashX s).map Prod.fst = foundDashDash s := by
  unfold foundDashDashX foundDashDash
  dsimp only
  cases s.nonoptEnd with
  | none => rfl
  | some e =>
    cases s.nonoptStart with
    | none => rfl
    | some b =>
      dsimp only
      rw [← permuteArgsX_fst]
      cases permuteArgsX b e (s.optind + 1) s.nargv <;> rfl

theorem scanStartX_fst (n : Nat) (p a : Bool) : ∀ (m : Nat) (s : GState), n - s.optind ≤ m →
    (scanStartX n p a s).map Prod.fst = scanStart n p a s := by
  intro m
  induction m with
  | zero =>
    intro s hm
    rw [scanStartX, scanStart]
    split
    · rw [dif_pos (by omega), dif_pos (by omega), endOfArgsX_fst]
    · rfl
  | succ m ih =>
    intro s hm
    rw [scanStartX, scanStart]
    split
    · split
      · exact endOfArgsX_fst _
      · dsimp only
        cases s.nargv[s.optind]? with
        | none => rfl
        | some arg =>
          dsimp only
          split
          · split
            · rfl
            · split
              · rfl
              · have h0 := skipOperandX_fst { s with optreset := false, place := [] }
                split
                · next x hx =>
                  rw [hx] at h0
                  split
                  · next hy => rw [← h0] at hy; cases hy; rfl
                  · next hy => rw [← h0] at hy; cases hy
                · next r hx =>
                  rw [hx] at h0
                  have := skipOperandX_optind hx
                  dsimp only at this
                  have hi := ih r.1 (by omega)
                  cases hz : scanStartX n p a r.1 <;> rw [hz] at hi <;> dsimp only <;> split
                  all_goals next hy => first
                    | (rw [← h0] at hy; cases hy; done)
                    | (rw [← h0] at hy
                       obtain rfl : r.1 = _ := by injection hy
                       rw [← hi] <;> rfl)
          · split
            · exact foundDashDashX_fst _
            · rfl
    · rfl

theorem getoptInternal_rest (env : Bool) (n : Nat) (options : CStr) (longs : Option (List LongOpt)) (p l : Bool) (s0 : GState) :
    (getoptInternalX env n options longs p l s0).map Prod.fst = getoptInternal env n options longs p l s0 := by
  unfold getoptInternalX getoptInternal
  dsimp only
  rw [← scanStartX_fst n _ _ _ _ (Nat.le_refl _)]
  generalize scanStartX n _ _ _ = x
  cases x with
  | error e => rfl
  | ok a =>
    change (getoptRest n _ longs l a.1 >>= fun r => Except.ok (r, a.2)).map Prod.fst = getoptRest n _ longs l a.1
    generalize getoptRest n _ longs l a.1 = y
    cases y <;> rfl

theorem taggedLoopX_fst (env : Bool) (n : Nat) (so : CStr) (lo : List LongOpt) : ∀ (fuel : Nat) (g : GState) (t : Table σ),
    (taggedLoopX env n so lo fuel g t).map Prod.fst = taggedLoop env n so lo fuel g t := by
  intro fuel
  induction fuel with
  | zero => intro g t; rfl
  | succ fuel ih =>
    intro g t
    rw [taggedLoopX, taggedLoop, getoptLong, ← getoptInternal_rest]
    cases getoptInternalX env n so (some lo) true false g with
    | error e => rfl
    | ok a =>
      obtain ⟨⟨code, g'⟩, c⟩ := a
      change (if code = -1 then _ else _ : M ((GState × Table σ) × Nat)).map Prod.fst = if code = -1 then _ else _
      by_cases hc : code = -1
      · rw [if_pos hc, if_pos hc]; rfl
      · rw [if_neg hc, if_neg hc]
        dsimp only
        cases taggedBody code g' t with
        | error e => rfl
        | ok t' =>
          simp only [bind_ok]
          rw [← ih]
          cases taggedLoopX env n so lo fuel g' t' <;> rfl

theorem parseTaggedX_fst (env : Bool) (fuel n : Nat) (g : GState) (t : Table σ) :
    (parseTaggedX env fuel n g t).map Prod.fst = parseTagged env fuel n g t := by
  unfold parseTaggedX parseTagged
  cases allocLongoptions t.entries with
  | error e => rfl
  | ok lo =>
    cases allocShortoptions t.entries with
    | error e => rfl
    | ok so => exact taggedLoopX_fst _ _ _ _ _ _ _

theorem argParseX_fst (env : Bool) (fuel : Nat) (argv : List CStr) (t : Table σ) (g : GState) :
    (argParseX env fuel argv t g).map Prod.fst = argParse env fuel argv t g := by
  unfold argParseX argParse
  cases argReset t with
  | error e => rfl
  | ok t =>
    simp only [bind_ok]
    split
    · cases parseCheck t.entries 0 t.fin <;> rfl
    · rw [← parseTaggedX_fst]
      cases parseTaggedX env fuel argv.length { g with nargv := argv } t with
      | error e => rfl
      | ok a =>
        obtain ⟨⟨g', t'⟩, c⟩ := a
        simp only [bind_ok, Except.map]
        cases parseUntagged g'.nargv argv.length 0 g'.optind none t' with
        | error e => rfl
        | ok u =>
          obtain ⟨o, t2⟩ := u
          change (if t2.fin.count = 0 then _ else _ : M ((Nat × Table σ × GState) × Nat)).map Prod.fst =
            if t2.fin.count = 0 then _ else _
          by_cases hc : t2.fin.count = 0
          · rw [if_pos hc, if_pos hc]
            dsimp only
            cases parseCheck t2.entries 0 t2.fin <;> rfl
          · rw [if_neg hc, if_neg hc]; rfl

/-! ### the exchanges of one `permute_args` -/

theorem permInnerX_count {e m o cs : Nat} : ∀ {k pos : Nat} {v : List α} {r : List α × Nat},
    permInnerX e m o cs k pos v = .ok r → r.2 = k ∧ r.1.length = v.length := by
  intro k
  induction k with
  | zero => intro pos v r h; cases h; exact ⟨rfl, rfl⟩
  | succ k ih =>
    intro pos v r h
    rw [permInnerX] at h
    obtain ⟨v', h1, h⟩ := mbind_ok_inv h
    obtain ⟨a, h2, h⟩ := mbind_ok_inv h
    cases h
    obtain ⟨h3, h4⟩ := ih h2
    refine ⟨by simp [h3], h4.trans ?_⟩
    unfold swapAt at h1
    split at h1
    · cases h1; simp
    · cases h1

theorem permOuterX_count {e m o l : Nat} : ∀ {k i : Nat} {v : List α} {r : List α × Nat},
    permOuterX e m o l k i v = .ok r → r.2 = k * l ∧ r.1.length = v.length := by
  intro k
  induction k with
  | zero => intro i v r h; cases h; exact ⟨by simp, rfl⟩
  | succ k ih =>
    intro i v r h
    rw [permOuterX] at h
    obtain ⟨a, h1, h⟩ := mbind_ok_inv h
    obtain ⟨b, h2, h⟩ := mbind_ok_inv h
    cases h
    obtain ⟨h3, h4⟩ := ih h2
    obtain ⟨h5, h6⟩ := permInnerX_count h1
    exact ⟨by dsimp only; rw [h3, h5, Nat.add_mul]; omega, h4.trans h6⟩

theorem permuteArgsX_count {b e o : Nat} {v : List α} {r : List α × Nat} (hbe : b ≤ e) (heo : e ≤ o)
    (h : permuteArgsX b e o v = .ok r) : r.2 = o - b ∧ r.1.length = v.length := by
  unfold permuteArgsX at h
  obtain ⟨n, h1, h⟩ := mbind_ok_inv h
  obtain ⟨h2, h3⟩ := permOuterX_count h
  refine ⟨?_, h3⟩
  by_cases h0 : o - e = 0
  · rw [h0, gcdLoop, dif_pos rfl] at h1; cases h1
  · rw [gcdLoop_eq _ _ (by omega)] at h1
    cases h1
    rw [h2]
    refine Nat.mul_div_cancel' ?_
    have : o - b = (e - b) + (o - e) := by omega
    rw [this]
    exact Nat.dvd_add (Nat.gcd_dvd_left _ _) (Nat.gcd_dvd_right _ _)

/-! ### the exchanges of one run -/

/-- `1 + 2 + … + k`, twice. -/
def sq (k : Nat) : Nat := k * (k + 1)

theorem sq_succ (k : Nat) : sq (k + 1) = sq k + 2 * (k + 1) := by unfold sq; ring

theorem sq_pred {k : Nat} (h : 1 ≤ k) : sq k = sq (k - 1) + 2 * k := by
  obtain ⟨j, rfl⟩ : ∃ j, k = j + 1 := ⟨k - 1, by omega⟩
  rw [sq_succ]; rfl

theorem sq_mono {a b : Nat} (h : a ≤ b) : sq a ≤ sq b := Nat.mul_le_mul h (by omega)

/-- So many exchanges have been made, and the operands skipped so far are where they are. -/
structure Moved (env : Bool) (n c : Nat) (s : GState) : Prop where
  len : s.nargv.length = n
  pos : 1 ≤ s.optind
  le : s.optind ≤ n
  mode : env = true → s.nonoptStart = none
  free : s.nonoptStart = none → s.nonoptEnd = none ∧ c = 0
  opn : ∀ b, s.nonoptStart = some b → s.nonoptEnd = none →
    1 ≤ b ∧ b < s.optind ∧ 2 * c ≤ sq (s.optind - b - 1) + 2 * (b - 1)
  cls : ∀ b e, s.nonoptStart = some b → s.nonoptEnd = some e →
    1 ≤ b ∧ b < e ∧ e ≤ s.optind ∧ 2 * c ≤ sq (e - b - 1) + 2 * (b - 1)

/-- Whether an argument is being read. -/
def Reading (n : Nat) (s : GState) : Prop := s.optind < n ∧ (s.nonoptStart = none ∨ s.nonoptEnd ≠ none)

theorem skipOperandX_moved {env : Bool} {n c : Nat} {s : GState} {r : GState × Nat} (h : Moved env n c s) (he : env = false)
    (hlt : s.optind < n) (hr : skipOperandX s = .ok r) :
    Moved env n (c + r.2) r.1 ∧ r.1.place = s.place ∧ r.1.optreset = s.optreset ∧ r.1.posixly = s.posixly := by
  subst he
  unfold skipOperandX at hr
  split at hr
  · next h1 =>
    cases hr
    obtain ⟨h2, h3⟩ := h.free h1
    refine ⟨⟨h.len, by simp, hlt, by simp, by simp, ?_, ?_⟩, rfl, rfl, rfl⟩
    · intro b hb he
      cases hb
      exact ⟨h.pos, by simp, by simp [h3]⟩
    · intro b e hb he
      rw [show _ = none from h2] at he; cases he
  · next b e h1 h2 =>
    obtain ⟨a, h3, hr⟩ := mbind_ok_inv hr
    cases hr
    obtain ⟨p1, p2, p3, p4⟩ := h.cls b e h1 h2
    obtain ⟨q1, q2⟩ := permuteArgsX_count (by omega) p3 h3
    refine ⟨⟨q2.trans h.len, by simp, hlt, by simp, by simp, ?_, ?_⟩, rfl, rfl, rfl⟩
    · intro b' hb _
      cases hb
      refine ⟨by omega, by dsimp only; omega, ?_⟩
      dsimp only
      rw [show s.optind + 1 - (s.optind - (e - b)) - 1 = e - b by omega, sq_pred (by omega), q1]
      omega
    · intro b' e' _ he; cases he
  · next b h1 h2 =>
    cases hr
    obtain ⟨p1, p2, p3⟩ := h.opn b h1 h2
    refine ⟨⟨h.len, by simp, hlt, by simp, fun hb => ?_, ?_, ?_⟩, rfl, rfl, rfl⟩
    · rw [show _ = some b from h1] at hb; cases hb
    · intro b' hb _
      obtain rfl : b = b' := by rw [show _ = some b from h1] at hb; injection hb
      refine ⟨p1, by dsimp only; omega, ?_⟩
      have := sq_mono (show s.optind - b - 1 ≤ s.optind + 1 - b - 1 by omega)
      dsimp only
      omega
    · intro b' e' _ he
      rw [show _ = none from h2] at he; cases he

/-- The bound at the end. -/
def Bounded (env : Bool) (n c : Nat) (s : GState) : Prop :=
  1 ≤ s.optind ∧ s.optind ≤ n ∧ s.nargv.length = n ∧ (env = true ∨ s.optind = n → c = 0) ∧ 2 * c ≤ sq (n - s.optind) + 2 * (s.optind - 1)

theorem endOfArgsX_moved {env : Bool} {n c : Nat} {s : GState} {r : Start × Nat} (h : Moved env n c s) (hge : n ≤ s.optind)
    (hr : endOfArgsX s = .ok r) : ∃ s', r.1 = .ret (-1) s' ∧ Bounded env n (c + r.2) s' := by
  have hn : s.optind = n := Nat.le_antisymm h.le hge
  unfold endOfArgsX at hr
  dsimp only at hr
  split at hr
  · next e h2 =>
    cases h1 : s.nonoptStart with
    | none => rw [h1] at hr; cases hr
    | some b =>
      rw [h1] at hr
      obtain ⟨a, h3, hr⟩ := mbind_ok_inv hr
      cases hr
      obtain ⟨p1, p2, p3, p4⟩ := h.cls b e h1 h2
      obtain ⟨q1, q2⟩ := permuteArgsX_count (by omega) p3 h3
      refine ⟨_, rfl, by dsimp only; omega, by dsimp only; omega, q2.trans h.len, fun he => (by
      rcases he with he | he
      · have := h.mode he; rw [h1] at this; cases this
      · dsimp only at he; omega), ?_⟩
      dsimp only
      rw [show n - (s.optind - (e - b)) = e - b by omega, sq_pred (by omega), q1]
      omega
  · next b h1 h2 =>
    cases hr
    obtain ⟨p1, p2, p3⟩ := h.opn b h2 h1
    refine ⟨_, rfl, p1, by dsimp only; omega, h.len, fun he => (by
      rcases he with he | he
      · have := h.mode he; rw [h2] at this; cases this
      · dsimp only at he; omega), ?_⟩
    have := sq_mono (show s.optind - b - 1 ≤ n - b by omega)
    dsimp only
    omega
  · next h1 h2 =>
    cases hr
    obtain ⟨_, p⟩ := h.free h2
    exact ⟨_, rfl, h.pos, h.le, h.len, fun _ => (by simp [p]), by simp [p]⟩

theorem foundDashDashX_moved {env : Bool} {n c : Nat} {s : GState} {r : Start × Nat} (h : Moved env n c s) (hlt : Reading n s)
    (hr : foundDashDashX s = .ok r) : ∃ s', r.1 = .ret (-1) s' ∧ Bounded env n (c + r.2) s' := by
  obtain ⟨hlt, hz⟩ := hlt
  unfold foundDashDashX at hr
  dsimp only at hr
  split at hr
  · next e b h2 h1 =>
    obtain ⟨a, h3, hr⟩ := mbind_ok_inv hr
    cases hr
    obtain ⟨p1, p2, p3, p4⟩ := h.cls b e h1 h2
    obtain ⟨q1, q2⟩ := permuteArgsX_count (by omega) (by omega) h3
    refine ⟨_, rfl, by dsimp only; omega, by dsimp only; omega, q2.trans h.len, fun he => (by
      rcases he with he | he
      · have := h.mode he; rw [h1] at this; cases this
      · dsimp only at he; omega), ?_⟩
    have := sq_mono (show e - b ≤ n - (s.optind + 1 - (e - b)) by omega)
    rw [sq_pred (show 1 ≤ e - b by omega)] at this
    dsimp only
    omega
  · cases hr
  · next h1 =>
    cases hr
    have h2 : s.nonoptStart = none := hz.resolve_right (fun hn => hn h1)
    obtain ⟨_, p⟩ := h.free h2
    exact ⟨_, rfl, by simp, by dsimp only; omega, h.len, fun _ => (by simp [p]), by simp [p]⟩

theorem Moved.place {env : Bool} {n c : Nat} {s : GState} (h : Moved env n c s) (p : CStr) (r : Bool) :
    Moved env n c { s with place := p, optreset := r } := ⟨h.len, h.pos, h.le, h.mode, h.free, h.opn, h.cls⟩

theorem scanStartX_moved {env : Bool} {n : Nat} : ∀ (m : Nat) (c : Nat) (s : GState) (r : Start × Nat), n - s.optind ≤ m →
    Moved env n c s → (s.optreset = false → s.place ≠ [] → Reading n s) →
    scanStartX n (!env) false s = .ok r →
    (∃ s', r.1 = .go s' ∧ Moved env n (c + r.2) s' ∧ Reading n s' ∧ s'.optreset = false ∧ s'.posixly = s.posixly) ∨
    (∃ s', r.1 = .ret (-1) s' ∧ Bounded env n (c + r.2) s') := by
  intro m
  induction m with
  | zero =>
    intro c s r hm h hp hr
    rw [scanStartX] at hr
    split at hr
    · rw [dif_pos (by omega)] at hr
      exact .inr (endOfArgsX_moved (h.place s.place false) (by simpa using (by omega : n ≤ s.optind)) hr)
    · next hc =>
      cases hr
      simp only [Bool.or_eq_true, not_or, Bool.not_eq_true] at hc
      have := hp hc.1 (by intro hh; simp [hh] at hc)
      exact .inl ⟨s, rfl, h, this, hc.1, rfl⟩
  | succ m ih =>
    intro c s r hm h hp hr
    rw [scanStartX] at hr
    split at hr
    · split at hr
      · next hge => exact .inr (endOfArgsX_moved (h.place s.place false) hge hr)
      · next hge =>
        dsimp only at hr
        split at hr
        · cases hr
        · next arg _ =>
          split at hr
          · rw [if_neg (by simp)] at hr
            split at hr
            · next he =>
              cases hr
              have he : env = true := by simpa using he
              obtain ⟨_, p⟩ := h.free (h.mode he)
              exact .inr ⟨_, rfl, h.pos, h.le, h.len, fun _ => (by simp [p]), by simp [p]⟩
            · next he =>
              have he : env = false := by simpa using he
              split at hr
              · cases hr
              · next a ha =>
                have h1 := skipOperandX_optind ha
                obtain ⟨m1, m2, m3, m4⟩ := skipOperandX_moved (h.place [] false) he (by simpa using (by omega : s.optind < n)) ha
                dsimp only at h1 m2 m3 m4
                split at hr
                · cases hr
                · next q hq =>
                  cases hr
                  have := ih (c + a.2) a.1 q (by omega) m1 (fun _ hn => absurd m2 hn) hq
                  rw [Nat.add_assoc, m4] at this
                  exact this
          · next hop =>
            have hgo : Moved env n c { (if s.nonoptStart.isSome && s.nonoptEnd.isNone
                  then { s with optreset := false, nonoptEnd := some s.optind } else { s with optreset := false } : GState) with place := arg.tail } ∧
                Reading n { (if s.nonoptStart.isSome && s.nonoptEnd.isNone
                  then { s with optreset := false, nonoptEnd := some s.optind } else { s with optreset := false } : GState) with place := arg.tail } := by
              split
              · next hc =>
                simp only [Bool.and_eq_true, Option.isSome_iff_exists, Option.isNone_iff_eq_none] at hc
                obtain ⟨⟨b, hb⟩, he⟩ := hc
                obtain ⟨p1, p2, p3⟩ := h.opn b hb he
                refine ⟨⟨h.len, h.pos, h.le, h.mode, ?_, ?_, ?_⟩, by dsimp only; omega, .inr (by simp)⟩
                · intro hn; rw [show _ = some b from hb] at hn; cases hn
                · intro b' _ hn; cases hn
                · intro b' e' hb' he'
                  obtain rfl : b = b' := by rw [show _ = some b from hb] at hb'; injection hb'
                  cases he'
                  exact ⟨p1, p2, Nat.le_refl _, p3⟩
              · next hc =>
                refine ⟨h.place _ _, by dsimp only; omega, ?_⟩
                dsimp only
                cases hb : s.nonoptStart with
                | none => exact .inl rfl
                | some b =>
                  refine .inr fun hn => hc ?_
                  rw [hb, hn]; rfl
            split at hr
            · exact .inr (foundDashDashX_moved hgo.1 hgo.2 hr)
            · cases hr
              exact .inl ⟨_, rfl, hgo.1, hgo.2, by dsimp only; split <;> rfl, by dsimp only; split <;> rfl⟩
    · next hc =>
      cases hr
      simp only [Bool.or_eq_true, not_or, Bool.not_eq_true] at hc
      have := hp hc.1 (by intro hh; simp [hh] at hc)
      exact .inl ⟨s, rfl, h, this, hc.1, rfl⟩

/-! ### the rest of `getopt_long` makes no exchanges -/

theorem matchLoop_from (cur : CStr) (len : Nat) (st only : Bool) : ∀ (ls : List LongOpt) (m : Option LongOpt) (sec : Bool) (o : LongOpt),
    (matchLoop cur len st only ls m sec).mtch = some o → m = some o ∨ o ∈ ls := by
  intro ls
  induction ls with
  | nil => intro m sec o h; exact .inl h
  | cons x ls ih =>
    intro m sec o h
    rw [matchLoop.eq_def] at h
    dsimp only at h
    split at h
    · exact (ih _ _ _ h).imp id (List.mem_cons_of_mem _)
    · split at h
      · cases h; exact .inr (List.mem_cons_self ..)
      · split at h
        · exact (ih _ _ _ h).imp id (List.mem_cons_of_mem _)
        · split at h
          · rcases ih _ _ _ h with h | h
            · cases h; exact .inr (List.mem_cons_self ..)
            · exact .inr (List.mem_cons_of_mem _ h)
          · split at h <;> exact (ih _ _ _ h).imp id (List.mem_cons_of_mem _)

/-- What reading an option leaves alone. -/
structure KeptBy (n : Nat) (s s' : GState) : Prop where
  argv : s'.nargv = s.nargv
  start : s'.nonoptStart = s.nonoptStart
  stop : s'.nonoptEnd = s.nonoptEnd
  reset : s'.optreset = s.optreset
  mode : s'.posixly = s.posixly
  ge : s.optind ≤ s'.optind
  le : s'.optind ≤ n

theorem KeptBy.warn {n : Nat} {s s' : GState} (h : KeptBy n s s') (options msg : CStr) : KeptBy n s (warn options msg s') := by
  unfold Argtable.warn
  split
  · exact ⟨h.argv, h.start, h.stop, h.reset, h.mode, h.ge, h.le⟩
  · exact h

theorem KeptBy.opt {n : Nat} {s s' : GState} (h : KeptBy n s s') (o : Int) : KeptBy n s { s' with optopt := o } :=
  ⟨h.argv, h.start, h.stop, h.reset, h.mode, h.ge, h.le⟩

theorem KeptBy.placed {n : Nat} {s s' : GState} (h : KeptBy n s s') (p : CStr) : KeptBy n s { s' with place := p } :=
  ⟨h.argv, h.start, h.stop, h.reset, h.mode, h.ge, h.le⟩

theorem KeptBy.from {n : Nat} {s s' : GState} {p : CStr} (h : KeptBy n { s with place := p } s') : KeptBy n s s' :=
  ⟨h.argv, h.start, h.stop, h.reset, h.mode, h.ge, h.le⟩

theorem badchX_ne : BADCH ≠ -1 := by decide

theorem badargX_ne (options : CStr) : BADARG options ≠ -1 := by unfold BADARG; split <;> decide

theorem parseLong_kept {options : CStr} {ls : List LongOpt} {lo : Bool} {dash : CStr} {s : GState} {r : Int × GState} {n : Nat}
    (hf : ∀ o ∈ ls, o.flag = true) (hl : s.nargv.length = n) (hlt : s.optind < n)
    (h : parseLongOptions options ls false lo dash s = .ok r) : r.1 ≠ -1 ∧ KeptBy n s r.2 := by
  have k1 : KeptBy n s { s with optind := s.optind + 1 } := ⟨rfl, rfl, rfl, rfl, rfl, by simp, hlt⟩
  unfold parseLongOptions at h
  dsimp only at h
  split at h
  · cases h; exact ⟨badchX_ne, (k1.warn _ _).opt _⟩
  · split at h
    · next o ho =>
      have hfl : o.flag = true := hf o ((matchLoop_from _ _ _ _ _ _ _ _ ho).resolve_left (by simp))
      split at h
      · cases h; exact ⟨badchX_ne, (k1.warn _ _).opt _⟩
      · obtain ⟨s2, h2, h⟩ := mbind_ok_inv h
        have k2 : KeptBy (n + 1) s s2 ∧ (s2.optarg ≠ none ∨ o.hasArg ≠ 1 → s2.optind ≤ n) ∧ s.optind + 1 ≤ s2.optind := by
          unfold fetchLongArg at h2
          split at h2
          · split at h2
            · cases h2; exact ⟨⟨rfl, rfl, rfl, rfl, rfl, by simp, by dsimp only; omega⟩, fun _ => hlt, Nat.le_refl _⟩
            · split at h2
              · next h1 =>
                obtain ⟨v, hv, h2⟩ := mbind_ok_inv h2
                cases h2
                refine ⟨⟨rfl, rfl, rfl, rfl, rfl, by dsimp only; omega, by dsimp only; omega⟩, fun hh => ?_, by dsimp only; omega⟩
                have hh := hh.resolve_right (fun hn => hn h1)
                dsimp only at hh ⊢
                unfold argvAt at hv
                split at hv
                · dsimp only at *; omega
                · split at hv
                  · cases hv; exact absurd rfl hh
                  · cases hv
              · cases h2; exact ⟨⟨rfl, rfl, rfl, rfl, rfl, by simp, by dsimp only; omega⟩, fun _ => hlt, Nat.le_refl _⟩
          · cases h2; exact ⟨⟨rfl, rfl, rfl, rfl, rfl, by simp, by dsimp only; omega⟩, fun _ => hlt, Nat.le_refl _⟩
        obtain ⟨k2, k3, k4⟩ := k2
        split at h
        · cases h
          refine ⟨badargX_ne _, ?_⟩
          have k5 := k2.warn options (recargstring dash s.place)
          have := k2.le
          exact ⟨k5.argv, k5.start, k5.stop, k5.reset, k5.mode, by dsimp only; omega, by dsimp only; omega⟩
        · next hn =>
          try rw [if_pos hfl] at h
          cases h
          refine ⟨(show (0 : Int) ≠ -1 by decide), ⟨k2.argv, k2.start, k2.stop, k2.reset, k2.mode, k2.ge, k3 ?_⟩⟩
          by_cases h1 : o.hasArg = 1
          · exact .inl fun h0 => hn ⟨h1, h0⟩
          · exact .inr h1
    · rw [if_neg (by simp)] at h
      cases h; exact ⟨badchX_ne, (k1.warn _ _).opt _⟩

theorem shortPart_kept {options : CStr} {ls : List LongOpt} {s : GState} {r : Int × GState} {n : Nat}
    (hf : ∀ o ∈ ls, o.flag = true) (hff : '\xff' ∉ options) (hd : s.place.head? ≠ some '-') (hl : s.nargv.length = n) (hlt : s.optind < n)
    (h : shortPart n options (some ls) false s = .ok r) : r.1 ≠ -1 ∧ KeptBy n s r.2 ∧ (r.2.place ≠ [] → r.2.optind < n) := by
  unfold shortPart at h
  split at h
  · cases h
  · next c place hp =>
    have hc : c ≠ '-' := fun hc => hd (by rw [hp, hc]; rfl)
    have k0 : KeptBy n s { s with place := place } := ⟨rfl, rfl, rfl, rfl, rfl, Nat.le_refl _, hlt.le⟩
    have k1 : ∀ p, KeptBy n s { s with place := p, optind := s.optind + 1 } := fun p => ⟨rfl, rfl, rfl, rfl, rfl, by simp, hlt⟩
    dsimp only at h
    split at h
    · rw [if_neg (fun hh => hc hh.1)] at h
      cases h
      refine ⟨badchX_ne, ?_⟩
      split
      · next h0 =>
        refine ⟨((k1 place).warn _ _).opt _, fun hn => absurd ?_ hn⟩
        dsimp only
        unfold Argtable.warn
        split <;> exact h0
      · refine ⟨(k0.warn _ _).opt _, fun _ => ?_⟩
        dsimp only
        unfold Argtable.warn
        split <;> exact hlt
    · next oli ho =>
      have hm : c ∈ options := by
        split at ho
        · cases ho
        · rw [strchr_eq] at ho
          split at ho
          · assumption
          · cases ho
      have hcode : charInt c ≠ -1 := charInt_ne (d := '\xff') (fun h => hff (h ▸ hm))
      split at h
      · split at h
        · obtain ⟨a, ha, h⟩ := mbind_ok_inv h
          cases h
          obtain ⟨q1, q2⟩ := parseLong_kept (s := { s with place := place }) hf hl hlt ha
          exact ⟨q1, q2.from.placed _, fun hn => absurd rfl hn⟩
        · split at h
          · cases h
            refine ⟨badargX_ne _, ((k1 []).warn _ _).opt _, fun hn => absurd ?_ hn⟩
            dsimp only
            unfold Argtable.warn
            split <;> rfl
          · next hge =>
            obtain ⟨v, hv, h⟩ := mbind_ok_inv h
            split at h
            · cases h
            · obtain ⟨a, ha, h⟩ := mbind_ok_inv h
              cases h
              obtain ⟨q1, q2⟩ := parseLong_kept (s := { s with place := _, optind := s.optind + 1 }) hf hl (by dsimp only at hge ⊢; omega) ha
              have := q2.ge
              exact ⟨q1, ⟨q2.argv, q2.start, q2.stop, q2.reset, q2.mode, by dsimp only at this ⊢; omega, q2.le⟩, fun hn => absurd rfl hn⟩
      · split at h
        · cases h
          refine ⟨hcode, ?_⟩
          dsimp only
          split
          · next h0 => exact ⟨k1 _, fun hn => absurd h0 hn⟩
          · exact ⟨k0, fun _ => hlt⟩
        · split at h
          · cases h
            exact ⟨hcode, ⟨rfl, rfl, rfl, rfl, rfl, by simp, hlt⟩, fun hn => absurd rfl hn⟩
          · split at h
            · split at h
              · cases h
                refine ⟨badargX_ne _, KeptBy.opt (KeptBy.warn (s := s) (s' := { s with place := [], optarg := none, optind := s.optind + 1 }) ⟨rfl, rfl, rfl, rfl, rfl, by simp, hlt⟩ _ _) _, fun hn => absurd ?_ hn⟩
                dsimp only
                unfold Argtable.warn
                split <;> rfl
              · next hge =>
                obtain ⟨v, hv, h⟩ := mbind_ok_inv h
                cases h
                exact ⟨hcode, ⟨rfl, rfl, rfl, rfl, rfl, by dsimp only; omega, by dsimp only at hge ⊢; omega⟩, fun hn => absurd rfl hn⟩
            · cases h
              exact ⟨hcode, ⟨rfl, rfl, rfl, rfl, rfl, by simp, hlt⟩, fun hn => absurd rfl hn⟩

theorem rest_kept {options : CStr} {ls : List LongOpt} {s : GState} {r : Int × GState} {n : Nat}
    (hf : ∀ o ∈ ls, o.flag = true) (hff : '\xff' ∉ options) (hl : s.nargv.length = n) (hlt : s.optind < n)
    (h : getoptRest n options (some ls) false (.go s) = .ok r) : r.1 ≠ -1 ∧ KeptBy n s r.2 ∧ (r.2.place ≠ [] → r.2.optind < n) := by
  unfold getoptRest at h
  dsimp only at h
  split at h
  · split at h
    · next h0 =>
      cases h
      exact ⟨badargX_ne _, ⟨rfl, rfl, rfl, rfl, rfl, Nat.le_refl _, hlt.le⟩, fun _ => hlt⟩
    · obtain ⟨a, ha, h⟩ := mbind_ok_inv h
      obtain ⟨q1, q2⟩ := parseLong_kept (s := { s with place := s.place.tail }) hf hl hlt ha
      rw [if_pos q1] at h
      cases h
      exact ⟨q1, q2.from.placed _, fun hn => absurd rfl hn⟩
  · next hd =>
    rw [if_neg (by simp)] at h
    exact shortPart_kept hf hff hd hl hlt h

theorem Moved.kept {env : Bool} {n c : Nat} {s s' : GState} (h : Moved env n c s) (hr : Reading n s) (hk : KeptBy n s s') :
    Moved env n c s' where
  len := by rw [hk.argv, h.len]
  pos := h.pos.trans hk.ge
  le := hk.le
  mode := fun he => by rw [hk.start, h.mode he]
  free := fun h0 => by rw [hk.stop]; rw [hk.start] at h0; exact h.free h0
  opn := fun b hb he => by
    rw [hk.start] at hb; rw [hk.stop] at he
    exact absurd he (hr.2.resolve_left (by rw [hb]; simp))
  cls := fun b e hb he => by
    rw [hk.start] at hb; rw [hk.stop] at he
    obtain ⟨p1, p2, p3, p4⟩ := h.cls b e hb he
    exact ⟨p1, p2, p3.trans hk.ge, p4⟩

/-- Between two calls of `getopt_long`. -/
structure MovedTo (env : Bool) (n c : Nat) (s : GState) : Prop extends Moved env n c s where
  reset : s.optreset = false
  posix : s.posixly = some env
  inside : s.place ≠ [] → Reading n s

theorem getopt_moved {env : Bool} {n c : Nat} {options : CStr} {ls : List LongOpt} {s : GState} {r : (Int × GState) × Nat}
    (ho : options.head? = some ':') (hf : ∀ o ∈ ls, o.flag = true) (hff : '\xff' ∉ options) (hn : 1 ≤ n)
    (hs : MovedTo env n c s ∨ s.optind = 0 ∧ c = 0 ∧ s.nargv.length = n)
    (h : getoptInternalX env n options (some ls) true false s = .ok r) :
    (r.1.1 = -1 ∧ Bounded env n (c + r.2) r.1.2) ∨ (r.1.1 ≠ -1 ∧ MovedTo env n (c + r.2) r.1.2) := by
  unfold getoptInternalX at h
  dsimp only at h
  obtain ⟨a, ha, h⟩ := mbind_ok_inv h
  obtain ⟨q, hq, h⟩ := mbind_ok_inv h
  cases h
  dsimp only
  rw [ho] at ha hq
  have hopt : (if some ':' = some '+' ∨ some ':' = some '-' then options.tail else options) = options := if_neg (by decide)
  rw [hopt] at hq
  have key : ∃ s1, scanStartX n (!env) false s1 = .ok a ∧ Moved env n c s1 ∧
      (s1.optreset = false → s1.place ≠ [] → Reading n s1) ∧ s1.posixly = some env := by
    rcases hs with hs | ⟨h0, hc, hlen⟩
    · have hpos := hs.pos
      have h1 : ¬ s.optind = 0 := by omega
      simp only [if_neg h1, hs.reset, hs.posix] at ha
      refine ⟨{ s with posixly := some env, optarg := none }, ?_, ⟨hs.len, hs.pos, hs.le, hs.mode, hs.free, hs.opn, hs.cls⟩, ?_, rfl⟩
      · rw [← ha]
        congr 1
        · cases env <;> simp
        · simp [hs.reset]
      · intro _ hp
        exact hs.inside hp
    · simp only [if_pos h0] at ha
      refine ⟨{ s with optind := 1, optreset := true, posixly := some env, optarg := none, nonoptStart := none, nonoptEnd := none }, ?_,
        ⟨hlen, Nat.le_refl _, hn, fun _ => rfl, fun _ => ⟨rfl, hc⟩, fun b hb => (by cases hb), fun b e hb => (by cases hb)⟩,
        fun hh => (by cases hh), rfl⟩
      rw [← ha]
      congr 1
      · cases env <;> simp
      · simp
  obtain ⟨s1, k1, k2, k3, k4⟩ := key
  rcases scanStartX_moved _ _ _ _ (Nat.le_refl _) k2 k3 k1 with ⟨s', e1, e2, e3, e4, e5⟩ | ⟨s', e1, e2⟩
  · rw [e1] at hq
    obtain ⟨p1, p2, p3⟩ := rest_kept hf hff e2.len e3.1 hq
    refine .inr ⟨p1, { e2.kept e3 p2 with reset := by rw [p2.reset, e4], posix := by rw [p2.mode, e5, k4], inside := fun hn => ⟨p3 hn, ?_⟩ }⟩
    rw [p2.start, p2.stop]; exact e3.2
  · rw [e1] at hq
    cases hq
    exact .inl ⟨rfl, e2⟩

theorem taggedLoopX_bounded {env : Bool} {n : Nat} {so : CStr} {lo : List LongOpt} (ho : so.head? = some ':')
    (hf : ∀ o ∈ lo, o.flag = true) (hff : '\xff' ∉ so) (hn : 1 ≤ n) : ∀ (fuel c : Nat) (s : GState) (t : Table σ) (r : (GState × Table σ) × Nat),
    (MovedTo env n c s ∨ s.optind = 0 ∧ c = 0 ∧ s.nargv.length = n) →
    taggedLoopX env n so lo fuel s t = .ok r → Bounded env n (c + r.2) r.1.1 := by
  intro fuel
  induction fuel with
  | zero => intro c s t r _ h; cases h
  | succ fuel ih =>
    intro c s t r hs h
    rw [taggedLoopX] at h
    obtain ⟨a, ha, h⟩ := mbind_ok_inv h
    rcases getopt_moved ho hf hff hn hs ha with ⟨p1, p2⟩ | ⟨p1, p2⟩
    · rw [if_pos p1] at h
      cases h
      exact p2
    · rw [if_neg p1] at h
      obtain ⟨t', _, h⟩ := mbind_ok_inv h
      obtain ⟨q, hq, h⟩ := mbind_ok_inv h
      cases h
      have := ih _ _ _ _ (.inl p2) hq
      rwa [Nat.add_assoc] at this

theorem letters_ok (es : List (Hdr σ)) (hwf : WF (es.map declOf)) : '\xff' ∉ (':' :: es.flatMap shortChars) := by
  intro h
  have h := (List.mem_cons.1 h).resolve_left (by decide)
  have hl := (sopts_ok es hwf).look '\xff' (by decide)
  cases hs : shortLookup '\xff' (es.map declOf) 0 with
  | none => rw [hs] at hl; dsimp only at hl; rw [strchr_eq, if_pos h] at hl; cases hl
  | some p => exact (shortLookup_wf hwf hs).2.2.2.2 rfl

theorem parseTaggedX_bounded {env : Bool} {fuel n : Nat} {g : GState} {t : Table σ} {r : (GState × Table σ) × Nat}
    (hwf : WF (t.entries.map declOf)) (hn : 1 ≤ n) (hl : g.nargv.length = n) (h : parseTaggedX env fuel n g t = .ok r) :
    Bounded env n r.2 r.1.1 := by
  unfold parseTaggedX at h
  rw [allocLongoptions_ok _ hwf, allocShortoptions_ok] at h
  simp only [bind_ok] at h
  have hf : ∀ o ∈ (longTable (t.entries.map declOf) 0).map toLongOpt, o.flag = true := by
    intro o ho
    obtain ⟨l, _, rfl⟩ := List.mem_map.1 ho
    rfl
  have := taggedLoopX_bounded rfl hf (letters_ok _ hwf) hn fuel 0 { g with optind := 0, opterr := false } _ _
    (.inr ⟨rfl, rfl, hl⟩) h
  simpa using this

/-! ### one number of exchanges -/

theorem taggedLoopX_mono {env : Bool} {n : Nat} {so : CStr} {lo : List LongOpt} : ∀ (f k : Nat) {g : GState} {t : Table σ}
    {r : (GState × Table σ) × Nat}, taggedLoopX env n so lo f g t = .ok r → taggedLoopX env n so lo (f + k) g t = .ok r := by
  intro f
  induction f with
  | zero => intro k g t r h; cases h
  | succ f ih =>
    intro k g t r h
    rw [show f + 1 + k = (f + k) + 1 by omega, taggedLoopX]
    rw [taggedLoopX] at h
    obtain ⟨a, ha, h⟩ := mbind_ok_inv h
    rw [ha, bind_ok]
    by_cases hc : a.1.1 = -1
    · rw [if_pos hc] at h ⊢; exact h
    · rw [if_neg hc] at h ⊢
      obtain ⟨t', ht, h⟩ := mbind_ok_inv h
      obtain ⟨q, hq, h⟩ := mbind_ok_inv h
      rw [ht, bind_ok, ih k hq, bind_ok]; exact h

theorem parseTaggedX_mono {env : Bool} {f k n : Nat} {g : GState} {t : Table σ} {r : (GState × Table σ) × Nat}
    (h : parseTaggedX env f n g t = .ok r) : parseTaggedX env (f + k) n g t = .ok r := by
  unfold parseTaggedX at h ⊢
  obtain ⟨lo, h1, h⟩ := mbind_ok_inv h
  obtain ⟨so, h2, h⟩ := mbind_ok_inv h
  rw [h1, bind_ok, h2, bind_ok]
  exact taggedLoopX_mono _ _ h

theorem argParseX_inv {env : Bool} {f : Nat} {argv : List CStr} {t : Table σ} {g : GState} {r : (Nat × Table σ × GState) × Nat}
    (h : argParseX env f argv t g = .ok r) : (argv = [] ∧ r.2 = 0) ∨
      ∃ t0 a, argv ≠ [] ∧ argReset t = .ok t0 ∧ parseTaggedX env f argv.length { g with nargv := argv } t0 = .ok a ∧ r.2 = a.2 := by
  unfold argParseX at h
  obtain ⟨t0, h0, h⟩ := mbind_ok_inv h
  split at h
  · next hn =>
    obtain ⟨e, _, h⟩ := mbind_ok_inv h
    cases h
    exact .inl ⟨List.length_eq_zero_iff.1 hn, rfl⟩
  · next hn =>
    obtain ⟨a, ha, h⟩ := mbind_ok_inv h
    obtain ⟨u, _, h⟩ := mbind_ok_inv h
    refine .inr ⟨t0, a, fun h => hn (by rw [h]; rfl), h0, ha, ?_⟩
    dsimp only at h
    split at h
    · obtain ⟨e, _, h⟩ := mbind_ok_inv h
      cases h; rfl
    · cases h; rfl

theorem argReset_decls {t t0 : Table σ} (hr : argReset t = .ok t0) : t0.entries.map declOf = t.entries.map declOf := by
  unfold argReset at hr
  rw [resetEntries_eq] at hr
  cases he : resetAll t.entries with
  | error e => rw [he] at hr; cases hr
  | ok es => rw [he] at hr; cases hr; exact resetAll_decl he

theorem argParseX_unique {env : Bool} {f f' : Nat} {argv : List CStr} {t : Table σ} {g : GState}
    {r r' : (Nat × Table σ × GState) × Nat} (h : argParseX env f argv t g = .ok r) (h' : argParseX env f' argv t g = .ok r') :
    r.2 = r'.2 := by
  rcases argParseX_inv h with ⟨h1, h2⟩ | ⟨t0, a, h1, h2, h3, h4⟩ <;> rcases argParseX_inv h' with ⟨h1', h2'⟩ | ⟨t0', a', h1', h2', h3', h4'⟩
  · rw [h2, h2']
  · exact absurd h1 h1'
  · exact absurd h1' h1
  · rw [h2] at h2'
    cases h2'
    have p := parseTaggedX_mono (k := f') h3
    have p' := parseTaggedX_mono (k := f) h3'
    rw [Nat.add_comm f' f, p] at p'
    cases p'
    rw [h4, h4']

theorem argParseX_bound {env : Bool} {f : Nat} {argv : List CStr} {t : Table σ} {g : GState} {r : (Nat × Table σ × GState) × Nat}
    (hwf : WF (t.entries.map declOf)) (hargs : CArgs argv.tail) (h : argParseX env f argv t g = .ok r)
    {evs : List Ev} {ops : List CStr} (htok : tokenize (t.entries.map declOf) env argv.tail = some (evs, ops)) :
    (env = true ∨ ops = [] → r.2 = 0) ∧ ops.length ≤ argv.tail.length ∧
      2 * r.2 ≤ ops.length * (ops.length + 1) + 2 * (argv.tail.length - ops.length) := by
  rcases argParseX_inv h with ⟨rfl, h2⟩ | ⟨t0, a, h1, h2, h3, h4⟩
  · cases htok
    simp [h2]
  · cases argv with
    | nil => exact absurd rfl h1
    | cons a0 args =>
      have hd := argReset_decls h2
      rw [← hd] at hwf htok
      obtain ⟨k, gf, ⟨X, hX1, hX2, hX3, -, hX5, -⟩, hrun⟩ := parseTagged_spec env a0 args hargs g t0 hwf htok
      have h5 := parseTaggedX_fst env (f + (k + 1)) (a0 :: args).length { g with nargv := a0 :: args } t0
      rw [parseTaggedX_mono h3, hrun f] at h5
      obtain ⟨t', _, h5⟩ := mbind_ok_inv h5.symm
      have h5 : gf = a.1.1 := by
        have : (gf, t') = a.1 := by injection h5
        rw [← this]
      subst h5
      obtain ⟨b1, b2, b3, b4, b5⟩ := parseTaggedX_bounded (n := (a0 :: args).length) hwf (by simp) rfl h3
      have hl := hX5.length_eq
      rw [hX1] at hl
      simp only [List.length_append, List.length_cons] at hl
      rw [h4]
      refine ⟨fun he => b4 (he.imp id fun h0 => (by subst h0; simp at hl ⊢; omega)), by simp only [List.tail_cons]; have := List.length_pos_iff.2 hX3; omega, ?_⟩
      simp only [List.tail_cons, List.length_cons] at b5 ⊢
      rw [show args.length + 1 - a.1.1.optind = ops.length by omega] at b5
      rw [show args.length - ops.length = a.1.1.optind - 1 by omega]
      exact b5

end Argtable
