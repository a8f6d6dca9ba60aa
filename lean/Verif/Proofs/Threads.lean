import Verif.Spec.Threads
import Verif.Props.Cmdline
import Verif.Proofs.Stuck
import Verif.Proofs.Decode
/-!
# Threads: lemmas for C87
-/

namespace Argtable

open Spec

variable {σ : Type}

/-- Two tables that no call can tell apart: records behind the counted ones may differ. -/
structure SameTab (t t' : Table σ) : Prop where
  entries : t'.entries = t.entries
  records : recordsOf t' = recordsOf t
  ok : ∃ m, EndOK m t.fin ∧ EndOK m t'.fin ∧ WF (t.entries.map declOf)

theorem SameTab.symm {t t' : Table σ} (h : SameTab t t') : SameTab t' t := by
  obtain ⟨m, h1, h2, h3⟩ := h.ok
  exact ⟨h.entries.symm, h.records.symm, m, h2, h1, by rw [h.entries]; exact h3⟩

theorem SameTab.rfl' {t t' : Table σ} (h : SameTab t t') : SameTab t t := by
  obtain ⟨m, h1, _, h3⟩ := h.ok
  exact ⟨rfl, rfl, m, h1, h1, h3⟩

theorem frame_declOf {es es' : List (Hdr σ)} (h : Frame es es') : es'.map declOf = es.map declOf := by
  induction h with
  | nil => rfl
  | cons hab _ ih => rw [List.map_cons, List.map_cons, ih, hab]; rfl

/-- A call depends neither on the variables of getopt nor on stale records. -/
theorem returns_same {t t' : Table σ} (h : SameTab t t') {env : Bool} {argv : List CStr} (hargs : CArgs argv.tail) {g : GState}
    {r : Nat × Table σ × GState} (hr : Returns env argv t g r) (g' : GState) :
    ∃ r', Returns env argv t' g' r' ∧ r'.1 = r.1 ∧ SameTab r.2.1 r'.2.1 := by
  obtain ⟨m, h1, h2, h3⟩ := h.ok
  obtain ⟨evs, ops, es, errs, e1, e2, e3⟩ := C02_complete h1 h3 hargs hr
  rw [← h.entries] at e1 e2
  have h3' := h3
  rw [← h.entries] at h3'
  have hread := readsAs_of_tokenize (env := env) h2 h3' hargs e1 g'
  rw [e2] at hread
  obtain ⟨r', hr', hs⟩ := hread
  refine ⟨r', hr', by rw [hs.ret, e3.ret], by rw [hs.entries, e3.entries], ?_, m, e3.rel.ok, hs.rel.ok, ?_⟩
  · unfold recordsOf
    rw [hs.rel.slots, e3.rel.slots]
  · rw [e3.entries, frame_declOf (meaning_frame e2)]
    exact h3'

/-! ## One call -/

/-- `arg_parse` after the loop of `arg_parse_tagged`. -/
def tailPart (argc : Nat) (g : GState) (t : Table σ) : M (Nat × Table σ × GState) := do
  let (optind, t) ← parseUntagged g.nargv argc 0 g.optind none t
  let t ← lastPart t
  .ok (t.fin.count, t, { g with optind := optind })

/-- What a call in progress still has to do. -/
def leftOver (fuel : Nat) (p : Place) (g : GState) (t : Table σ) : M (Nat × Table σ × GState) :=
  match p with
  | .out => .error .fuel
  | .tagged c => do
    let (g, t) ← taggedLoop c.env c.argc c.sopts c.lopts fuel (inCall g c) t
    tailPart c.argc g t
  | .untagged c => tailPart c.argc (inCall g c) t

theorem argParse_tail (env : Bool) (fuel : Nat) {argv : List CStr} (hn : argv.length ≠ 0) (t : Table σ) (g : GState) :
    argParse env fuel argv t g = (do
      let t ← argReset t
      let (g, t) ← parseTagged env fuel argv.length { g with nargv := argv } t
      tailPart argv.length g t) := by
  unfold argParse tailPart lastPart
  cases argReset t with
  | error e => rfl
  | ok t0 =>
    simp only [bind_ok]
    rw [if_neg hn]
    cases parseTagged env fuel argv.length { g with nargv := argv } t0 with
    | error e => rfl
    | ok p =>
      simp only [bind_ok]
      cases parseUntagged p.1.nargv argv.length 0 p.1.optind none p.2 with
      | error e => rfl
      | ok q =>
        simp only [bind_ok]
        split
        · cases parseCheck q.2.entries 0 q.2.fin with
          | error e => rfl
          | ok e => rfl
        · rfl

theorem inCall_self (g : GState) (c : Locals) : inCall g { c with nargv := g.nargv, getoptval := g.getoptval } = g := rfl

theorem step_tagged {g : GState} {th : Thr σ} {c : Locals} (hp : th.place = .tagged c) :
    match (generalizing := false) stepThr g th with
    | .error e => ∀ fuel, leftOver (fuel + 1) th.place g th.table = .error e
    | .ok (g1, th1) => th1.prog = th.prog ∧ th1.seen = th.seen ∧ (∃ c1, th1.place = .tagged c1 ∨ th1.place = .untagged c1) ∧
        ∀ fuel, leftOver (fuel + 1) th.place g th.table = leftOver fuel th1.place g1 th1.table := by
  unfold stepThr
  rw [hp]
  simp only [leftOver, taggedLoop]
  cases getoptLong c.env c.argc c.sopts c.lopts (inCall g c) with
  | error e => intro fuel; rfl
  | ok p =>
    simp only [bind_ok]
    by_cases h1 : p.1 = -1
    · rw [if_pos h1]
      simp only
      refine ⟨trivial, trivial, ⟨_, .inr rfl⟩, fun fuel => ?_⟩
      rw [if_pos h1, bind_ok, inCall_self]
    · rw [if_neg h1]
      cases hb : taggedBody p.1 p.2 th.table with
      | error e =>
        intro fuel
        rw [if_neg h1]
        rfl
      | ok t1 =>
        simp only [bind_ok]
        refine ⟨trivial, trivial, ⟨_, .inl rfl⟩, fun fuel => ?_⟩
        rw [if_neg h1, inCall_self]

theorem step_untagged {g : GState} {th : Thr σ} {c : Locals} (hp : th.place = .untagged c) :
    match (generalizing := false) stepThr g th with
    | .error e => ∀ fuel, leftOver fuel th.place g th.table = .error e
    | .ok (_, th1) => ∃ t gx, th1 = th.done t (parsedAs t.fin.count t) ∧
        ∀ fuel, leftOver fuel th.place g th.table = .ok (t.fin.count, t, gx) := by
  unfold stepThr
  rw [hp]
  simp only [leftOver, tailPart]
  have e1 : (inCall g c).nargv = c.nargv := rfl
  have e2 : (inCall g c).optind = g.optind := rfl
  rw [e1, e2]
  cases parseUntagged c.nargv c.argc 0 g.optind none th.table with
  | error e => intro fuel; rfl
  | ok p =>
    simp only [bind_ok]
    cases lastPart p.2 with
    | error e => intro fuel; rfl
    | ok t => exact ⟨t, _, rfl, fun _ => rfl⟩

theorem step_begin {g : GState} {th : Thr σ} {env : Bool} {argv : List CStr} {rest : List (ThrAct σ)} (hp : th.place = .out)
    (ha : th.prog = .parse env argv :: rest) :
    match (generalizing := false) stepThr g th with
    | .error e => ∀ fuel gs, argParse env fuel argv th.table gs = .error e
    | .ok (g1, th1) => (∃ t, th1 = th.done t (parsedAs t.fin.count t) ∧ g1 = g ∧
          ∀ fuel gs, argParse env fuel argv th.table gs = .ok (t.fin.count, t, gs)) ∨
        (th1.prog = th.prog ∧ th1.seen = th.seen ∧ (∃ c1, th1.place = .tagged c1) ∧
          ∃ gs, ∀ fuel, argParse env fuel argv th.table gs = leftOver fuel th1.place g1 th1.table) := by
  unfold stepThr
  rw [hp, ha]
  simp only
  cases hr : argReset th.table with
  | error e =>
    intro fuel gs
    unfold argParse
    rw [hr]; rfl
  | ok t =>
    simp only [bind_ok]
    by_cases hn : argv.length = 0
    · rw [if_pos hn]
      cases hc : parseCheck t.entries 0 t.fin with
      | error e =>
        intro fuel gs
        unfold argParse
        rw [hr, bind_ok, if_pos hn, hc]; rfl
      | ok e =>
        refine .inl ⟨{ t with fin := e }, rfl, rfl, fun fuel gs => ?_⟩
        unfold argParse
        rw [hr, bind_ok, if_pos hn, hc]; rfl
    · rw [if_neg hn]
      cases hl : allocLongoptions t.entries with
      | error e =>
        intro fuel gs
        rw [argParse_tail env fuel hn, hr, bind_ok]
        unfold parseTagged
        rw [hl]; rfl
      | ok lopts =>
        simp only [bind_ok]
        cases hs : allocShortoptions t.entries with
        | error e =>
          intro fuel gs
          rw [argParse_tail env fuel hn, hr, bind_ok]
          unfold parseTagged
          rw [hl, bind_ok, hs]; rfl
        | ok sopts =>
          simp only [bind_ok]
          refine .inr ⟨trivial, trivial, ⟨_, rfl⟩, { g with getoptval := 0 }, fun fuel => ?_⟩
          rw [argParse_tail env fuel hn, hr, bind_ok]
          unfold parseTagged
          rw [hl, bind_ok, hs, bind_ok]
          rfl

/-! ## One thread -/

theorem oneByOne_append {a b : List (ThrAct σ)} {t : Table σ} {g : GState} {s1 s2 : List (Seen σ)} {t1 t2 : Table σ} {g1 g2 : GState}
    (h1 : OneByOne a t g s1 t1 g1) (h2 : OneByOne b t1 g1 s2 t2 g2) : OneByOne (a ++ b) t g (s1 ++ s2) t2 g2 := by
  induction h1 with
  | nil => exact h2
  | parse hr _ ih => exact .parse hr (ih h2)
  | read hf _ ih => exact .read hf (ih h2)

theorem oneByOne_split : ∀ {a b : List (ThrAct σ)} {t : Table σ} {g : GState} {s : List (Seen σ)} {t2 : Table σ} {g2 : GState},
    OneByOne (a ++ b) t g s t2 g2 → ∃ s1 s2 t1 g1, s = s1 ++ s2 ∧ OneByOne a t g s1 t1 g1 ∧ OneByOne b t1 g1 s2 t2 g2
  | [], _, t, g, s, _, _, h => ⟨[], s, t, g, rfl, .nil t g, h⟩
  | .parse env argv :: a, b, t, g, s, t2, g2, h => by
    rw [List.cons_append] at h
    cases h with
    | parse hr h =>
      obtain ⟨s1, s2, t1, g1, e, h1, h2⟩ := oneByOne_split h
      exact ⟨_ :: s1, s2, t1, g1, by rw [e]; rfl, .parse hr h1, h2⟩
  | .read f :: a, b, t, g, s, t2, g2, h => by
    rw [List.cons_append] at h
    cases h with
    | read hf h =>
      obtain ⟨s1, s2, t1, g1, e, h1, h2⟩ := oneByOne_split h
      exact ⟨_ :: s1, s2, t1, g1, by rw [e]; rfl, .read hf h1, h2⟩

theorem oneByOne_unique {a : List (ThrAct σ)} {t : Table σ} {g : GState} {s s' : List (Seen σ)} {t1 t1' : Table σ} {g1 g1' : GState}
    (h : OneByOne a t g s t1 g1) (h' : OneByOne a t g s' t1' g1') : s' = s ∧ t1' = t1 ∧ g1' = g1 := by
  induction h generalizing s' t1' g1' with
  | nil => cases h'; exact ⟨rfl, rfl, rfl⟩
  | parse hr _ ih =>
    cases h' with
    | parse hr' h' =>
      cases hr.unique hr'
      obtain ⟨e1, e2, e3⟩ := ih h'
      exact ⟨by rw [e1], e2, e3⟩
  | read hf _ ih =>
    cases h' with
    | read hf' h' =>
      rw [hf] at hf'
      cases hf'
      obtain ⟨e1, e2, e3⟩ := ih h'
      exact ⟨by rw [e1], e2, e3⟩

/-- The thread `th`, which was `th0` at the beginning, has seen what it would have seen alone (with `gs` in the variables of getopt at first); its
table is as it would be, or the call in progress will leave it so if the others do not interfere. -/
def Along (gs : GState) (th0 th : Thr σ) (g : GState) : Prop :=
  ∃ acts t' g', th0.prog = acts ++ th.prog ∧ OneByOne acts th0.table gs th.seen t' g' ∧ (th.place = .out → SameTab t' th.table) ∧
    (th.place ≠ .out → ∃ env argv rest ts gx k, th.prog = .parse env argv :: rest ∧ SameTab t' ts ∧
      ∀ fuel, argParse env (fuel + k) argv ts gx = leftOver fuel th.place g th.table)

theorem Along.of_out {gs : GState} {th0 th : Thr σ} {g : GState} (h : Along gs th0 th g) (ho : th.place = .out) (g1 : GState) :
    Along gs th0 th g1 := by
  obtain ⟨acts, t', g', h1, h2, h3, _⟩ := h
  exact ⟨acts, t', g', h1, h2, h3, fun hne => absurd ho hne⟩

theorem Along.finish {gs : GState} {th0 th : Thr σ} {acts rest : List (ThrAct σ)} {t' : Table σ} {g' : GState} {env : Bool} {argv : List CStr}
    (hp : th0.prog = acts ++ th.prog) (ho : OneByOne acts th0.table gs th.seen t' g') (ha : th.prog = .parse env argv :: rest)
    (hargs : CArgs argv.tail) {ts t : Table σ} {gx gy : GState} (hs : SameTab t' ts) (hr : Returns env argv ts gx (t.fin.count, t, gy)) (g1 : GState) :
    Along gs th0 (th.done t (parsedAs t.fin.count t)) g1 := by
  obtain ⟨⟨n, t1, g2⟩, e1, e2, e3⟩ := returns_same hs.symm hargs hr g'
  simp only at e2 e3
  refine ⟨acts ++ [.parse env argv], t1, g2, ?_, ?_, fun _ => e3.symm, fun hne => absurd rfl hne⟩
  · rw [hp, ha]
    simp only [Thr.done, ha, List.tail_cons, List.append_assoc, List.cons_append, List.nil_append]
  · have := oneByOne_append ho (.parse e1 (.nil t1 g2))
    have e4 : recordsOf t1 = recordsOf t := e3.records
    unfold recordsOf at e4
    rw [e4, e2, e3.entries] at this
    exact this

/-- A step keeps the invariant. -/
theorem Along.step {gs : GState} {th0 th th1 : Thr σ} {g g1 : GState} (h : Along gs th0 th g)
    (hargs : ∀ env argv, ThrAct.parse env argv ∈ th0.prog → CArgs argv.tail) (hs : stepThr g th = .ok (g1, th1)) : Along gs th0 th1 g1 := by
  obtain ⟨acts, t', g', h1, h2, h3, h4⟩ := h
  cases hp : th.place with
  | out =>
    cases ha : th.prog with
    | nil =>
      unfold stepThr at hs
      rw [hp, ha] at hs
      cases hs
      exact ⟨acts, t', g', h1, h2, h3, fun hne => absurd hp hne⟩
    | cons a rest =>
      cases a with
      | read f =>
        unfold stepThr at hs
        rw [hp, ha] at hs
        obtain ⟨s, hf, hs⟩ := mbind_ok_inv hs
        cases hs
        have hst := h3 hp
        refine ⟨acts ++ [.read f], t', g', ?_, ?_, fun _ => hst, fun hne => absurd rfl hne⟩
        · rw [h1, ha]
          simp only [Thr.done, ha, List.tail_cons, List.append_assoc, List.cons_append, List.nil_append]
        · refine oneByOne_append h2 (.read ?_ (.nil t' g'))
          rw [hst.entries, hst.records] at hf
          exact hf
      | parse env argv =>
        have hc := hargs env argv (by rw [h1, ha]; simp)
        have := step_begin (g := g) hp ha
        rw [hs] at this
        rcases this with ⟨t, e1, e2, e3⟩ | ⟨e1, e2, ⟨c1, e3⟩, gx, e4⟩
        · rw [e1]
          exact Along.finish (gx := g) h1 h2 ha hc (h3 hp) ⟨0, e3 0 g⟩ g1
        · refine ⟨acts, t', g', by rw [e1]; exact h1, by rw [e2]; exact h2, fun ho => (by rw [e3] at ho; cases ho), fun _ => ?_⟩
          exact ⟨env, argv, rest, th.table, gx, 0, by rw [e1]; exact ha, h3 hp, e4⟩
  | tagged c =>
    obtain ⟨env, argv, rest, ts, gx, k, b1, b2, b3⟩ := h4 (by rw [hp]; simp)
    have := step_tagged (g := g) hp
    rw [hs] at this
    obtain ⟨e1, e2, ⟨c1, e3⟩, e4⟩ := this
    refine ⟨acts, t', g', by rw [e1]; exact h1, by rw [e2]; exact h2, fun ho => (by rcases e3 with e3 | e3 <;> rw [e3] at ho <;> cases ho), fun _ => ?_⟩
    refine ⟨env, argv, rest, ts, gx, k + 1, by rw [e1]; exact b1, b2, fun fuel => ?_⟩
    rw [← e4, ← b3]
    congr 1
    omega
  | untagged c =>
    obtain ⟨env, argv, rest, ts, gx, k, b1, b2, b3⟩ := h4 (by rw [hp]; simp)
    have := step_untagged (g := g) hp
    rw [hs] at this
    obtain ⟨t, gy, e1, e2⟩ := this
    rw [e1]
    exact Along.finish h1 h2 b1 (hargs env argv (by rw [h1, b1]; simp)) b2 ⟨0 + k, (b3 0).trans (e2 0)⟩ g1

/-- If the thread's program works alone then the action it is at returns from a state like the present one. -/
theorem Along.returns {gs : GState} {th0 th : Thr σ} {g : GState} (h : Along gs th0 th g)
    (hargs : ∀ env argv, ThrAct.parse env argv ∈ th0.prog → CArgs argv.tail) {seen : List (Seen σ)} {tf : Table σ} {gf : GState}
    (hf : OneByOne th0.prog th0.table gs seen tf gf) :
    (∀ f rest, th.place = .out → th.prog = .read f :: rest → ∃ s, f th.table.entries (recordsOf th.table) = .ok s) ∧
    (∀ env argv rest, th.place = .out → th.prog = .parse env argv :: rest → ∀ gx, ∃ r, Returns env argv th.table gx r) ∧
    (th.place ≠ .out → ∃ fuel r, leftOver fuel th.place g th.table = .ok r) := by
  obtain ⟨acts, t', g', h1, h2, h3, h4⟩ := h
  rw [h1] at hf
  obtain ⟨s1, s2, t1, g1, _, f1, f2⟩ := oneByOne_split hf
  obtain ⟨_, rfl, rfl⟩ := oneByOne_unique h2 f1
  refine ⟨fun f rest hp ha => ?_, fun env argv rest hp ha gx => ?_, fun hp => ?_⟩
  · rw [ha] at f2
    cases f2 with
    | read hr _ =>
      have hst := h3 hp
      exact ⟨_, by rw [hst.entries, hst.records]; exact hr⟩
  · rw [ha] at f2
    cases f2 with
    | parse hr _ =>
      obtain ⟨r, e1, _⟩ := returns_same (h3 hp) (hargs env argv (by rw [h1, ha]; simp)) hr gx
      exact ⟨r, e1⟩
  · obtain ⟨env, argv, rest, ts, gx, k, b1, b2, b3⟩ := h4 hp
    rw [b1] at f2
    cases f2 with
    | parse hr _ =>
      obtain ⟨r, ⟨n, e1⟩, _⟩ := returns_same b2 (hargs env argv (by rw [h1, b1]; simp)) hr gx
      refine ⟨n, r, ?_⟩
      rw [← b3]
      exact argParse_mono env n k argv ts gx _ e1 (by simp)

/-- ... so its next step is defined. -/
theorem Along.safe {gs : GState} {th0 th : Thr σ} {g : GState} (h : Along gs th0 th g)
    (hargs : ∀ env argv, ThrAct.parse env argv ∈ th0.prog → CArgs argv.tail) {seen : List (Seen σ)} {tf : Table σ} {gf : GState}
    (hf : OneByOne th0.prog th0.table gs seen tf gf) : ∃ g1 th1, stepThr g th = .ok (g1, th1) := by
  obtain ⟨r1, r2, r3⟩ := h.returns hargs hf
  cases hs : stepThr g th with
  | ok p => exact ⟨p.1, p.2, rfl⟩
  | error e =>
    exfalso
    cases hp : th.place with
    | out =>
      cases ha : th.prog with
      | nil =>
        unfold stepThr at hs
        rw [hp, ha] at hs
        cases hs
      | cons a rest =>
        cases a with
        | read f =>
          obtain ⟨s, e1⟩ := r1 f rest hp ha
          unfold stepThr at hs
          rw [hp, ha] at hs
          simp only [e1, bind_ok] at hs
          cases hs
        | parse env argv =>
          obtain ⟨r, n, e1⟩ := r2 env argv rest hp ha g
          have := step_begin (g := g) hp ha
          rw [hs] at this
          rw [this n g] at e1
          cases e1
    | tagged c =>
      obtain ⟨n, r, e1⟩ := r3 (by rw [hp]; simp)
      have := step_tagged (g := g) hp
      rw [hs] at this
      cases n with
      | zero => rw [hp] at e1; cases e1
      | succ n => rw [this n] at e1; cases e1
    | untagged c =>
      obtain ⟨n, r, e1⟩ := r3 (by rw [hp]; simp)
      have := step_untagged (g := g) hp
      rw [hs] at this
      rw [this n] at e1
      cases e1

/-! ## All threads -/

/-- The invariant with a lock: every thread goes along as if alone, and at most one is in `arg_parse`. -/
structure InTurn (gs : GState) (ths : List (Thr σ)) (w : Threads σ) : Prop where
  length : w.threads.length = ths.length
  along : ∀ (i : Nat) th0 th, ths[i]? = some th0 → w.threads[i]? = some th → Along gs th0 th w.g
  one : ∀ (i j : Nat) th th', w.threads[i]? = some th → w.threads[j]? = some th' → th.place ≠ .out → th'.place ≠ .out → i = j

theorem isOut_iff (p : Place) : p.isOut = true ↔ p = .out := by cases p <;> simp [Place.isOut]

theorem stepThr_read_g {g g1 : GState} {th th1 : Thr σ} (hp : th.place = .out) (hw : th.wantsParse = false) (hs : stepThr g th = .ok (g1, th1)) :
    g1 = g ∧ th1.place = .out := by
  unfold stepThr at hs
  rw [hp] at hs
  cases ha : th.prog with
  | nil => rw [ha] at hs; cases hs; exact ⟨rfl, hp⟩
  | cons a rest =>
    rw [ha] at hs
    cases a with
    | read f =>
      obtain ⟨s, _, hs⟩ := mbind_ok_inv hs
      cases hs
      exact ⟨rfl, rfl⟩
    | parse env argv =>
      unfold Thr.wantsParse at hw
      rw [hp, ha] at hw
      cases hw

theorem InTurn.step {gs : GState} {ths : List (Thr σ)} {w w1 : Threads σ} (h : InTurn gs ths w)
    (hargs : ∀ th ∈ ths, ∀ env argv, ThrAct.parse env argv ∈ th.prog → CArgs argv.tail) {i : Nat} (hs : stepOf true i w = .ok w1) :
    InTurn gs ths w1 := by
  unfold stepOf at hs
  cases hi : w.threads[i]? with
  | none => rw [hi] at hs; cases hs; exact h
  | some th =>
    rw [hi] at hs
    simp only [Bool.true_and] at hs
    split at hs
    · cases hs; exact h
    · rename_i hb
      obtain ⟨⟨g1, th1⟩, e1, hs⟩ := mbind_ok_inv hs
      cases hs
      have hil : i < w.threads.length := by
        rw [List.getElem?_eq_some_iff] at hi
        exact hi.1
      -- the others are outside, or the shared variables have not changed and this thread is outside
      have key : (∀ (j : Nat) th', w.threads[j]? = some th' → j ≠ i → th'.place = .out) ∨ (g1 = w.g ∧ th1.place = .out) := by
        by_cases hp : th.place = .out
        · cases hw : th.wantsParse with
          | false => exact .inr (stepThr_read_g hp hw e1)
          | true =>
            rw [hw] at hb
            simp only [Bool.true_and, List.any_eq_true, not_exists, not_and, Bool.not_eq_true, Bool.not_eq_false'] at hb
            refine .inl fun j th' hj _ => ?_
            exact (isOut_iff _).1 (hb th' (List.mem_of_getElem? hj))
        · refine .inl fun j th' hj hji => ?_
          by_contra hc
          exact hji (h.one j i th' th hj hi hc hp)
      refine ⟨by rw [List.length_set]; exact h.length, fun j th0 th' h0 hj => ?_, fun j k ta tb hj hk pa pb => ?_⟩
      · rw [List.getElem?_set] at hj
        split at hj
        · rename_i hij
          subst hij
          cases hj
          exact (h.along i th0 th h0 hi).step (hargs th0 (List.mem_of_getElem? h0)) e1
        · rename_i hij
          have := h.along j th0 th' h0 hj
          rcases key with key | ⟨key, _⟩
          · exact this.of_out (key j th' hj (Ne.symm hij)) g1
          · simp only
            rw [key]; exact this
      · simp only at hj hk
        rw [List.getElem?_set] at hj hk
        split at hj <;> split at hk
        · omega
        · rename_i hij hik
          cases hj
          rcases key with key | ⟨_, key⟩
          · exact absurd (key k tb hk (Ne.symm hik)) pb
          · exact absurd key pa
        · rename_i hij hik
          cases hk
          rcases key with key | ⟨_, key⟩
          · exact absurd (key j ta hj (Ne.symm hij)) pa
          · exact absurd key pb
        · exact h.one j k ta tb hj hk pa pb

theorem InTurn.run {gs : GState} {ths : List (Thr σ)} (hargs : ∀ th ∈ ths, ∀ env argv, ThrAct.parse env argv ∈ th.prog → CArgs argv.tail) :
    ∀ (sched : List Nat) {w w1 : Threads σ}, InTurn gs ths w → runThreads true sched w = .ok w1 → InTurn gs ths w1
  | [], _, _, h, hr => by cases hr; exact h
  | i :: sched, w, w1, h, hr => by
    rw [runThreads] at hr
    obtain ⟨w2, e1, e2⟩ := mbind_ok_inv hr
    exact InTurn.run hargs sched (h.step hargs e1) e2

theorem InTurn.safe {gs : GState} {ths : List (Thr σ)} (hargs : ∀ th ∈ ths, ∀ env argv, ThrAct.parse env argv ∈ th.prog → CArgs argv.tail)
    (hf : ∀ th ∈ ths, ∃ seen tf gf, OneByOne th.prog th.table gs seen tf gf) :
    ∀ (sched : List Nat) {w : Threads σ}, InTurn gs ths w → ∃ w1, runThreads true sched w = .ok w1
  | [], w, _ => ⟨w, rfl⟩
  | i :: sched, w, h => by
    have : ∃ w1, stepOf true i w = .ok w1 := by
      unfold stepOf
      cases hi : w.threads[i]? with
      | none => exact ⟨w, rfl⟩
      | some th =>
        simp only
        split
        · exact ⟨w, rfl⟩
        · have hil : i < ths.length := by
            rw [← h.length]
            rw [List.getElem?_eq_some_iff] at hi
            exact hi.1
          have h0 : ths[i]? = some ths[i] := List.getElem?_eq_getElem hil
          obtain ⟨seen, tf, gf, e⟩ := hf ths[i] (List.getElem_mem hil)
          obtain ⟨g1, th1, e1⟩ := (h.along i _ th h0 hi).safe (hargs _ (List.getElem_mem hil)) e
          rw [e1, bind_ok]
          exact ⟨_, rfl⟩
    obtain ⟨w1, e1⟩ := this
    obtain ⟨w2, e2⟩ := InTurn.safe hargs hf sched (h.step hargs e1)
    refine ⟨w2, ?_⟩
    rw [runThreads, e1, bind_ok]
    exact e2

theorem ready_inTurn (gs : GState) {ths : List (Thr σ)} (h : ∀ th ∈ ths, ThrReady th) (g : GState) : InTurn gs ths ⟨ths, g⟩ := by
  refine ⟨rfl, fun i th0 th h0 hi => ?_, fun i j th th' hi hj hp _ => absurd (h th (List.mem_of_getElem? hi)).out hp⟩
  simp only at hi
  rw [h0] at hi
  cases hi
  have hr := h th0 (List.mem_of_getElem? h0)
  obtain ⟨m, e1, e2⟩ := hr.table
  refine ⟨[], th0.table, gs, rfl, ?_, fun _ => ⟨rfl, rfl, m, e1, e1, e2⟩, fun hne => absurd hr.out hne⟩
  rw [hr.seen]
  exact .nil _ _

theorem runThreads_append (lock : Bool) : ∀ (a b : List Nat) {w w1 : Threads σ}, runThreads lock a w = .ok w1 →
    runThreads lock (a ++ b) w = runThreads lock b w1
  | [], _, _, _, h => by cases h; rfl
  | i :: a, b, w, w1, h => by
    rw [runThreads] at h
    obtain ⟨w2, e1, e2⟩ := mbind_ok_inv h
    rw [List.cons_append, runThreads, e1, bind_ok]
    exact runThreads_append lock a b e2

/-- A thread in the middle of a call can finish it. -/
theorem finish_call {lock : Bool} {i : Nat} : ∀ (fuel : Nat) {w : Threads σ} {th : Thr σ}, w.threads[i]? = some th → th.place ≠ .out →
    ∀ {r}, leftOver fuel th.place w.g th.table = .ok r →
    ∃ sched w1 t o, runThreads lock sched w = .ok w1 ∧ w1.threads = w.threads.set i (th.done t o) := by
  intro fuel
  induction fuel with
  | zero =>
    intro w th hi hp r hl
    cases hq : th.place with
    | out => exact absurd hq hp
    | tagged c => rw [hq] at hl; cases hl
    | untagged c =>
      have := step_untagged (g := w.g) hq
      cases hs : stepThr w.g th with
      | error e => rw [hs] at this; rw [this 0] at hl; cases hl
      | ok p =>
        rw [hs] at this
        obtain ⟨t, gx, e1, _⟩ := this
        have hw : th.wantsParse = false := by unfold Thr.wantsParse; rw [hq]
        refine ⟨[i], ⟨w.threads.set i p.2, p.1⟩, t, _, ?_, by rw [e1]⟩
        rw [runThreads]
        unfold stepOf
        rw [hi]
        simp only [hw, Bool.and_false, Bool.false_and, Bool.false_eq_true, if_false]
        rw [hs]
        rfl
  | succ fuel ih =>
    intro w th hi hp r hl
    have hw : th.wantsParse = false := by
      unfold Thr.wantsParse
      cases hq : th.place with
      | out => exact absurd hq hp
      | tagged c => rfl
      | untagged c => rfl
    cases hq : th.place with
    | out => exact absurd hq hp
    | tagged c =>
      have := step_tagged (g := w.g) hq
      cases hs : stepThr w.g th with
      | error e => rw [hs] at this; rw [this fuel] at hl; cases hl
      | ok p =>
        rw [hs] at this
        obtain ⟨e1, e2, ⟨c1, e3⟩, e4⟩ := this
        rw [e4] at hl
        have hil : i < w.threads.length := by
          rw [List.getElem?_eq_some_iff] at hi
          exact hi.1
        obtain ⟨sched, w1, t, o, u1, u2⟩ := ih (w := ⟨w.threads.set i p.2, p.1⟩) (th := p.2) (by rw [List.getElem?_set, if_pos rfl, if_pos hil])
          (by rcases e3 with e3 | e3 <;> rw [e3] <;> simp) hl
        refine ⟨i :: sched, w1, t, o, ?_, ?_⟩
        · rw [runThreads]
          unfold stepOf
          rw [hi]
          simp only [hw, Bool.and_false, Bool.false_and, Bool.false_eq_true, if_false]
          rw [hs]
          simp only [bind_ok]
          exact u1
        · rw [u2, List.set_set]
          unfold Thr.done
          rw [e1, e2]
    | untagged c =>
      have := step_untagged (g := w.g) hq
      cases hs : stepThr w.g th with
      | error e => rw [hs] at this; rw [this] at hl; cases hl
      | ok p =>
        rw [hs] at this
        obtain ⟨t, gx, e1, _⟩ := this
        refine ⟨[i], ⟨w.threads.set i p.2, p.1⟩, t, _, ?_, by rw [e1]⟩
        rw [runThreads]
        unfold stepOf
        rw [hi]
        simp only [hw, Bool.and_false, Bool.false_and, Bool.false_eq_true, if_false]
        rw [hs]
        rfl

def workLeft (ths : List (Thr σ)) : Nat := (ths.map fun th => th.prog.length).sum

theorem workLeft_set : ∀ {ths : List (Thr σ)} {i : Nat} {th : Thr σ}, ths[i]? = some th → ∀ (th1 : Thr σ), th1.prog.length < th.prog.length →
    workLeft (ths.set i th1) < workLeft ths
  | [], _, _, h, _, _ => by cases h
  | th :: ths, 0, _, h, th1, hl => by
    cases h
    simp only [List.set_cons_zero, workLeft, List.map_cons, List.sum_cons]
    omega
  | th :: ths, i + 1, _, h, th1, hl => by
    have := workLeft_set (ths := ths) (i := i) h th1 hl
    simp only [List.set_cons_succ, workLeft, List.map_cons, List.sum_cons] at this ⊢
    omega

/-! ## Fair schedulers -/

theorem le_workLeft : ∀ {ths : List (Thr σ)} {th : Thr σ}, th ∈ ths → th.prog.length ≤ workLeft ths
  | th :: ths, _, .head _ => by
    simp only [workLeft, List.map_cons, List.sum_cons]
    omega
  | _ :: ths, _, .tail _ h => by
    have := le_workLeft h
    simp only [workLeft, List.map_cons, List.sum_cons] at this ⊢
    omega

theorem workLeft_same : ∀ {ths : List (Thr σ)} {i : Nat} {th : Thr σ}, ths[i]? = some th → ∀ (th1 : Thr σ), th1.prog = th.prog →
    workLeft (ths.set i th1) = workLeft ths
  | [], _, _, h, _, _ => by cases h
  | th :: ths, 0, _, h, th1, hl => by
    cases h
    simp only [List.set_cons_zero, workLeft, List.map_cons, List.sum_cons, hl]
  | th :: ths, i + 1, _, h, th1, hl => by
    have := workLeft_same (ths := ths) (i := i) h th1 hl
    simp only [List.set_cons_succ, workLeft, List.map_cons, List.sum_cons] at this ⊢
    omega

theorem Spec.FairFor.shift {k : Nat} {sched : Nat → Nat} (h : FairFor k sched) : FairFor k (fun n => sched (n + 1)) := by
  intro i hi n
  obtain ⟨m, e1, e2⟩ := h i hi (n + 1)
  exact ⟨m - 1, by omega, by simp only; rw [show m - 1 + 1 = m by omega]; exact e2⟩

/-- Under every fair scheduler all threads finish. -/
def AllFinish (k : Nat) (w : Threads σ) : Prop :=
  ∀ sched, FairFor k sched → ∃ n w1, runThreads true (firstOf sched n) w = .ok w1 ∧ ∀ th ∈ w1.threads, th.prog = []

theorem ends_step {k : Nat} {w w1 : Threads σ} {sched : Nat → Nat} (hs : stepOf true (sched 0) w = .ok w1) (hf : FairFor k sched)
    (he : AllFinish k w1) : ∃ n w2, runThreads true (firstOf sched n) w = .ok w2 ∧ ∀ th ∈ w2.threads, th.prog = [] := by
  obtain ⟨n, w2, e1, e2⟩ := he _ hf.shift
  refine ⟨n + 1, w2, ?_, e2⟩
  rw [firstOf, runThreads, hs, bind_ok]
  exact e1

theorem ends_skip {w : Threads σ} {sched : Nat → Nat} (hs : stepOf true (sched 0) w = .ok w)
    (he : ∃ n w2, runThreads true (firstOf (fun n => sched (n + 1)) n) w = .ok w2 ∧ ∀ th ∈ w2.threads, th.prog = []) :
    ∃ n w2, runThreads true (firstOf sched n) w = .ok w2 ∧ ∀ th ∈ w2.threads, th.prog = [] := by
  obtain ⟨n, w2, e1, e2⟩ := he
  refine ⟨n + 1, w2, ?_, e2⟩
  rw [firstOf, runThreads, hs, bind_ok]
  exact e1

/-- What a step of thread `i` does: nothing, because there is no such thread, or it has finished, or it waits for another; or it finishes an action;
or it is in a call afterwards, which it has begun or brought forward. -/
theorem step_cases {gs : GState} {ths : List (Thr σ)} (hargs : ∀ th ∈ ths, ∀ env argv, ThrAct.parse env argv ∈ th.prog → CArgs argv.tail)
    (hf : ∀ th ∈ ths, ∃ seen tf gf, OneByOne th.prog th.table gs seen tf gf) {w : Threads σ} (h : InTurn gs ths w) (i : Nat) :
    ∃ w1, stepOf true i w = .ok w1 ∧
      ((w1 = w ∧ ∀ th, w.threads[i]? = some th → th.prog = [] ∨ (th.place = .out ∧ ∃ (j : Nat) (th' : Thr σ), w.threads[j]? = some th' ∧ th'.place ≠ .out)) ∨
       workLeft w1.threads < workLeft w.threads ∨
       (workLeft w1.threads = workLeft w.threads ∧ ∃ th th1, w.threads[i]? = some th ∧ w1.threads[i]? = some th1 ∧ th1.place ≠ .out ∧
         (∃ fuel r, leftOver fuel th1.place w1.g th1.table = .ok r) ∧
         (th.place ≠ .out → ∀ fuel r, leftOver fuel th.place w.g th.table = .ok r →
           ∃ f, fuel = f + 1 ∧ leftOver f th1.place w1.g th1.table = .ok r))) := by
  cases hi : w.threads[i]? with
  | none =>
    refine ⟨w, ?_, .inl ⟨rfl, fun th h => by cases h⟩⟩
    unfold stepOf
    rw [hi]
  | some th =>
    by_cases hb : (th.wantsParse && w.threads.any fun th => !th.place.isOut) = true
    · refine ⟨w, ?_, .inl ⟨rfl, fun th' h => ?_⟩⟩
      · unfold stepOf
        rw [hi]
        simp only [Bool.true_and]
        rw [if_pos hb]
      · cases h
        rw [Bool.and_eq_true, List.any_eq_true] at hb
        obtain ⟨hw, th', hm, ho⟩ := hb
        obtain ⟨j, hj⟩ := List.getElem?_of_mem hm
        refine .inr ⟨?_, j, th', hj, fun hc => ?_⟩
        · unfold Thr.wantsParse at hw
          split at hw
          · assumption
          · cases hw
        · rw [(isOut_iff _).2 hc] at ho
          cases ho
    · have hil : i < ths.length := by
        rw [← h.length]
        rw [List.getElem?_eq_some_iff] at hi
        exact hi.1
      have hil' : i < w.threads.length := by rw [h.length]; exact hil
      have ha := h.along i _ th (List.getElem?_eq_getElem hil) hi
      obtain ⟨seen, tf, gf, e⟩ := hf ths[i] (List.getElem_mem hil)
      have hargs' := hargs _ (List.getElem_mem hil)
      obtain ⟨g1, th1, hs⟩ := ha.safe hargs' e
      have hstep : stepOf true i w = .ok ⟨w.threads.set i th1, g1⟩ := by
        unfold stepOf
        rw [hi]
        simp only [Bool.true_and]
        rw [if_neg hb, hs]
        rfl
      have hin1 := h.step hargs hstep
      have hi1 : (⟨w.threads.set i th1, g1⟩ : Threads σ).threads[i]? = some th1 := by
        simp only
        rw [List.getElem?_set, if_pos rfl, if_pos hil']
      have hend := (((hin1.along i _ th1 (List.getElem?_eq_getElem hil) hi1).returns hargs' e).2.2)
      refine ⟨_, hstep, ?_⟩
      cases hp : th.place with
      | out =>
        cases hprog : th.prog with
        | nil =>
          left
          unfold stepThr at hs
          rw [hp, hprog] at hs
          cases hs
          refine ⟨?_, fun th' h' => by cases h'; exact .inl hprog⟩
          have : w.threads.set i th = w.threads := by
            apply List.ext_getElem?
            intro j
            rw [List.getElem?_set]
            split
            · rename_i hij
              subst hij
              rw [hi]
            · rfl
          rw [this]
        | cons a rest =>
          cases a with
          | read f =>
            right; left
            unfold stepThr at hs
            rw [hp, hprog] at hs
            obtain ⟨s, _, hs⟩ := mbind_ok_inv hs
            cases hs
            exact workLeft_set hi _ (by simp [Thr.done, hprog])
          | parse env argv =>
            have hbg := step_begin (g := w.g) hp hprog
            rw [hs] at hbg
            rcases hbg with ⟨t, e1, _, _⟩ | ⟨e1, _, ⟨c1, e3⟩, gx, e4⟩
            · right; left
              rw [e1]
              exact workLeft_set hi _ (by simp [Thr.done, hprog])
            · right; right
              exact ⟨workLeft_same hi th1 e1, th, th1, rfl, hi1, by rw [e3]; simp, hend (by rw [e3]; simp), fun hne => absurd hp hne⟩
      | tagged c =>
        right; right
        have ht := step_tagged (g := w.g) hp
        rw [hs] at ht
        obtain ⟨e1, _, ⟨c1, e3⟩, e4⟩ := ht
        have hne : th1.place ≠ .out := by rcases e3 with e3 | e3 <;> rw [e3] <;> simp
        refine ⟨workLeft_same hi th1 e1, th, th1, rfl, hi1, hne, hend hne, fun _ fuel r hl => ?_⟩
        cases fuel with
        | zero => rw [hp] at hl; cases hl
        | succ f => exact ⟨f, rfl, by rw [e4] at hl; exact hl⟩
      | untagged c =>
        right; left
        have ht := step_untagged (g := w.g) hp
        rw [hs] at ht
        obtain ⟨t, gx, e1, _⟩ := ht
        rw [e1]
        refine workLeft_set hi _ ?_
        obtain ⟨_, _, _, _, _, _, a4⟩ := ha
        obtain ⟨env, argv, rest, _, _, _, a5, _⟩ := a4 (by rw [hp]; simp)
        simp [Thr.done, a5]

theorem ends_busy {gs : GState} {ths : List (Thr σ)} (hargs : ∀ th ∈ ths, ∀ env argv, ThrAct.parse env argv ∈ th.prog → CArgs argv.tail)
    (hf : ∀ th ∈ ths, ∃ seen tf gf, OneByOne th.prog th.table gs seen tf gf) {W : Nat}
    (ih : ∀ w : Threads σ, InTurn gs ths w → workLeft w.threads < W → AllFinish ths.length w) (fuel : Nat) :
    ∀ {w : Threads σ}, InTurn gs ths w → workLeft w.threads ≤ W → ∀ {i : Nat} {th : Thr σ}, w.threads[i]? = some th → th.place ≠ .out →
      ∀ {r}, leftOver fuel th.place w.g th.table = .ok r → AllFinish ths.length w := by
  induction fuel with
  | zero =>
    intro w h hW i th hi hp r hl sched hfair
    have hil : i < ths.length := by
      rw [← h.length]
      rw [List.getElem?_eq_some_iff] at hi
      exact hi.1
    obtain ⟨d, _, hd⟩ := hfair i hil 0
    induction d generalizing sched with
    | zero =>
      obtain ⟨w1, e1, e2⟩ := step_cases hargs hf h (sched 0)
      have hin1 := h.step hargs e1
      rw [hd] at e2
      rcases e2 with ⟨_, e3⟩ | e2 | ⟨_, th', th1, u1, _, _, _, u5⟩
      · rcases e3 th hi with e3 | ⟨e3, _⟩
        · obtain ⟨_, _, _, _, _, _, a4⟩ := h.along i _ th (List.getElem?_eq_getElem hil) hi
          obtain ⟨env, argv, rest, _, _, _, a5, _⟩ := a4 hp
          rw [e3] at a5; cases a5
        · exact absurd e3 hp
      · exact ends_step e1 hfair (ih w1 hin1 (by omega))
      · rw [hi] at u1; cases u1
        obtain ⟨f, hc, _⟩ := u5 hp 0 r hl
        cases hc
    | succ d ihd =>
      obtain ⟨w1, e1, e2⟩ := step_cases hargs hf h (sched 0)
      have hin1 := h.step hargs e1
      rcases e2 with ⟨e2, _⟩ | e2 | ⟨_, th', th1, u1, u2, u3, _, u5⟩
      · rw [e2] at e1
        exact ends_skip e1 (ihd _ hfair.shift (Nat.zero_le _) hd)
      · exact ends_step e1 hfair (ih w1 hin1 (by omega))
      · by_cases hji : sched 0 = i
        · rw [hji, hi] at u1; cases u1
          obtain ⟨f, hc, _⟩ := u5 hp 0 r hl
          cases hc
        · -- another thread cannot be in a call
          exfalso
          have hw1 : w1.threads[i]? = some th := by
            unfold stepOf at e1
            rw [u1] at e1
            simp only at e1
            split at e1
            · cases e1; exact hi
            · obtain ⟨p, _, e1⟩ := mbind_ok_inv e1
              cases e1
              simp only
              rw [List.getElem?_set, if_neg hji]
              exact hi
          exact hji (hin1.one _ _ th1 th u2 hw1 u3 hp)
  | succ fuel ihf =>
    intro w h hW i th hi hp r hl sched hfair
    have hil : i < ths.length := by
      rw [← h.length]
      rw [List.getElem?_eq_some_iff] at hi
      exact hi.1
    obtain ⟨d, _, hd⟩ := hfair i hil 0
    induction d generalizing sched with
    | zero =>
      obtain ⟨w1, e1, e2⟩ := step_cases hargs hf h (sched 0)
      have hin1 := h.step hargs e1
      rw [hd] at e2
      rcases e2 with ⟨_, e3⟩ | e2 | ⟨u0, th', th1, u1, u2, u3, _, u5⟩
      · rcases e3 th hi with e3 | ⟨e3, _⟩
        · obtain ⟨_, _, _, _, _, _, a4⟩ := h.along i _ th (List.getElem?_eq_getElem hil) hi
          obtain ⟨env, argv, rest, _, _, _, a5, _⟩ := a4 hp
          rw [e3] at a5; cases a5
        · exact absurd e3 hp
      · exact ends_step e1 hfair (ih w1 hin1 (by omega))
      · rw [hi] at u1; cases u1
        obtain ⟨f, hc, hl1⟩ := u5 hp _ r hl
        cases hc
        exact ends_step e1 hfair (ihf hin1 (by omega) u2 u3 hl1)
    | succ d ihd =>
      obtain ⟨w1, e1, e2⟩ := step_cases hargs hf h (sched 0)
      have hin1 := h.step hargs e1
      rcases e2 with ⟨e2, _⟩ | e2 | ⟨u0, th', th1, u1, u2, u3, _, u5⟩
      · rw [e2] at e1
        exact ends_skip e1 (ihd _ hfair.shift (Nat.zero_le _) hd)
      · exact ends_step e1 hfair (ih w1 hin1 (by omega))
      · by_cases hji : sched 0 = i
        · rw [hji] at u1 u2
          rw [hi] at u1; cases u1
          obtain ⟨f, hc, hl1⟩ := u5 hp _ r hl
          cases hc
          exact ends_step e1 hfair (ihf hin1 (by omega) u2 u3 hl1)
        · exfalso
          have hw1 : w1.threads[i]? = some th := by
            unfold stepOf at e1
            rw [u1] at e1
            simp only at e1
            split at e1
            · cases e1; exact hi
            · obtain ⟨p, _, e1⟩ := mbind_ok_inv e1
              cases e1
              simp only
              rw [List.getElem?_set, if_neg hji]
              exact hi
          exact hji (hin1.one _ _ th1 th u2 hw1 u3 hp)

theorem ends_all {gs : GState} {ths : List (Thr σ)} (hargs : ∀ th ∈ ths, ∀ env argv, ThrAct.parse env argv ∈ th.prog → CArgs argv.tail)
    (hf : ∀ th ∈ ths, ∃ seen tf gf, OneByOne th.prog th.table gs seen tf gf) : ∀ (W : Nat) (w : Threads σ), InTurn gs ths w →
      workLeft w.threads < W → AllFinish ths.length w := by
  intro W
  induction W with
  | zero => intro w _ hW; omega
  | succ W ih =>
    intro w h hW
    by_cases hb : ∃ (i : Nat) (th : Thr σ), w.threads[i]? = some th ∧ th.place ≠ .out
    · obtain ⟨i, th, hi, hp⟩ := hb
      have hil : i < ths.length := by
        rw [← h.length]
        rw [List.getElem?_eq_some_iff] at hi
        exact hi.1
      obtain ⟨seen, tf, gf, e⟩ := hf ths[i] (List.getElem_mem hil)
      obtain ⟨fuel, r, hl⟩ := ((h.along i _ th (List.getElem?_eq_getElem hil) hi).returns (hargs _ (List.getElem_mem hil)) e).2.2 hp
      exact ends_busy hargs hf ih fuel h (by omega) hi hp hl
    · by_cases hall : ∀ th ∈ w.threads, th.prog = []
      · intro sched _
        exact ⟨0, w, rfl, hall⟩
      · simp only [not_forall] at hall
        obtain ⟨th, hth, hne⟩ := hall
        obtain ⟨i, hi⟩ := List.getElem?_of_mem hth
        have hil : i < ths.length := by
          rw [← h.length]
          rw [List.getElem?_eq_some_iff] at hi
          exact hi.1
        intro sched hfair
        obtain ⟨d, _, hd⟩ := hfair i hil 0
        induction d generalizing sched with
        | zero =>
          obtain ⟨w1, e1, e2⟩ := step_cases hargs hf h (sched 0)
          have hin1 := h.step hargs e1
          rw [hd] at e2
          rcases e2 with ⟨_, e3⟩ | e2 | ⟨u0, th', th1, u1, u2, u3, ⟨fuel, r, hl⟩, _⟩
          · rcases e3 th hi with e3 | ⟨_, e3⟩
            · exact absurd e3 hne
            · exact absurd e3 hb
          · exact ends_step e1 hfair (ih w1 hin1 (by omega))
          · exact ends_step e1 hfair (ends_busy hargs hf ih fuel hin1 (by omega) u2 u3 hl)
        | succ d ihd =>
          obtain ⟨w1, e1, e2⟩ := step_cases hargs hf h (sched 0)
          have hin1 := h.step hargs e1
          rcases e2 with ⟨e2, _⟩ | e2 | ⟨u0, th', th1, u1, u2, u3, ⟨fuel, r, hl⟩, _⟩
          · rw [e2] at e1
            exact ends_skip e1 (ihd _ hfair.shift (Nat.zero_le _) hd)
          · exact ends_step e1 hfair (ih w1 hin1 (by omega))
          · exact ends_step e1 hfair (ends_busy hargs hf ih fuel hin1 (by omega) u2 u3 hl)

end Argtable
