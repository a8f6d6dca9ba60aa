import Verif.Proofs.Loop
import Verif.Spec.Outcome
/-!
# `arg_parse` refines the specification
-/

namespace Argtable
open Spec

variable {σ : Type}

/-! ### error records -/

theorem take_set_self {α : Type} (l : List α) (i : Nat) (x : α) (h : i < l.length) :
    (l.set i x).take (i + 1) = l.take i ++ [x] := by
  rw [List.take_succ, List.getElem?_set_self h, List.take_set_of_le (Nat.le_refl _)]
  rfl

theorem registerError_step {m : Nat} {errs : List ErrRec} {e : EndTbl} (h : EndRel m errs e)
    (p : Parent) (err : Int) (av : Option CStr) :
    ∃ e', registerError e p err av = .ok e' ∧ EndRel m (errs ++ [⟨err, p, av⟩]) e' := by
  obtain ⟨⟨hpos, hmax, hlen⟩, hc, hs⟩ := h
  unfold registerError
  simp only [hmax]
  by_cases hlt : errs.length < m
  · have hce : e.count = errs.length := by omega
    rw [if_pos (by omega), if_pos (by omega)]
    refine ⟨_, rfl, ⟨hpos, by rfl, by simpa using hlen⟩, ?_, ?_⟩
    · simp only [List.length_append, List.length_cons, List.length_nil]; omega
    · simp only
      rw [take_set_self _ _ _ (by omega), hs]
      unfold recorded
      rw [if_pos (by omega), if_pos (by simp; omega)]
  · have hce : e.count = m := by omega
    rw [if_neg (by omega), if_pos (by omega)]
    have hidx : ((m : Int) - 1).toNat = m - 1 := by omega
    rw [hidx]
    refine ⟨_, rfl, ⟨hpos, by rfl, by simpa using hlen⟩, ?_, ?_⟩
    · simp only [List.length_append, List.length_cons, List.length_nil]; omega
    · simp only
      rw [hce] at hs ⊢
      have h0 := take_set_self e.slots (m - 1) (⟨ARG_ELIMIT, .endt, none⟩ : ErrRec) (by omega)
      rw [show m - 1 + 1 = m by omega] at h0
      rw [h0]
      have h1 : e.slots.take (m - 1) = (recorded m errs).take (m - 1) := by
        rw [← hs, List.take_take, show min (m - 1) m = m - 1 by omega]
      rw [h1]
      unfold recorded
      rw [if_neg (c := (errs ++ [(⟨err, p, av⟩ : ErrRec)]).length ≤ m) (by simp; omega)]
      congr 1
      split
      · rw [List.take_append_of_le_length (by omega)]
      · rw [List.take_append_of_le_length (by simp; omega), List.take_take, Nat.min_self,
          List.take_append_of_le_length (by omega)]

theorem endRel_nil {m : Nat} {e : EndTbl} (h : EndOK m e) : EndRel m [] { e with count := 0 } where
  ok := ⟨h.pos, h.max, h.len⟩
  count := by simp
  slots := by simp [recorded]

/-! ### simulation relation -/

/-- The model's outcome `x` shows the specification's outcome `y`. -/
def Sim (m : Nat) (x : M (Table σ)) (y : M (List (Hdr σ) × List ErrRec)) : Prop :=
  match y with
  | .error f => x = .error f
  | .ok (es, errs) => ∃ t', x = .ok t' ∧ t'.entries = es ∧ EndRel m errs t'.fin

theorem Sim.bind {m : Nat} {x : M (Table σ)} {y : M (List (Hdr σ) × List ErrRec)}
    {f : Table σ → M (Table σ)} {g : List (Hdr σ) × List ErrRec → M (List (Hdr σ) × List ErrRec)}
    (h : Sim m x y)
    (hf : ∀ t errs, EndRel m errs t.fin → Sim m (f t) (g (t.entries, errs))) :
    Sim m (x >>= f) (y >>= g) := by
  cases y with
  | error e => rw [show x = .error e from h]; rfl
  | ok p =>
    obtain ⟨es, errs⟩ := p
    obtain ⟨t', rfl, rfl, he⟩ := h
    exact hf t' errs he

theorem applyEv_sim {m : Nat} {errs : List ErrRec} {t : Table σ} (h : EndRel m errs t.fin)
    (ev : Ev) : Sim m (applyEv t ev) (deliver (t.entries, errs) ev) := by
  cases ev with
  | fail code av =>
    obtain ⟨e', he, hr⟩ := registerError_step h .endt code av
    simp only [applyEv, regEnd, he, bind_ok, deliver, Sim]
    exact ⟨_, rfl, rfl, hr⟩
  | deliver i arg =>
    simp only [applyEv, scanEntry, deliver]
    cases hi : t.entries[i]? with
    | none => simp [Sim]
    | some hd =>
      simp only
      cases hf : hd.scanfn with
      | none => exact ⟨t, rfl, rfl, h⟩
      | some f =>
        simp only
        cases hfr : f hd.parent arg with
        | error e => simp [Sim]
        | ok p =>
          obtain ⟨p, err⟩ := p
          simp only [bind_ok]
          by_cases herr : err = 0
          · simp only [herr, ne_eq, not_true_eq_false, if_false, Sim]
            exact ⟨_, rfl, rfl, h⟩
          · obtain ⟨e', he, hr⟩ := registerError_step h (.entry i) err arg
            simp only [herr, ne_eq, not_false_eq_true, if_true, he, bind_ok, Sim]
            exact ⟨_, rfl, rfl, hr⟩

theorem applyAll_sim {m : Nat} (evs : List Ev) : ∀ {errs : List ErrRec} {t : Table σ},
    EndRel m errs t.fin → Sim m (applyAll evs t) (deliverAll evs (t.entries, errs)) := by
  induction evs with
  | nil => intro errs t h; exact ⟨t, rfl, rfl, h⟩
  | cons ev evs ih =>
    intro errs t h
    simp only [applyAll, deliverAll]
    exact (applyEv_sim h ev).bind fun t errs h => ih h

/-! ### operands -/

theorem operands_nil (es : List (Hdr σ)) (i : Nat) (last : Option (Int × Nat)) :
    operands es i last [] = .ok (es, []) := by
  cases es with
  | nil => rfl
  | cons h t => simp [operands]

theorem getElem?_app_length {α : Type} (X : List α) (a : α) (R : List α) :
    (X ++ a :: R)[X.length]? = some a := by simp

theorem restErrors_sim {m : Nat} : ∀ (ops X : List CStr) (t : Table σ) (errs : List ErrRec),
    EndRel m errs t.fin →
    ∃ i t', restErrors (X ++ ops) (X ++ ops).length X.length t = .ok (i, t') ∧
      t'.entries = t.entries ∧
      EndRel m (errs ++ ops.map fun b => ⟨ARG_ENOMATCH, .endt, some b⟩) t'.fin := by
  intro ops
  induction ops with
  | nil =>
    intro X t errs h
    rw [restErrors]
    simp only [List.append_nil, Nat.lt_irrefl, if_false, List.map_nil]
    exact ⟨_, _, rfl, rfl, h⟩
  | cons a ops ih =>
    intro X t errs h
    obtain ⟨e', he, hr⟩ := registerError_step h .endt ARG_ENOMATCH (some a)
    obtain ⟨i, t', h1, h2, h3⟩ := ih (X ++ [a]) { t with fin := e' } _ hr
    refine ⟨i, t', ?_, h2, by simpa using h3⟩
    rw [restErrors]
    rw [if_pos (by simp)]
    rw [argvAt_lt (getElem?_app_length X a ops)]
    simp only [bind_ok, regEnd, he]
    have : X ++ [a] ++ ops = X ++ a :: ops := by simp
    rw [this] at h1
    simpa using h1

/-- Relation between the tentative error of the model and of the specification. -/
def LastRel (ops : List CStr) (ml : Option (Int × CStr × Nat)) (sl : Option (Int × Nat)) : Prop :=
  (ml = none ∧ (sl = none ∨ ops = [])) ∨
  ∃ err a i, ml = some (err, a, i) ∧ sl = some (err, i) ∧ ops.head? = some a

/-- outcome of `parseUntagged` without the index -/
def dropIdx (x : M (Nat × Table σ)) : M (Table σ) := x >>= fun p => .ok p.2

theorem parseUntagged_tag {argv : List CStr} {nargc : Nat} {tabindex optind : Nat}
    {last : Option (Int × CStr × Nat)} {t : Table σ} (htab : tabindex < t.entries.length)
    (hopt : optind < nargc)
    (h : (t.entries[tabindex].longopts.isSome ∨ t.entries[tabindex].shortopts.isSome) ∨
      t.entries[tabindex].scanfn = none) :
    parseUntagged argv nargc tabindex optind last t =
      parseUntagged argv nargc (tabindex + 1) optind last t := by
  conv_lhs => rw [parseUntagged.eq_def]
  rw [dif_pos htab, dif_neg (by omega)]
  by_cases h1 : t.entries[tabindex].longopts.isSome ∨ t.entries[tabindex].shortopts.isSome
  · simp only [h1, if_true]
  · simp only [h1, if_false]
    rcases h with h | h
    · exact absurd h h1
    · split
      · rfl
      · next f hf => rw [h] at hf; cases hf

theorem parseUntagged_scan {argv : List CStr} {nargc : Nat} {tabindex optind : Nat}
    {last : Option (Int × CStr × Nat)} {t : Table σ} {f : σ → Option CStr → M (σ × Int)} {a : CStr}
    (htab : tabindex < t.entries.length)
    (hopt : optind < nargc)
    (h1 : ¬ (t.entries[tabindex].longopts.isSome ∨ t.entries[tabindex].shortopts.isSome))
    (hf : t.entries[tabindex].scanfn = some f) (ha : argv[optind]? = some a) :
    parseUntagged argv nargc tabindex optind last t =
      match f t.entries[tabindex].parent (some a) with
      | .error e => .error e
      | .ok (p, err) =>
        if err = 0 then
          parseUntagged argv nargc tabindex (optind + 1) none
            { t with entries := t.entries.set tabindex { t.entries[tabindex] with parent := p } }
        else
          parseUntagged argv nargc (tabindex + 1) optind (some (err, a, tabindex))
            { t with entries := t.entries.set tabindex { t.entries[tabindex] with parent := p } } := by
  conv_lhs => rw [parseUntagged.eq_def]
  rw [dif_pos htab, dif_neg (by omega)]
  simp only [h1, if_false]
  split
  · next hn => rw [hf] at hn; cases hn
  · next f' hf' =>
    rw [hf] at hf'; cases hf'
    rw [ha]
    rfl

theorem parseUntagged_stop {argv : List CStr} {nargc : Nat} {tabindex optind : Nat}
    {last : Option (Int × CStr × Nat)} {t : Table σ} (htab : tabindex < t.entries.length)
    (hopt : optind ≥ nargc) : parseUntagged argv nargc tabindex optind last t = .ok (optind, t) := by
  rw [parseUntagged.eq_def, dif_pos htab, dif_pos hopt]

theorem set_app {α : Type} (pre : List α) (h x : α) (rest : List α) :
    (pre ++ h :: rest).set pre.length x = pre ++ x :: rest := by
  simp

theorem untagged_sim {m : Nat} : ∀ (rest : List (Hdr σ)) (pre : List (Hdr σ)) (ops X : List CStr)
    (ml : Option (Int × CStr × Nat)) (sl : Option (Int × Nat)) (e : EndTbl) (errs : List ErrRec),
    LastRel ops ml sl → EndRel m errs e →
    Sim m (dropIdx (parseUntagged (X ++ ops) (X ++ ops).length pre.length X.length ml
        ⟨pre ++ rest, e⟩))
      (operands rest pre.length sl ops >>= fun p => .ok (pre ++ p.1, errs ++ p.2)) := by
  intro rest
  induction rest with
  | nil =>
    intro pre ops X ml sl e errs hlast he
    simp only [operands, bind_ok, List.append_nil]
    rw [parseUntagged.eq_def, dif_neg (by simp)]
    rcases hlast with ⟨rfl, hl⟩ | ⟨err, a, i, rfl, rfl, hh⟩
    · simp only
      obtain ⟨i, t', h1, h2, h3⟩ := restErrors_sim (m := m) ops X ⟨pre, e⟩ errs he
      rw [h1]
      refine ⟨t', rfl, h2, ?_⟩
      rcases hl with rfl | rfl
      · cases ops with
        | nil => simpa [leftover] using h3
        | cons a ops => exact h3
      · simpa [leftover] using h3
    · cases ops with
      | nil => cases hh
      | cons b ops =>
        simp only [List.head?_cons, Option.some.injEq] at hh
        subst hh
        obtain ⟨e', he', hr⟩ := registerError_step he (.entry i) err (some b)
        obtain ⟨j, t', h1, h2, h3⟩ := restErrors_sim (m := m) ops (X ++ [b]) ⟨pre, e'⟩ _ hr
        simp only [he', bind_ok]
        have hX : X ++ [b] ++ ops = X ++ b :: ops := by simp
        rw [hX] at h1
        rw [show (X ++ [b]).length = X.length + 1 by simp] at h1
        rw [h1]
        refine ⟨t', rfl, h2, ?_⟩
        simpa [leftover] using h3
  | cons h rest ih =>
    intro pre ops X ml sl e errs hlast he
    have htab : pre.length < (⟨pre ++ h :: rest, e⟩ : Table σ).entries.length := by simp
    have hget : (⟨pre ++ h :: rest, e⟩ : Table σ).entries[pre.length] = h := by simp
    by_cases hops : ops = []
    · subst hops
      rw [operands_nil, parseUntagged_stop htab (by simp)]
      exact ⟨_, rfl, rfl, by simpa using he⟩
    · have hopt : X.length < (X ++ ops).length := by
        have := List.length_pos_iff.2 hops
        simp; omega
      have ih' := fun ml sl hlast h' => ih (pre ++ [h']) ops X ml sl e errs hlast he
      simp only [operands, hops, if_false]
      by_cases htag : h.longopts.isSome ∨ h.shortopts.isSome
      · simp only [htag, if_true]
        rw [parseUntagged_tag htab hopt (by rw [hget]; exact Or.inl htag)]
        have := ih' ml sl hlast h
        simp only [List.length_append, List.length_cons, List.length_nil, List.append_assoc,
          List.cons_append, List.nil_append] at this
        simp only [M_bind_assoc, List.length_append, bind_ok]
        exact this
      · simp only [htag, if_false]
        cases hf : h.scanfn with
        | none =>
          simp only
          rw [parseUntagged_tag htab hopt (by rw [hget]; exact Or.inr hf)]
          have := ih' ml sl hlast h
          simp only [List.length_append, List.length_cons, List.length_nil, List.append_assoc,
            List.cons_append, List.nil_append] at this
          simp only [M_bind_assoc, List.length_append, bind_ok]
          exact this
        | some f =>
          simp only
          -- feeding the entry
          have inner : ∀ (ops X : List CStr) (p : σ) (ml : Option (Int × CStr × Nat)),
              Sim m (dropIdx (parseUntagged (X ++ ops) (X ++ ops).length pre.length X.length ml
                  ⟨pre ++ { h with parent := p } :: rest, e⟩))
                (feed f p ops >>= fun q =>
                  operands rest (pre.length + 1) (some (q.2.2, pre.length)) q.2.1 >>= fun r =>
                    .ok (pre ++ { h with parent := q.1 } :: r.1, errs ++ r.2)) := by
            intro ops
            induction ops with
            | nil =>
              intro X p ml
              simp only [feed, bind_ok, operands_nil]
              rw [parseUntagged_stop (by simp) (by simp)]
              exact ⟨_, rfl, rfl, by simpa using he⟩
            | cons a ops ihops =>
              intro X p ml
              have hget' : (⟨pre ++ { h with parent := p } :: rest, e⟩ : Table σ).entries[pre.length]'(by simp)
                  = { h with parent := p } := by simp
              rw [parseUntagged_scan (f := f) (a := a) (by simp) (by simp)
                (by rw [hget']; exact htag) (by rw [hget']; exact hf) (by simp)]
              simp only [feed]
              rw [hget']
              cases hfr : f p (some a) with
              | error er => simp [dropIdx, Sim]
              | ok q =>
                obtain ⟨p', err⟩ := q
                simp only [bind_ok, set_app]
                by_cases herr : err = 0
                · simp only [herr, if_true]
                  have := ihops (X ++ [a]) p' none
                  simp only [List.length_append, List.length_cons, List.length_nil,
                    List.append_assoc, List.cons_append, List.nil_append] at this
                  simp only [List.length_append, List.length_cons]
                  exact this
                · simp only [herr, if_false, bind_ok]
                  have := ih (pre ++ [{ h with parent := p' }]) (a :: ops) X
                    (some (err, a, pre.length)) (some (err, pre.length)) e errs
                    (Or.inr ⟨err, a, pre.length, rfl, rfl, rfl⟩) he
                  simp only [List.length_append, List.length_cons, List.length_nil,
                    List.append_assoc, List.cons_append, List.nil_append] at this
                  simp only [List.length_append, List.length_cons]
                  exact this
          have : Sim m (dropIdx (parseUntagged (X ++ ops) (X ++ ops).length pre.length X.length ml
              ⟨pre ++ h :: rest, e⟩)) _ := inner ops X h.parent ml
          simp only [hf] at this
          simp only [M_bind_assoc, bind_ok]
          exact this

/-! ### checks and reset -/

theorem parseCheck_sim {m : Nat} : ∀ (es : List (Hdr σ)) (i : Nat) (e : EndTbl)
    (errs : List ErrRec), EndRel m errs e →
    ∃ e', parseCheck es i e = .ok e' ∧ EndRel m (errs ++ checks es i) e' := by
  intro es
  induction es with
  | nil => intro i e errs h; exact ⟨e, rfl, by simpa [checks] using h⟩
  | cons h es ih =>
    intro i e errs hr
    unfold parseCheck checks
    cases hc : h.checkfn with
    | none => exact ih (i + 1) e errs hr
    | some f =>
      simp only
      by_cases hz : f h.parent = 0
      · simp only [hz, ne_eq, not_true_eq_false, if_false]
        exact ih (i + 1) e errs hr
      · obtain ⟨e', he', hr'⟩ := registerError_step hr (.entry i) (f h.parent) none
        obtain ⟨e'', h1, h2⟩ := ih (i + 1) e' _ hr'
        simp only [ne_eq, hz, not_false_eq_true, if_true, he', bind_ok]
        exact ⟨e'', h1, by simpa using h2⟩

theorem resetEntries_eq (es : List (Hdr σ)) : resetEntries es = resetAll es := by
  induction es with
  | nil => rfl
  | cons h t ih =>
    obtain ⟨a1, a2, a3, a4, a5, a6, a7, a8, p, r, a11, a12⟩ := h
    cases r with
    | none => simp [resetEntries, resetAll, ih]
    | some f =>
      simp only [resetEntries, resetAll, ih]
      cases f p <;> simp

theorem resetAll_decl {es es' : List (Hdr σ)} (h : resetAll es = .ok es') :
    es'.map declOf = es.map declOf := by
  induction es generalizing es' with
  | nil => cases h; rfl
  | cons hd t ih =>
    simp only [resetAll] at h
    cases ht : resetAll t with
    | error e =>
      rw [ht] at h
      split at h
      · cases h
      · next f hf => cases hp : f hd.parent <;> rw [hp] at h <;> cases h
    | ok t' =>
      rw [ht] at h
      split at h
      · cases h
        simp [ih ht, declOf]
      · next f hf =>
        cases hp : f hd.parent with
        | error e => rw [hp] at h; cases h
        | ok p => rw [hp] at h; cases h; simp [ih ht, declOf]

/-! ### the initial state -/

theorem scanStart_reset (nargc : Nat) (permute : Bool) (s : GState) (p : CStr) :
    scanStart nargc permute false { s with optreset := true, place := p } =
      scanStart nargc permute false { s with optreset := false, place := [] } := by
  conv_lhs => rw [scanStart]
  conv_rhs => rw [scanStart]
  simp only [Bool.true_or, Bool.false_or, List.isEmpty_nil, if_true, endOfArgs]
  cases h : (s.nonoptStart.isSome && s.nonoptEnd.isNone) <;> simp only [if_true, if_false, Bool.false_eq_true]

theorem getoptLong_init (env : Bool) (nargc : Nat) (so : CStr) (ls : List LongOpt) (g : GState) :
    getoptLong env nargc (':' :: so) ls { g with optind := 0 } =
      getoptLong env nargc (':' :: so) ls
        { g with optind := 1, optreset := false, place := [], nonoptStart := none,
                 nonoptEnd := none, posixly := some env } := by
  conv_rhs => rw [getoptLong_eq env nargc so ls _ env (by simp) rfl rfl]
  unfold getoptLong getoptInternal
  simp only [if_true, List.head?_cons, or_true]
  have e := scanStart_reset nargc (!env)
    { g with optind := 1, optarg := none, nonoptStart := none, nonoptEnd := none,
             posixly := some env } g.place
  simp only at e
  cases env <;>
  · simp at e ⊢
    rw [e]
    generalize scanStart _ _ _ _ = x
    cases x with
    | error e => rfl
    | ok st =>
      cases st with
      | ret c s => simp [afterStart]
      | go s => simp [afterStart]


/-- The state in which the first call of getopt effectively starts. -/
def initState (env : Bool) (argv : List CStr) (g : GState) : GState :=
  { g with nargv := argv, opterr := false, optind := 1, optreset := false, place := [],
           nonoptStart := none, nonoptEnd := none, posixly := some env }

theorem initState_lay (env : Bool) (a0 : CStr) (args : List CStr) (g : GState) :
    Lay env g.stderr (a0 :: args) (initState env (a0 :: args) g) [a0] [] [] args where
  argv := rfl
  optind := rfl
  pos := by simp
  reset := rfl
  posixly := rfl
  mode := Or.inl ⟨rfl, rfl, rfl, rfl⟩
  err := rfl
  perm := List.Perm.refl _
  head := rfl
  px := fun _ => rfl

theorem parseTagged_eq (env : Bool) (fuel : Nat) (a0 : CStr) (args : List CStr) (g : GState)
    (t : Table σ) (hwf : WF (t.entries.map declOf)) :
    parseTagged env fuel (a0 :: args).length { g with nargv := a0 :: args } t =
      taggedLoop env (a0 :: args).length (':' :: t.entries.flatMap shortChars)
        ((longTable (t.entries.map declOf) 0).map toLongOpt) fuel
        (initState env (a0 :: args) g) t := by
  unfold parseTagged
  rw [allocLongoptions_ok _ hwf, allocShortoptions_ok]
  simp only [bind_ok]
  exact taggedLoop_congr (getoptLong_init _ _ _ _ { g with nargv := a0 :: args, opterr := false }) _ _

theorem parseTagged_spec (env : Bool) (a0 : CStr) (args : List CStr) (hargs : CArgs args)
    (g : GState) (t : Table σ) (hwf : WF (t.entries.map declOf)) {evs : List Ev} {ops : List CStr}
    (htok : tokenize (t.entries.map declOf) env args = some (evs, ops)) :
    ∃ k gf, Final g.stderr (a0 :: args) gf ops ∧ ∀ n,
        parseTagged env (n + (k + 1)) (a0 :: args).length { g with nargv := a0 :: args } t =
          applyAll evs t >>= fun t' => .ok (gf, t') := by
  have := loop_spec (env := env) hwf (sopts_ok t.entries hwf) args.length args (Nat.le_refl _) hargs
    _ _ _ _ (initState_lay env a0 args g) rfl (Or.inl rfl)
  rw [htok] at this
  obtain ⟨k, gf, hf, hrun⟩ := this
  refine ⟨k, gf, by simpa using hf, fun n => ?_⟩
  rw [parseTagged_eq env _ a0 args g t hwf]
  exact hrun t n rfl

/-! ### the refinement theorem -/

theorem dropIdx_ok {x : M (Nat × Table σ)} {t : Table σ} (h : dropIdx x = .ok t) :
    ∃ i, x = .ok (i, t) := by
  cases x with
  | error e => cases h
  | ok p => exact ⟨p.1, by cases h; rfl⟩

theorem dropIdx_err {x : M (Nat × Table σ)} {e : Fault} (h : dropIdx x = .error e) :
    x = .error e := by
  cases x with
  | error e' => cases h; rfl
  | ok p => cases h

/-- The last part of `arg_parse`. -/
theorem finish_spec {m : Nat} {t : Table σ} {errs : List ErrRec} (h : EndRel m errs t.fin)
    (g : GState) :
    ∃ e, (if t.fin.count = 0 then
            (parseCheck t.entries 0 t.fin >>= fun e => .ok (e.count, { t with fin := e }, g))
          else .ok (t.fin.count, t, g) : M (Nat × Table σ × GState)) =
          .ok (e.count, ⟨t.entries, e⟩, g) ∧
      EndRel m (if errs = [] then checks t.entries 0 else errs) e := by
  have hpos := h.ok.pos
  by_cases he : errs = []
  · subst he
    obtain ⟨e', h1, h2⟩ := parseCheck_sim t.entries 0 t.fin [] h
    refine ⟨e', ?_, by simpa using h2⟩
    rw [if_pos (by rw [h.count]; simp), h1]
    rfl
  · have hl := List.length_pos_iff.2 he
    refine ⟨t.fin, ?_, by rw [if_neg he]; exact h⟩
    rw [if_neg (by rw [h.count]; omega)]

theorem argParse_spec (env : Bool) (t : Table σ) (m : Nat) (hend : EndOK m t.fin)
    (hwf : WF (t.entries.map declOf)) (argv : List CStr) (hargs : CArgs argv.tail) (g : GState)
    {evs : List Ev} {ops : List CStr}
    (htok : tokenize (t.entries.map declOf) env argv.tail = some (evs, ops)) :
    ∃ N, ∀ fuel, N ≤ fuel →
      match meaning t.entries evs ops with
      | .error f => argParse env fuel argv t g = .error f
      | .ok (es, errs) => ∃ r, argParse env fuel argv t g = .ok r ∧ Shows m argv g es errs r := by
  unfold meaning
  cases hres : resetAll t.entries with
  | error f =>
    refine ⟨0, fun fuel _ => ?_⟩
    simp only [bind_err, argParse, argReset, resetEntries_eq, hres]
  | ok es0 =>
    simp only [bind_ok]
    have hdecl := resetAll_decl hres
    set t0 : Table σ := ⟨es0, { t.fin with count := 0 }⟩ with ht0
    have h0 : EndRel m [] t0.fin := endRel_nil hend
    have hsim := applyAll_sim evs h0
    have hreset : argReset t = .ok t0 := by
      simp only [argReset, resetEntries_eq, hres, bind_ok, ht0]
    cases argv with
    | nil =>
      simp only [List.tail_nil, tokenize, Option.some.injEq, Prod.mk.injEq] at htok
      obtain ⟨rfl, rfl⟩ := htok
      obtain ⟨e, he, hr⟩ := finish_spec h0 g
      refine ⟨0, fun fuel _ => ?_⟩
      simp only [deliverAll, bind_ok, operands_nil, List.append_nil, if_true]
      refine ⟨(e.count, ⟨t0.entries, e⟩, g), ?_, ?_⟩
      · simp only [argParse, hreset, bind_ok, List.length_nil, if_true]
        rw [if_pos (by rfl)] at he
        exact he
      · simp only [if_true] at hr
        exact ⟨hr.count, rfl, hr, rfl, fun h => absurd rfl h, fun h => absurd rfl h⟩
    | cons a0 args =>
      have hwf0 : WF (t0.entries.map declOf) := by rw [show t0.entries = es0 from rfl, hdecl]; exact hwf
      have htok0 : tokenize (t0.entries.map declOf) env args = some (evs, ops) := by
        rw [show t0.entries = es0 from rfl, hdecl]; exact htok
      obtain ⟨k, gf, hfin, hrun⟩ := parseTagged_spec env a0 args hargs g t0 hwf0 htok0
      refine ⟨k + 1, fun fuel hfuel => ?_⟩
      obtain ⟨n, rfl⟩ : ∃ n, fuel = n + (k + 1) := ⟨fuel - (k + 1), by omega⟩
      have hmain : argParse env (n + (k + 1)) (a0 :: args) t g =
          applyAll evs t0 >>= fun t1 =>
            parseUntagged gf.nargv (a0 :: args).length 0 gf.optind none t1 >>= fun p =>
              (if p.2.fin.count = 0 then
                (parseCheck p.2.entries 0 p.2.fin >>= fun e =>
                  .ok (e.count, { p.2 with fin := e }, { gf with optind := p.1 }))
              else .ok (p.2.fin.count, p.2, { gf with optind := p.1 })) := by
        unfold argParse
        rw [hreset]
        simp only [bind_ok]
        rw [if_neg (by simp), hrun n, M_bind_assoc]
        rfl
      rw [hmain]
      cases hd : deliverAll evs (es0, ([] : List ErrRec)) with
      | error f =>
        have : Sim m (applyAll evs t0) (.error f) := by rw [← hd]; exact hsim
        rw [show applyAll evs t0 = .error f from this]
        simp only [bind_err]
      | ok q =>
        obtain ⟨es1, errs1⟩ := q
        have : Sim m (applyAll evs t0) (.ok (es1, errs1)) := by rw [← hd]; exact hsim
        obtain ⟨t1, h1, rfl, hr1⟩ := this
        rw [h1]
        simp only [bind_ok]
        obtain ⟨X, hX1, hX2, hX3, hX4, hX5, hX6⟩ := hfin
        have hlen : (a0 :: args).length = (X ++ ops).length := by rw [← hX1]; exact hX5.length_eq.symm
        have hunt := untagged_sim (m := m) t1.entries [] ops X none none t1.fin errs1
          (Or.inl ⟨rfl, Or.inl rfl⟩) hr1
        simp only [List.nil_append, List.length_nil] at hunt
        have hpu : parseUntagged gf.nargv (a0 :: args).length 0 gf.optind none t1 =
            parseUntagged (X ++ ops) (X ++ ops).length 0 X.length none t1 := by
          rw [hX1, hX2, hlen]
        rw [hpu]
        cases hop : operands t1.entries 0 none ops with
        | error f =>
          rw [hop] at hunt
          have := dropIdx_err (show dropIdx _ = .error f from hunt)
          rw [this]
          simp only [bind_err]
        | ok q =>
          obtain ⟨es2, errs2⟩ := q
          rw [hop] at hunt
          obtain ⟨t2, h2, rfl, hr2⟩ := hunt
          obtain ⟨i, hi⟩ := dropIdx_ok h2
          rw [hi]
          simp only [bind_ok]
          obtain ⟨e, he, hr⟩ := finish_spec hr2 { gf with optind := i }
          refine ⟨_, he, hr.count, rfl, hr, hX4, fun _ => hX5, fun _ => ?_⟩
          simp only [hX1]
          rw [head_append hX3, hX6]

end Argtable
