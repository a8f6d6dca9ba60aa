import Verif.Proofs.Cluster
/-!
# The loop of `arg_parse_tagged` follows the specification's tokenizer
-/

namespace Argtable
open Spec

/-- What the short option string must satisfy. -/
structure SoptsOK (so : CStr) (ds : List Decl) : Prop where
  look : ∀ c, c ≠ ':' →
    match shortLookup c ds 0 with
    | none => strchr so c = none
    | some (_, k) => ∃ oli, strchr so c = some oli ∧ OliOK oli k
  semi : ';' ∉ so

theorem sopts_ok {σ : Type} (es : List (Hdr σ)) (hwf : WF (es.map declOf)) :
    SoptsOK (es.flatMap shortChars) (es.map declOf) where
  look := fun c hc => strchr_sopts c hc es 0 hwf
  semi := fun h => sopts_no_semicolon es hwf (List.mem_cons_of_mem _ h)

theorem shortLookup_wf {ds : List Decl} (hwf : WF ds) {c : Char} {i j : Nat} {k : ValKind}
    (h : shortLookup c ds i = some (j, k)) :
    c ≠ '\x00' ∧ c ≠ ':' ∧ c ≠ ';' ∧ c ≠ '?' ∧ c ≠ '\xff' := by
  induction ds generalizing i with
  | nil => simp [shortLookup] at h
  | cons d ds ih =>
    simp only [shortLookup] at h
    split at h
    · next hm =>
      cases hs : d.short with
      | none => rw [hs] at hm; simp at hm
      | some s =>
        rw [hs] at hm
        exact (hwf d (by simp)).short s hs c (by simpa using hm)
    · exact ih (fun d hd => hwf d (by simp [hd])) h

section
variable {posix : Bool} {log : List CStr} {tot : List CStr}

theorem body_short {σ : Type} {ds : List Decl} (hwf : WF ds) {c : Char} {i : Nat} {k : ValKind}
    (hl : shortLookup c ds 0 = some (i, k)) (g : GState) (t : Table σ)
    (ht : t.entries.map declOf = ds) :
    charInt c ≠ -1 ∧ taggedBody (charInt c) g t = applyAll [.deliver i g.optarg] t := by
  obtain ⟨h0, h1, _, h3, h4⟩ := shortLookup_wf hwf hl
  have e0 : charInt c ≠ 0 := charInt_ne (d := '\x00') h0
  have e1 : charInt c ≠ 58 := charInt_ne (d := ':') h1
  have e3 : charInt c ≠ 63 := charInt_ne (d := '?') h3
  have e4 : charInt c ≠ -1 := charInt_ne (d := '\xff') h4
  refine ⟨e4, ?_⟩
  unfold taggedBody
  rw [if_neg e0, if_neg e3, if_neg e1, intChar_charInt, findShortoption_eq, ht, hl, applyAll_single]
  rfl

/-- One short option letter. -/
theorem short_read {s : GState} {P N O R : List CStr} {a : CStr} {ds : List Decl} (hwf : WF ds)
    {so : CStr} (hso : SoptsOK so ds) (ls : List LongOpt)
    (h : Lay posix log tot s P N O (a :: R)) (harg : s.optarg = none)
    {c : Char} {tl : CStr} (hp : s.place = c :: tl) (hc : c ≠ '-') (hc0 : c ≠ '\x00') :
    ∃ code s' evs n, shortPart s.nargv.length (':' :: so) (some ls) false s = .ok (code, s') ∧
      Read ds s s' code evs n ∧
      ((s'.place = tl ∧ n = (if tl = [] then 1 else 0) ∧
          readCluster ds a R.head? (c :: tl) =
            (readCluster ds a R.head? tl).map fun (e, u) => (evs ++ e, u)) ∨
       (s'.place = [] ∧ ∃ u, n = usedN u ∧ (u = true → R ≠ []) ∧
          readCluster ds a R.head? (c :: tl) = some (evs, u))) := by
  unfold shortPart
  rw [hp]
  simp only [hc, false_and, or_false, if_false, warn_colon, BADARG_colon, readCluster]
  by_cases hcol : c = ':'
  · -- ':' is never an option
    have hnone : shortLookup c ds 0 = none := by
      cases hl : shortLookup c ds 0 with
      | none => rfl
      | some p => exact absurd hcol (shortLookup_wf hwf (j := p.1) (k := p.2) hl).2.1
    simp only [hcol, if_true]
    rw [← hcol, hnone]
    refine ⟨63, { s with place := tl, optind := s.optind + (if tl = [] then 1 else 0),
                          optopt := charInt c }, [.fail (charInt c) none],
      (if tl = [] then 1 else 0), ?_, ⟨by decide, rfl, rfl, rfl, rfl, rfl, rfl, rfl, evOK_fail _ _, ?_⟩,
      Or.inl ⟨rfl, rfl, ?_⟩⟩
    · by_cases ht : tl = [] <;> simp [ht, BADCH]
    · intro σ t pl _
      unfold taggedBody
      rw [if_neg (by decide), if_pos rfl, if_neg (by exact charInt_ne (d := '\x00') hc0), applyAll_single]
      rfl
    · rfl
  · simp only [hcol, if_false]
    have hstr : strchr (':' :: so) c = strchr so c := by
      simp only [strchr]; rw [if_neg (Ne.symm hcol)]
    rw [hstr]
    have hlook := hso.look c hcol
    cases hl : shortLookup c ds 0 with
    | none =>
      rw [hl] at hlook
      simp only at hlook
      rw [hlook]
      refine ⟨63, { s with place := tl, optind := s.optind + (if tl = [] then 1 else 0),
                            optopt := charInt c }, [.fail (charInt c) none],
        (if tl = [] then 1 else 0), ?_, ⟨by decide, rfl, rfl, rfl, rfl, rfl, rfl, rfl, evOK_fail _ _, ?_⟩,
        Or.inl ⟨rfl, rfl, ?_⟩⟩
      · by_cases ht : tl = [] <;> simp [ht, BADCH]
      · intro σ t pl _
        unfold taggedBody
        rw [if_neg (by decide), if_pos rfl, if_neg (by exact charInt_ne (d := '\x00') hc0), applyAll_single]
        rfl
      · rfl
    | some p =>
      obtain ⟨i, k⟩ := p
      rw [hl] at hlook
      obtain ⟨oli, ho, hk⟩ := hlook
      rw [ho]
      have hsemi : oli.tail.head? ≠ some ';' := by
        intro hh
        have : ';' ∈ oli := by
          cases oli with
          | nil => simp at hh
          | cons x y => exact List.mem_cons_of_mem _ (List.mem_of_mem_head? (by simpa using hh))
        exact hso.semi (strchr_mem ho this)
      have hidx : i < ds.length := by have := shortLookup_lt hl; omega
      have hcode : charInt c ≠ -1 := (charInt_ne (d := '\xff') (shortLookup_wf hwf hl).2.2.2.2)
      simp only [hsemi, and_false, if_false]
      cases k with
      | no =>
        have hk' : oli.tail.head? ≠ some ':' := hk
        simp only [hk', ne_eq, not_false_eq_true, if_true]
        refine ⟨charInt c, { s with place := tl, optind := s.optind + (if tl = [] then 1 else 0) },
          [.deliver i none], (if tl = [] then 1 else 0), ?_,
          ⟨hcode, rfl, rfl, rfl, rfl, rfl, rfl, rfl, evOK_deliver hidx _, ?_⟩, Or.inl ⟨rfl, rfl, rfl⟩⟩
        · by_cases ht : tl = [] <;> simp [ht]
        · intro σ t pl ht
          rw [(body_short hwf hl _ t ht).2]
          simp only [harg]
      | req =>
        obtain ⟨hk1, hk2⟩ : oli.tail.head? = some ':' ∧ oli.tail.tail.head? ≠ some ':' := hk
        simp only [hk1, hk2, ne_eq, not_false_eq_true, not_true_eq_false, if_true, if_false]
        by_cases ht : tl = []
        · subst ht
          simp only [not_true_eq_false, if_false]
          cases R with
          | nil =>
            have hl' := h.length_last
            simp only [ge_iff_le, hl', le_refl, if_true, List.head?_nil]
            refine ⟨58, { s with place := [], optarg := none, optind := s.nargv.length,
                                  optopt := charInt c },
              [.fail ARG_EMISSARG (some a)], 1, rfl,
              ⟨by decide, rfl, hl'.symm, rfl, rfl, rfl, rfl, rfl, evOK_fail _ _, ?_⟩,
              Or.inr ⟨rfl, false, rfl, by simp, rfl⟩⟩
            intro σ t pl _
            have hp : argvPrev { s with place := pl, optarg := none, optind := s.nargv.length,
                                        optopt := charInt c } = .ok (some a) := by
              unfold argvPrev
              simp only
              rw [if_neg (by omega)]
              have := h.getElem
              rw [show s.nargv.length - 1 = s.optind by omega]
              exact argvAt_lt this
            unfold taggedBody
            rw [if_neg (by decide), if_neg (by decide), if_pos rfl, applyAll_single]
            simp only
            rw [hp]
            rfl
          | cons v R =>
            have hv := h.getElem_next
            have hlt : ¬ s.optind + 1 ≥ s.nargv.length := by
              intro hge
              rw [List.getElem?_eq_none hge] at hv; cases hv
            simp only [hlt, if_false, argvAt_lt hv, bind_ok, List.head?_cons]
            refine ⟨charInt c, { s with place := [], optarg := some v, optind := s.optind + 2 },
              [.deliver i (some v)], 2, rfl,
              ⟨hcode, rfl, rfl, rfl, rfl, rfl, rfl, rfl, evOK_deliver hidx _, ?_⟩,
              Or.inr ⟨rfl, true, rfl, by simp, rfl⟩⟩
            intro σ t pl ht
            rw [(body_short hwf hl _ t ht).2]
        · simp only [ht, not_false_eq_true, if_true]
          refine ⟨charInt c, { s with place := [], optarg := some tl, optind := s.optind + 1 },
              [.deliver i (some tl)], 1, rfl,
              ⟨hcode, rfl, rfl, rfl, rfl, rfl, rfl, rfl, evOK_deliver hidx _, ?_⟩,
              Or.inr ⟨rfl, false, rfl, by simp, rfl⟩⟩
          intro σ t pl ht
          rw [(body_short hwf hl _ t ht).2]
      | opt =>
        obtain ⟨hk1, hk2⟩ : oli.tail.head? = some ':' ∧ oli.tail.tail.head? = some ':' := hk
        simp only [hk1, hk2, ne_eq, not_true_eq_false, if_false]
        by_cases ht : tl = []
        · subst ht
          simp only [not_true_eq_false, if_false, if_true]
          refine ⟨charInt c, { s with place := [], optarg := none, optind := s.optind + 1 },
              [.deliver i none], 1, rfl,
              ⟨hcode, rfl, rfl, rfl, rfl, rfl, rfl, rfl, evOK_deliver hidx _, ?_⟩,
              Or.inr ⟨rfl, false, rfl, by simp, rfl⟩⟩
          intro σ t pl ht
          rw [(body_short hwf hl _ t ht).2]
        · simp only [ht, not_false_eq_true, if_true, if_false]
          refine ⟨charInt c, { s with place := [], optarg := some tl, optind := s.optind + 1 },
              [.deliver i (some tl)], 1, rfl,
              ⟨hcode, rfl, rfl, rfl, rfl, rfl, rfl, rfl, evOK_deliver hidx _, ?_⟩,
              Or.inr ⟨rfl, false, rfl, by simp, rfl⟩⟩
          intro σ t pl ht
          rw [(body_short hwf hl _ t ht).2]

/-! ### steps of the loop -/

/-- Starting in `g`, `k` rounds of the loop have the effect of `evs` and lead to `g'`. -/
structure Steps (env : Bool) (nargc : Nat) (sopts : CStr) (lopts : List LongOpt) (ds : List Decl)
    (g : GState) (k : Nat) (evs : List Ev) (g' : GState) : Prop where
  idx : EvOK ds evs
  run : ∀ {σ : Type} (t : Table σ) (n : Nat), t.entries.map declOf = ds →
    taggedLoop env nargc sopts lopts (n + k) g t =
      applyAll evs t >>= fun t' => taggedLoop env nargc sopts lopts n g' t'

variable {env : Bool} {nargc : Nat} {sopts : CStr} {lopts : List LongOpt} {ds : List Decl}

theorem Steps.refl (g : GState) : Steps env nargc sopts lopts ds g 0 [] g :=
  ⟨evOK_nil, by intro σ t n _; rfl⟩

theorem bind_congr_ok {α β : Type} {x : M α} {f g : α → M β} (h : ∀ a, x = .ok a → f a = g a) :
    (x >>= f) = (x >>= g) := by
  cases x with
  | error e => rfl
  | ok a => exact h a rfl

theorem Steps.trans {g g1 g2 : GState} {k1 k2 : Nat} {e1 e2 : List Ev}
    (h1 : Steps env nargc sopts lopts ds g k1 e1 g1)
    (h2 : Steps env nargc sopts lopts ds g1 k2 e2 g2) :
    Steps env nargc sopts lopts ds g (k1 + k2) (e1 ++ e2) g2 := by
  refine ⟨h1.idx.append h2.idx, ?_⟩
  intro σ t n ht
  rw [show n + (k1 + k2) = (n + k2) + k1 by omega, h1.run t _ ht, applyAll_append, M_bind_assoc]
  refine bind_congr_ok fun t' ht' => ?_
  exact h2.run t' n (by rw [applyAll_decl ht', ht])

theorem Steps.one {g g' : GState} {code : Int} {evs : List Ev}
    (hg : getoptLong env nargc sopts lopts g = .ok (code, g')) (hc : code ≠ -1)
    (hi : EvOK ds evs)
    (hb : ∀ {σ : Type} (t : Table σ), t.entries.map declOf = ds →
      taggedBody code g' t = applyAll evs t) :
    Steps env nargc sopts lopts ds g 1 evs g' := by
  refine ⟨hi, ?_⟩
  intro σ t n ht
  simp only [taggedLoop, hg, bind_ok, if_neg hc, hb t ht]

theorem taggedLoop_congr {σ : Type} {g g1 : GState}
    (h : getoptLong env nargc sopts lopts g = getoptLong env nargc sopts lopts g1)
    (n : Nat) (t : Table σ) :
    taggedLoop env nargc sopts lopts n g t = taggedLoop env nargc sopts lopts n g1 t := by
  cases n with
  | zero => rfl
  | succ n => simp only [taggedLoop, h]

theorem Steps.congr {g g1 g' : GState} {k : Nat} {evs : List Ev}
    (h : getoptLong env nargc sopts lopts g = getoptLong env nargc sopts lopts g1)
    (hs : Steps env nargc sopts lopts ds g1 k evs g') :
    Steps env nargc sopts lopts ds g k evs g' := by
  refine ⟨hs.idx, ?_⟩
  intro σ t n ht
  rw [taggedLoop_congr h, hs.run t n ht]

theorem split_list {R : List CStr} {a : CStr} {u : Bool} (h : u = true → R ≠ []) :
    ∃ A, A ≠ [] ∧ a :: R = A ++ (if u then R.tail else R) ∧ A.length = usedN u := by
  cases u with
  | false => exact ⟨[a], by simp, rfl, rfl⟩
  | true =>
    cases R with
    | nil => exact absurd rfl (h rfl)
    | cons b R => exact ⟨[a, b], by simp, rfl, rfl⟩

/-- Rules out: getopt on a state whose `place` is inside a cluster. -/
theorem getoptLong_place {so : CStr} {g : GState} {P N O R : List CStr}
    (h : Lay posix log tot g P N O R) (hp : g.place ≠ []) :
    getoptLong env nargc (':' :: so) lopts g =
      afterStart nargc (':' :: so) lopts (.go { g with optarg := none }) := by
  rw [getoptLong_eq env nargc so lopts g posix h.optind_ne h.reset h.posixly,
    scanStart_place (by exact h.reset) (by exact hp)]
  rfl

/-- What holds when an option argument has been read completely. -/
structure Done (posix : Bool) (log : List CStr) (tot : List CStr) (len : Nat) (g' : GState)
    (N R : List CStr) (P' O' : List CStr) : Prop where
  lay : Lay posix log tot g' P' N O' R
  place : g'.place = []
  set : g'.nonoptEnd = none ∨ O' ≠ []
  len : g'.nargv.length = len

/-- Reading a cluster. -/
theorem cluster_steps {ds : List Decl} (hwf : WF ds) {so : CStr} (hso : SoptsOK so ds)
    {P N O R : List CStr} {a : CStr} :
    ∀ (cl : CStr), cl ≠ [] → '\x00' ∉ cl → ∀ (g : GState), g.place = cl →
      Lay posix log tot g P N O (a :: R) → (N = [] ∨ g.nonoptEnd ≠ none) →
      match readCluster ds a R.head? cl with
      | some (evs, u) => ∃ k g' P' O',
          Steps env g.nargv.length (':' :: so) ((longTable ds 0).map toLongOpt) ds g (k + 1) evs g' ∧
          Done posix log tot g.nargv.length g' N (if u then R.tail else R) P' O' ∧
          (u = true → R ≠ [])
      | none => ∃ k evs g',
          Steps env g.nargv.length (':' :: so) ((longTable ds 0).map toLongOpt) ds g k evs g' ∧
          Lay posix log tot g' P N O (a :: R) ∧ (N = [] ∨ g'.nonoptEnd ≠ none) ∧
          g'.place = ['-'] ∧ g'.nargv.length = g.nargv.length := by
  intro cl
  induction cl with
  | nil => intro h; exact absurd rfl h
  | cons c tl ih =>
    intro _ hnul g hp hlay hm
    have hgo := getoptLong_place (env := env) (nargc := g.nargv.length)
      (lopts := (longTable ds 0).map toLongOpt) (so := so) hlay (by rw [hp]; simp)
    by_cases hc : c = '-'
    · subst hc
      simp only [readCluster, if_true]
      by_cases htl : tl = []
      · subst htl
        simp only [if_true]
        exact ⟨0, [], g, Steps.refl g, hlay, hm, hp, rfl⟩
      · simp only [htl, if_false]
        set s : GState := { g with optarg := none, place := tl } with hs
        have hlay' : Lay posix log tot s P N O (a :: R) := hlay.congr rfl rfl rfl rfl rfl rfl rfl
        obtain ⟨code, s', e, hr, hu⟩ := parseLong_read ds so hlay' rfl
        set rl := readLong ds a R.head? tl with hrl
        obtain ⟨A, hA, hsplit, hlen⟩ := split_list (a := a) (u := rl.2) hu
        have hadv := Lay.advance (g := s) (g' := { s' with place := [] }) (A := A)
          (R := if rl.2 then R.tail else R) (by rw [← hsplit]; exact hlay') hA hm
          (by exact hr.nargv) (by rw [hlen]; exact hr.optind) (by exact hr.optreset)
          (by exact hr.posixly) (by exact hr.nonoptStart) (by exact hr.nonoptEnd)
          (by exact hr.stderr)
        obtain ⟨P', O', hl2, hset⟩ := hadv
        refine ⟨0, { s' with place := [] }, P', O', ?_, ⟨hl2, rfl, hset, ?_⟩, hu⟩
        · refine Steps.one (code := code) ?_ hr.code_ne hr.idx (fun t ht => hr.body t [] ht)
          rw [hgo]
          unfold afterStart
          simp only [hp, List.head?_cons, List.tail_cons, if_true, htl, if_false]
          rw [← hs, e]
          simp only [bind_ok, ne_eq, hr.code_ne, not_false_eq_true, if_true]
        · simp only [hr.nargv]; rfl
    · have hc0 : c ≠ '\x00' := fun h => hnul (by simp [h])
      obtain ⟨code, s', evs, n, e, hr, hcase⟩ := short_read (s := { g with optarg := none }) hwf hso
        ((longTable ds 0).map toLongOpt) (hlay.congr rfl rfl rfl rfl rfl rfl rfl) rfl (c := c)
        (tl := tl) hp hc hc0
      have hg : getoptLong env g.nargv.length (':' :: so) ((longTable ds 0).map toLongOpt) g
          = .ok (code, s') := by
        rw [hgo]
        unfold afterStart
        dsimp only
        rw [if_neg (by simp only [hp, List.head?_cons, Option.some.injEq]; exact hc)]
        exact e
      have hstep : Steps env g.nargv.length (':' :: so) ((longTable ds 0).map toLongOpt) ds g 1
          evs s' := Steps.one hg hr.code_ne hr.idx (fun t ht => by
            have := hr.body t s'.place ht
            exact this)
      rcases hcase with ⟨hpl, hn, hrc⟩ | ⟨hpl, u, hn, hu, hrc⟩
      · rw [hrc]
        by_cases htl : tl = []
        · subst htl
          simp only [readCluster, Option.map_some, List.append_nil]
          have hadv := Lay.advance (g' := s') (A := [a]) (R := R) hlay (by simp) hm
            (by exact hr.nargv) (by rw [hr.optind, hn]; simp) (by exact hr.optreset)
            (by exact hr.posixly) (by exact hr.nonoptStart) (by exact hr.nonoptEnd)
            (by exact hr.stderr)
          obtain ⟨P', O', hl2, hset⟩ := hadv
          exact ⟨0, s', P', O', hstep, ⟨hl2, hpl, hset, by rw [hr.nargv]⟩, by simp⟩
        · have hlay' : Lay posix log tot s' P N O (a :: R) :=
            hlay.congr (by exact hr.nargv) (by rw [hr.optind, hn]; simp [htl]) (by exact hr.optreset)
              (by exact hr.posixly) (by exact hr.nonoptStart) (by exact hr.nonoptEnd)
              (by exact hr.stderr)
          have hlen : s'.nargv.length = g.nargv.length := by rw [hr.nargv]
          have := ih htl (fun h => hnul (by simp [h])) s' hpl hlay' (by rw [hr.nonoptEnd]; exact hm)
          rw [hlen] at this
          cases hrest : readCluster ds a R.head? tl with
          | none =>
            rw [hrest] at this
            obtain ⟨k, evs', g', h1, h2, h3, h4, h5⟩ := this
            exact ⟨1 + k, evs ++ evs', g', hstep.trans h1, h2, h3, h4, h5⟩
          | some p =>
            obtain ⟨evs', u⟩ := p
            rw [hrest] at this
            obtain ⟨k, g', P', O', h1, h2, h3⟩ := this
            refine ⟨1 + k, g', P', O', ?_, h2, h3⟩
            rw [show 1 + k + 1 = 1 + (k + 1) by omega]
            exact hstep.trans h1
      · rw [hrc]
        obtain ⟨A, hA, hsplit, hlen⟩ := split_list (a := a) (u := u) hu
        have hadv := Lay.advance (g' := s') (A := A) (R := if u then R.tail else R)
          (by rw [← hsplit]; exact hlay) hA hm
          (by exact hr.nargv) (by rw [hlen, hr.optind, hn]) (by exact hr.optreset)
          (by exact hr.posixly) (by exact hr.nonoptStart) (by exact hr.nonoptEnd)
          (by exact hr.stderr)
        obtain ⟨P', O', hl2, hset⟩ := hadv
        exact ⟨0, s', P', O', hstep, ⟨hl2, hpl, hset, by rw [hr.nargv]⟩, hu⟩


/-! ### the whole command line -/

theorem getoptLong_option {so : CStr} {g : GState} {P N O R : List CStr} {a : CStr}
    (h : Lay posix log tot g P N O (a :: R)) (hp : g.place = []) (ha : isOperand a = false)
    (hdd : a.tail ≠ ['-']) :
    getoptLong env g.nargv.length (':' :: so) lopts g =
      getoptLong env g.nargv.length (':' :: so) lopts (enter g a.tail) := by
  have hne : a.tail ≠ [] := by
    intro hn
    have := (isOperand_iff a).2 (Or.inr hn)
    rw [ha] at this; cases this
  have hsc := scanStart_option (g := { g with optarg := none })
    (h.congr rfl rfl rfl rfl rfl rfl rfl) hp ha (!posix)
  rw [getoptLong_eq env g.nargv.length so lopts g posix h.optind_ne h.reset h.posixly]
  rw [getoptLong_place (enter_lay (cl := a.tail) h).1 (by exact hne)]
  have hsc' : scanStart g.nargv.length (!posix) false { g with optarg := none } = _ := hsc
  rw [hsc', if_neg hdd]
  rfl

/-- A state from which getopt never gets on: the next argument is a cluster ending in a lone `-`. -/
structure HungAt (ds : List Decl) (posix : Bool) (log : List CStr) (tot : List CStr)
    (g : GState) (P N O R : List CStr) (a : CStr) : Prop where
  lay : Lay posix log tot g P N O (a :: R)
  place : g.place = []
  opt : isOperand a = false
  dd : a.tail ≠ ['-']
  rd : readCluster ds a R.head? a.tail = none
  nul : '\x00' ∉ a

theorem opt_tail_ne {a : CStr} (ha : isOperand a = false) : a.tail ≠ [] := by
  intro hn
  have := (isOperand_iff a).2 (Or.inr hn)
  rw [ha] at this; cases this

theorem not_mem_tail {a : CStr} {c : Char} (h : c ∉ a) : c ∉ a.tail := fun hh =>
  h (List.mem_of_mem_tail hh)

theorem hung_cycle {ds : List Decl} (hwf : WF ds) {so : CStr} (hso : SoptsOK so ds)
    {g : GState} {P N O R : List CStr} {a : CStr} (h : HungAt ds posix log tot g P N O R a) :
    ∃ k evs g', Steps env g.nargv.length (':' :: so) ((longTable ds 0).map toLongOpt) ds g (k + 1)
        evs g' ∧ HungAt ds posix log tot g' P N O R a ∧ g'.nargv.length = g.nargv.length := by
  obtain ⟨el, em⟩ := enter_lay (cl := a.tail) h.lay
  have := cluster_steps (env := env) (posix := posix) (log := log) (tot := tot) hwf hso a.tail
    (opt_tail_ne h.opt) (not_mem_tail h.nul) (enter g a.tail) rfl el em
  rw [h.rd] at this
  obtain ⟨k, evs, g', hst, hl, hm, hp, hlen⟩ := this
  have hgo := getoptLong_place (env := env) (nargc := g.nargv.length)
      (lopts := (longTable ds 0).map toLongOpt) (so := so) hl (by rw [hp]; simp)
  have hlen' : g'.nargv.length = g.nargv.length := hlen
  have h1 : Steps env g.nargv.length (':' :: so) ((longTable ds 0).map toLongOpt) ds g k evs g' :=
    Steps.congr (getoptLong_option h.lay h.place h.opt h.dd) hst
  -- the element before the current one
  have hprev : ∃ x, argvPrev { g' with place := [], optarg := none } = .ok (some x) := by
    have hne := hl.optind_ne
    have hlt := hl.lt
    refine ⟨g'.nargv[g'.optind - 1], ?_⟩
    unfold argvPrev
    simp only [hne, if_false]
    exact argvAt_lt (List.getElem?_eq_getElem (by omega))
  obtain ⟨x, hx⟩ := hprev
  refine ⟨k, evs ++ [.fail ARG_EMISSARG (some x)], { g' with place := [], optarg := none }, ?_,
    ⟨hl.congr rfl rfl rfl rfl rfl rfl rfl, rfl, h.opt, h.dd, h.rd, h.nul⟩, hlen'⟩
  refine Steps.trans h1 (Steps.one (code := 58) ?_ (by decide) (evOK_fail _ _) ?_)
  · rw [hgo]
    unfold afterStart
    simp only [hp, List.head?_cons, if_true, List.tail_cons, BADARG_colon]
  · intro σ t _
    unfold taggedBody
    rw [if_neg (by decide), if_neg (by decide), if_pos rfl, hx, applyAll_single]
    rfl

/-- The loop over the whole command line. -/
theorem loop_spec {ds : List Decl} (hwf : WF ds) {so : CStr} (hso : SoptsOK so ds) :
    ∀ (m : Nat) (R : List CStr), R.length ≤ m → CArgs R →
    ∀ (g : GState) (P N O : List CStr), Lay posix log tot g P N O R → g.place = [] →
      (g.nonoptEnd = none ∨ O ≠ []) →
      match tokenize ds posix R with
      | some (evs, ops) => ∃ k gf, Final log tot gf (N ++ ops) ∧
          ∀ {σ : Type} (t : Table σ) (n : Nat), t.entries.map declOf = ds →
            taggedLoop env g.nargv.length (':' :: so) ((longTable ds 0).map toLongOpt)
              (n + (k + 1)) g t = applyAll evs t >>= fun t' => .ok (gf, t')
      | none => ∃ k evs g' P' N' O' R' a,
          Steps env g.nargv.length (':' :: so) ((longTable ds 0).map toLongOpt) ds g k evs g' ∧
          HungAt ds posix log tot g' P' N' O' R' a ∧ g'.nargv.length = g.nargv.length := by
  intro m
  induction m with
  | zero =>
    intro R hR _ g P N O hl hp hset
    have : R = [] := List.length_eq_zero_iff.1 (by omega)
    subst this
    simp only [tokenize, List.append_nil]
    obtain ⟨gf, e, f⟩ := scanStart_end (g := { g with optarg := none })
      (hl.congr rfl rfl rfl rfl rfl rfl rfl) hp hset (!posix)
    refine ⟨0, gf, f, ?_⟩
    intro σ t n _
    have e' : scanStart g.nargv.length (!posix) false { g with optarg := none } = _ := e
    simp only [taggedLoop,
      getoptLong_eq env g.nargv.length so _ g posix hl.optind_ne hl.reset hl.posixly, e', bind_ok,
      afterStart, if_true, applyAll]
  | succ m ih =>
    intro R hR hca g P N O hl hp hset
    cases R with
    | nil => exact (by
        simp only [tokenize, List.append_nil]
        obtain ⟨gf, e, f⟩ := scanStart_end (g := { g with optarg := none })
          (hl.congr rfl rfl rfl rfl rfl rfl rfl) hp hset (!posix)
        refine ⟨0, gf, f, ?_⟩
        intro σ t n _
        have e' : scanStart g.nargv.length (!posix) false { g with optarg := none } = _ := e
        simp only [taggedLoop,
          getoptLong_eq env g.nargv.length so _ g posix hl.optind_ne hl.reset hl.posixly, e',
          bind_ok, afterStart, if_true, applyAll])
    | cons a R =>
      have hR' : R.length ≤ m := by simpa using hR
      have hcaR : CArgs R := fun b hb => hca b (by simp [hb])
      have hnul : '\x00' ∉ a := hca a (by simp)
      have hl0 : Lay posix log tot { g with optarg := none } P N O (a :: R) :=
        hl.congr rfl rfl rfl rfl rfl rfl rfl
      have hgo := getoptLong_eq env g.nargv.length so ((longTable ds 0).map toLongOpt) g posix
        hl.optind_ne hl.reset hl.posixly
      rw [tokenize]
      by_cases hdd : a = ['-', '-']
      · -- end of options
        rw [if_pos hdd]
        have ha : isOperand a = false := by rw [hdd]; rfl
        have e' : scanStart g.nargv.length (!posix) false { g with optarg := none } = _ :=
          scanStart_option hl0 hp ha (!posix)
        rw [if_pos (by rw [hdd]; rfl)] at e'
        obtain ⟨el, em⟩ := enter_lay (cl := a.tail) hl0
        obtain ⟨gf, e, f⟩ := foundDashDash_lay el em
        refine ⟨0, gf, f, ?_⟩
        intro σ t n _
        simp only [taggedLoop, hgo, e', e, bind_ok, afterStart, if_true, applyAll]
      · rw [if_neg hdd]
        by_cases ha : isOperand a = true
        · rw [if_pos ha]
          cases hpx : posix with
          | true =>
            simp only [if_true]
            obtain ⟨gf, e, f⟩ := scanStart_posix_operand hl0 hp ha hpx
            refine ⟨0, gf, f, ?_⟩
            intro σ t n _
            have e' : scanStart g.nargv.length (!posix) false { g with optarg := none }
                = .ok (.ret (-1) gf) := by
              rw [hpx]; exact e
            simp only [taggedLoop, hgo, e', bind_ok, afterStart, if_true, applyAll]
          | false =>
            simp only [Bool.false_eq_true, if_false]
            obtain ⟨g1, P1, e, hl1, hp1, hn1, ho1, hlen1⟩ := scanStart_operand hl0 hp ha hset hpx
            have hlen1' : g1.nargv.length = g.nargv.length := hlen1
            have hcong : getoptLong env g.nargv.length (':' :: so) ((longTable ds 0).map toLongOpt) g
                = getoptLong env g.nargv.length (':' :: so) ((longTable ds 0).map toLongOpt) g1 := by
              rw [hgo, getoptLong_eq env g.nargv.length so _ g1 posix hl1.optind_ne hl1.reset
                hl1.posixly]
              have hg1 : ({ g1 with optarg := none } : GState) = g1 := by
                cases g1; simp only at ho1; simp [ho1]
              rw [hg1, hpx]
              have e' : scanStart g.nargv.length (!false) false { g with optarg := none } = _ := e
              rw [e']
              rfl
            have := ih R hR' hcaR g1 P1 (N ++ [a]) [] hl1 hp1 (Or.inl hn1)
            rw [hlen1', hpx] at this
            cases htok : tokenize ds false R with
            | none =>
              rw [htok] at this
              obtain ⟨k, evs, g', P', N', O', R', a', hs, hh, hlen⟩ := this
              exact ⟨k, evs, g', P', N', O', R', a', Steps.congr hcong hs, hh, hlen⟩
            | some p =>
              obtain ⟨evs, ops⟩ := p
              rw [htok] at this
              obtain ⟨k, gf, f, hrun⟩ := this
              refine ⟨k, gf, by simpa using f, ?_⟩
              intro σ t n ht
              rw [taggedLoop_congr hcong, hrun t n ht]
        · rw [if_neg ha]
          have ha' : isOperand a = false := by simpa using ha
          have hdd' : a.tail ≠ ['-'] := by
            intro ht
            cases a with
            | nil => simp at ht
            | cons c tl =>
              simp only [List.tail_cons] at ht
              subst ht
              by_cases hc : c = '-'
              · exact hdd (by rw [hc])
              · exact absurd ((isOperand_iff _).2 (Or.inl (by simpa using hc))) ha
          have hcong := getoptLong_option (env := env) (so := so)
            (lopts := (longTable ds 0).map toLongOpt) hl hp ha' hdd'
          obtain ⟨el, em⟩ := enter_lay (cl := a.tail) hl
          have hcl := cluster_steps (env := env) (posix := posix) (log := log) (tot := tot) hwf hso
            a.tail (opt_tail_ne ha') (not_mem_tail hnul) (enter g a.tail) rfl el em
          have hlenE : (enter g a.tail).nargv.length = g.nargv.length := rfl
          rw [hlenE] at hcl
          cases hrc : readCluster ds a R.head? a.tail with
          | none =>
            simp only
            exact ⟨0, [], g, P, N, O, R, a, Steps.refl g,
              ⟨hl, hp, ha', hdd', hrc, hnul⟩, rfl⟩
          | some p =>
            obtain ⟨evs, u⟩ := p
            rw [hrc] at hcl
            obtain ⟨k, g1, P1, O1, hst, hdone, hu⟩ := hcl
            have hst' : Steps env g.nargv.length (':' :: so) ((longTable ds 0).map toLongOpt) ds g
                (k + 1) evs g1 := Steps.congr hcong hst
            have key : ∀ R1 : List CStr, R1 = (if u = true then R.tail else R) → R1.length ≤ m →
                CArgs R1 →
                match (tokenize ds posix R1).map
                    (fun (p : List Ev × List CStr) => (evs ++ p.1, p.2)) with
                | some (evs, ops) => ∃ k gf, Final log tot gf (N ++ ops) ∧
                    ∀ {σ : Type} (t : Table σ) (n : Nat), t.entries.map declOf = ds →
                      taggedLoop env g.nargv.length (':' :: so) ((longTable ds 0).map toLongOpt)
                        (n + (k + 1)) g t = applyAll evs t >>= fun t' => .ok (gf, t')
                | none => ∃ k evs g' P' N' O' R' a,
                    Steps env g.nargv.length (':' :: so) ((longTable ds 0).map toLongOpt) ds g k
                      evs g' ∧
                    HungAt ds posix log tot g' P' N' O' R' a ∧
                    g'.nargv.length = g.nargv.length := by
              intro R1 hR1 hlen1 hca1
              have := ih R1 hlen1 hca1 g1 P1 N O1 (by rw [hR1]; exact hdone.lay) hdone.place
                hdone.set
              rw [hdone.len] at this
              cases htok : tokenize ds posix R1 with
              | none =>
                rw [htok] at this
                obtain ⟨k', evs', g', P', N', O', R', a', hs, hh, hlen⟩ := this
                exact ⟨k + 1 + k', evs ++ evs', g', P', N', O', R', a', hst'.trans hs, hh, hlen⟩
              | some p =>
                obtain ⟨evs', ops⟩ := p
                rw [htok] at this
                obtain ⟨k', gf, f, hrun⟩ := this
                refine ⟨k' + 1 + k, gf, f, ?_⟩
                intro σ t n ht
                rw [show n + (k' + 1 + k + 1) = (n + (k' + 1)) + (k + 1) by omega, hst'.run t _ ht,
                  applyAll_append, M_bind_assoc]
                refine bind_congr_ok fun t' ht' => ?_
                exact hrun t' n (by rw [applyAll_decl ht', ht])
            cases u with
            | false => exact key R rfl hR' hcaR
            | true =>
              cases R with
              | nil => exact absurd rfl (hu rfl)
              | cons v R =>
                exact key R rfl (by simp at hR'; omega) (fun b hb => hcaR b (by simp [hb]))

end
end Argtable
