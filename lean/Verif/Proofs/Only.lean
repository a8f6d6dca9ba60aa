import Verif.Proofs.Loop
import Verif.Proofs.GetoptAny
import Verif.Spec.Only
/-!
# The loop of `arg_parse_tagged` with `getopt_long_only`
-/

namespace Argtable
open Spec

/-- The rest of `getopt_internal` (called from `getopt_long_only`) after the `start:` part. -/
def afterStartOnly (nargc : Nat) (options : CStr) (ls : List LongOpt) : Start → M (Int × GState)
  | .ret code s => .ok (code, s)
  | .go s =>
    if s.place.head? = some '-' then
      if s.place.tail = [] then .ok (BADARG options, { s with place := s.place.tail })
      else do
        let (optchar, s) ← parseLongOptions options ls false true (cs "--") { s with place := s.place.tail }
        if optchar ≠ -1 then .ok (optchar, { s with place := [] })
        else shortPart nargc options (some ls) true s
    else do
      let (optchar, s) ← parseLongOptions options ls (match s.place.head? with
          | some c => c != ':' && (strchr options c).isSome
          | none => false) true (cs "-") s
      if optchar ≠ -1 then .ok (optchar, { s with place := [] })
      else shortPart nargc options (some ls) true s

theorem getoptLongOnly_eq (env : Bool) (nargc : Nat) (so : CStr) (ls : List LongOpt) (g : GState)
    (posix : Bool) (h0 : g.optind ≠ 0) (hr : g.optreset = false) (hp : g.posixly = some posix) :
    getoptLongOnly env nargc (':' :: so) ls g =
      (scanStart nargc (!posix) false { g with optarg := none } >>= afterStartOnly nargc (':' :: so) ls) := by
  unfold getoptLongOnly getoptInternal
  simp only [h0, if_false, hr, hp, List.head?_cons]
  have e : ({ g with posixly := some posix, optreset := false, optarg := none } : GState)
      = { g with optarg := none } := by
    cases g; simp at hp hr; simp [hp, hr]
  simp [hr]
  rw [e]
  cases hs : scanStart nargc (!posix) false { g with optarg := none } with
  | error e => simp
  | ok st =>
    cases st with
    | ret code s => simp [afterStartOnly]
    | go s =>
      simp [afterStartOnly]
      rfl

theorem resolveName_only (ls : List Long) (st : Bool) (p : CStr) :
    Getopt.resolveName (ls.map toLongOpt) true st p = match namedOnly ls st p with
      | .unknown => .unknown
      | .ambiguous => .ambiguous
      | .option l => .means (toLongOpt l) := by
  have hn : ∀ l : Long, (toLongOpt l).name = l.name := fun _ => rfl
  unfold Getopt.resolveName namedOnly
  rw [List.find?_map]
  have hf : ls.find? ((fun l => decide (LongOpt.name l = p)) ∘ toLongOpt) = ls.find? (fun l => l.name == p) := by
    congr 1
    funext l
    simp only [Function.comp, hn, beq_eq_decide]
  rw [hf]
  cases ls.find? (fun l => l.name == p) with
  | some l => rfl
  | none =>
    dsimp only [Option.map_none]
    rw [List.filter_map]
    by_cases h1 : st = true ∧ p.length = 1
    · have : ls.filter ((fun l : LongOpt => decide (p.isPrefixOf l.name = true ∧ ¬ (st = true ∧ p.length = 1))) ∘ toLongOpt) = [] := by
        rw [List.filter_eq_nil_iff]
        intro l _
        simp [h1]
      rw [this, if_pos h1]
      rfl
    · have : ls.filter ((fun l : LongOpt => decide (p.isPrefixOf l.name = true ∧ ¬ (st = true ∧ p.length = 1))) ∘ toLongOpt) =
          ls.filter (fun l => p.isPrefixOf l.name) := by
        congr 1
        funext l
        simp only [Function.comp, hn, h1, not_false_eq_true, and_true, Bool.decide_eq_true]
      rw [this, if_neg h1]
      cases ls.filter (fun l => p.isPrefixOf l.name) with
      | nil => rfl
      | cons l rest =>
        cases rest with
        | nil => simp
        | cons m rest =>
          simp only [List.map_cons]
          rw [if_neg (fun h => absurd (h (toLongOpt m) (List.mem_cons_self)).1 (by decide))]

section
variable {posix : Bool} {log : List CStr} {tot : List CStr}

theorem parseName_read {dash : CStr} {s : GState} {P N O R : List CStr} {a : CStr} (ds : List Decl)
    (so : CStr) (letter : Bool) (h : Lay posix log tot s P N O (a :: R)) (harg : s.optarg = none) :
    match readNameOnly ds a R.head? letter s.place with
    | some (evs, u) => ∃ code s', parseLongOptions (':' :: so) ((longTable ds 0).map toLongOpt) letter true dash s
        = .ok (code, s') ∧ Read ds s s' code evs (usedN u) ∧ (u = true → R ≠ [])
    | none => if letter then parseLongOptions (':' :: so) ((longTable ds 0).map toLongOpt) letter true dash s = .ok (-1, s)
        else ∃ code s', parseLongOptions (':' :: so) ((longTable ds 0).map toLongOpt) letter true dash s
          = .ok (code, s') ∧ Read ds s s' code [.fail ARG_ELONGOPT (some a)] 1 := by
  have hm := matchLoop_cases s.place letter true ((longTable ds 0).map toLongOpt)
  rw [resolveName_only] at hm
  have hmem : ∀ l, namedOnly (longTable ds 0) letter (s.place.takeWhile (· ≠ '=')) = .option l → l ∈ longTable ds 0 := by
    intro l hl
    unfold namedOnly at hl
    split at hl
    · next hf => cases hl; exact List.mem_of_find?_eq_some hf
    · split at hl
      · cases hl
      · split at hl
        · cases hl
        · next l' hf =>
          cases hl
          have : l ∈ (longTable ds 0).filter (fun l => (s.place.takeWhile (· ≠ '=')).isPrefixOf l.name) := by rw [hf]; simp
          exact List.mem_of_mem_filter this
        · cases hl
  -- the outcome "invalid long option"
  have bad : ∀ s' : GState, s'.nargv = s.nargv → s'.optind = s.optind + 1 →
      s'.optreset = s.optreset → s'.posixly = s.posixly → s'.nonoptStart = s.nonoptStart →
      s'.nonoptEnd = s.nonoptEnd → s'.stderr = s.stderr → s'.optopt = 0 →
      Read ds s s' BADCH [.fail ARG_ELONGOPT (some a)] 1 := by
    intro s' h1 h2 h3 h4 h5 h6 h7 h8
    refine ⟨by decide, h1, h2, h3, h4, h5, h6, h7, evOK_fail _ _, ?_⟩
    intro σ t pl _
    have hp : argvPrev { s' with place := pl } = .ok (some a) := by
      unfold argvPrev
      simp only [h1, h2]
      rw [if_neg (by omega)]
      exact argvAt_lt h.getElem
    rw [applyAll_single]
    unfold taggedBody
    rw [if_neg (by decide), if_pos (by rfl), if_pos (by exact h8), hp]
    rfl
  unfold readNameOnly parseLongOptions
  simp only [warn_colon, BADARG_colon] at hm ⊢
  revert hm
  generalize matchLoop s.place (curLen s.place) letter true ((longTable ds 0).map toLongOpt) none false = r
  cases hnm : namedOnly (longTable ds 0) letter (s.place.takeWhile (· ≠ '=')) with
  | unknown =>
    rintro ⟨hm, hn⟩
    dsimp only
    rw [hm, hn]
    simp only [Bool.false_eq_true, if_false]
    cases letter with
    | true => simp only [if_true]; rfl
    | false =>
      simp only [Bool.false_eq_true, if_false]
      exact ⟨_, _, rfl, bad _ rfl rfl rfl rfl rfl rfl rfl rfl⟩
  | ambiguous =>
    intro hm
    dsimp only at hm ⊢
    rw [hm]
    simp only [if_true]
    exact ⟨_, _, rfl, bad _ rfl rfl rfl rfl rfl rfl rfl rfl, by simp⟩
  | option l =>
    rintro ⟨hm, hn⟩
    obtain ⟨d, hd1, hd2, _⟩ := longTable_entry_lt ds 0 l (hmem l hnm)
    have hlt : l.entry < ds.length := by
      by_contra hc
      rw [List.getElem?_eq_none (by omega)] at hd1; cases hd1
    rw [hm, hn]
    simp only [Bool.false_eq_true, if_false]
    -- the outcome "delivered"
    have good : ∀ (s' : GState) (arg : Option CStr) (w : CStr) (n : Nat), s'.nargv = s.nargv →
        s'.optind = s.optind + (n + 1) →
        s'.optreset = s.optreset → s'.posixly = s.posixly → s'.nonoptStart = s.nonoptStart →
        s'.nonoptEnd = s.nonoptEnd → s'.stderr = s.stderr → s'.getoptval = l.entry →
        s'.optarg = arg → s.nargv[s.optind + n]? = some w →
        Read ds s s' 0 ((match arg with
          | some v => emptyValueError ds l.entry v w
          | none => []) ++ [.deliver l.entry arg]) (n + 1) := by
      intro s' arg w n h1 h2 h3 h4 h5 h6 h7 h8 h9 h10
      refine ⟨by decide, h1, h2, h3, h4, h5, h6, h7, EvOK.append ?_ (evOK_deliver hlt _), ?_⟩
      · cases arg with
        | none => exact evOK_nil
        | some v => exact evOK_empty _ _ _
      intro σ t pl ht
      have := taggedBody_long (g := { s' with place := pl }) (t := t) (ds := ds) (w := w) ht
        (by simp only [h8]; exact hlt)
        (by unfold argvPrev
            simp only [h1, h2]
            rw [if_neg (by omega)]
            exact argvAt_lt h10)
      rw [this]
      cases arg <;> simp only [h8, h9]
    rw [hasEqual_eq]
    generalize hbody : s.place = body at *
    obtain ⟨nm, i, kind⟩ := l
    simp only at hlt hd2 good ⊢
    simp only [toLongOpt]
    by_cases heq : '=' ∈ body
    · -- a value is attached
      simp only [if_pos heq]
      cases kind with
      | no =>
        simp only [kindNum, Option.isSome_some, and_self, if_true]
        refine ⟨_, _, rfl, bad _ rfl rfl rfl rfl rfl rfl rfl rfl, by simp⟩
      | req =>
        have := good { s with optind := s.optind + 1, optarg := some (body.dropWhile (· ≠ '=')).tail,
                              getoptval := i } _ a 0 rfl rfl rfl rfl rfl rfl rfl rfl rfl h.getElem
        refine ⟨0, _, ?_, this, by simp⟩
        simp [kindNum, fetchLongArg, hbody]
      | opt =>
        have := good { s with optind := s.optind + 1, optarg := some (body.dropWhile (· ≠ '=')).tail,
                              getoptval := i } _ a 0 rfl rfl rfl rfl rfl rfl rfl rfl rfl h.getElem
        refine ⟨0, _, ?_, this, by simp⟩
        simp [kindNum, fetchLongArg, hbody]
    · simp only [if_neg heq]
      cases kind with
      | no =>
        have := good { s with optind := s.optind + 1, getoptval := i } none a 0 rfl rfl rfl rfl rfl
          rfl rfl rfl harg h.getElem
        refine ⟨0, _, ?_, this, by simp⟩
        simp [kindNum, fetchLongArg, hbody]
      | opt =>
        have := good { s with optind := s.optind + 1, getoptval := i } none a 0 rfl rfl rfl rfl rfl
          rfl rfl rfl harg h.getElem
        refine ⟨0, _, ?_, this, by simp⟩
        simp [kindNum, fetchLongArg, hbody]
      | req =>
        cases R with
        | nil =>
          have hl := h.length_last
          refine ⟨58, { s with optind := s.optind + 1, optopt := 0 }, ?_, ?_, by simp⟩
          · have hat : argvAt s.nargv (s.optind + 1) = .ok none := by
              unfold argvAt
              rw [if_neg (by omega), if_pos hl]
            cases s
            simp only at harg hat
            simp only at hbody
            simp [kindNum, fetchLongArg, hat, harg, hbody]
          · refine ⟨by decide, rfl, rfl, rfl, rfl, rfl, rfl, rfl, evOK_fail _ _, ?_⟩
            intro σ t pl _
            have hp : argvPrev { s with optind := s.optind + 1, optopt := 0, place := pl }
                = .ok (some a) := by
              unfold argvPrev
              simp only
              rw [if_neg (by omega)]
              exact argvAt_lt h.getElem
            rw [applyAll_single]
            simp only [taggedBody, applyEv, hp, bind_ok]
            simp
        | cons v R =>
          have hv := h.getElem_next
          have := good { s with optind := s.optind + 2, optarg := some v, getoptval := i } (some v) v 1
            rfl rfl rfl rfl rfl rfl rfl rfl rfl hv
          refine ⟨0, _, ?_, this, by simp⟩
          simp [kindNum, fetchLongArg, argvAt_lt hv, hbody]

/-- The same when nothing but a long option is possible. -/
theorem parseMust_read {dash : CStr} {s : GState} {P N O R : List CStr} {a : CStr} (ds : List Decl)
    (so : CStr) (h : Lay posix log tot s P N O (a :: R)) (harg : s.optarg = none) :
    ∃ code s', parseLongOptions (':' :: so) ((longTable ds 0).map toLongOpt) false true dash s = .ok (code, s') ∧
      Read ds s s' code (mustNameOnly ds a R.head? s.place).1 (usedN (mustNameOnly ds a R.head? s.place).2) ∧
      ((mustNameOnly ds a R.head? s.place).2 = true → R ≠ []) := by
  have := parseName_read (dash := dash) ds so false h harg
  unfold mustNameOnly
  cases hr : readNameOnly ds a R.head? false s.place with
  | none =>
    rw [hr] at this
    obtain ⟨code, s', e, hrd⟩ := this
    exact ⟨code, s', e, hrd, by simp⟩
  | some p =>
    rw [hr] at this
    exact this

theorem shortPart_only {so : CStr} (hsemi : ';' ∉ so) (nargc : Nat) (ls : Option (List LongOpt)) (s : GState) :
    shortPart nargc (':' :: so) ls true s = shortPart nargc (':' :: so) ls false s := by
  unfold shortPart
  cases hp : s.place with
  | nil => rfl
  | cons c tl =>
    dsimp only
    cases ho : (if c = ':' ∨ (c = '-' ∧ tl ≠ []) then none else strchr (':' :: so) c) with
    | none => rfl
    | some oli =>
      dsimp only
      have h : oli.tail.head? ≠ some ';' := by
        intro hh
        have hm : ';' ∈ oli := by
          cases oli with
          | nil => simp at hh
          | cons x y => exact List.mem_cons_of_mem _ (List.mem_of_mem_head? (by simpa using hh))
        split at ho
        · cases ho
        · have := strchr_mem ho hm
          simp at this
          exact hsemi this
      simp only [h, and_false, if_false]

/-- One short option letter. -/
theorem short_readOnly {s : GState} {P N O R : List CStr} {a : CStr} {ds : List Decl} (hwf : WF ds)
    {so : CStr} (hso : SoptsOK so ds) (ls : List LongOpt)
    (h : Lay posix log tot s P N O (a :: R)) (harg : s.optarg = none)
    {c : Char} {tl : CStr} (hp : s.place = c :: tl) (hc : c ≠ '-')
    {i : Nat} {k : ValKind} (hl : shortLookup c ds 0 = some (i, k))
    (hnm : readNameOnly ds a R.head? true (c :: tl) = none) :
    ∃ code s' evs n, shortPart s.nargv.length (':' :: so) (some ls) true s = .ok (code, s') ∧
      Read ds s s' code evs n ∧
      ((s'.place = tl ∧ n = (if tl = [] then 1 else 0) ∧
          readClusterOnly ds a R.head? (c :: tl) =
            (readClusterOnly ds a R.head? tl).map fun (e, u) => (evs ++ e, u)) ∨
       (s'.place = [] ∧ ∃ u, n = usedN u ∧ (u = true → R ≠ []) ∧
          readClusterOnly ds a R.head? (c :: tl) = some (evs, u))) := by
  rw [shortPart_only hso.semi]
  unfold shortPart
  rw [hp]
  have hcol : c ≠ ':' := (shortLookup_wf hwf hl).2.1
  simp only [hc, hcol, false_and, or_false, if_false, warn_colon, BADARG_colon, readClusterOnly, hl, hnm]
  have hstr : strchr (':' :: so) c = strchr so c := by
    simp only [strchr]; rw [if_neg (Ne.symm hcol)]
  rw [hstr]
  have hlook := hso.look c hcol
  rw [hl] at hlook
  obtain ⟨oli, ho, hk⟩ := hlook
  rw [ho]
  have hsemi : oli.tail.head? ≠ some ';' := by
    intro hh
    have : ';' ∈ oli := by
      cases oli with
      | nil => simp at hh
      | cons x y => exact List.mem_cons_of_mem _ (List.mem_of_mem_head? (by simpa using hh))
    exact hso.semi (strchr_mem ho this)
  have hidx : i < ds.length := by have := shortLookup_lt hl; omega
  have hcode : charInt c ≠ -1 := (charInt_ne (d := '\xff') (shortLookup_wf hwf hl).2.2.2.2)
  simp only [hsemi, and_false, if_false]
  cases k with
  | no =>
    have hk' : oli.tail.head? ≠ some ':' := hk
    simp only [hk', ne_eq, not_false_eq_true, if_true]
    refine ⟨charInt c, { s with place := tl, optind := s.optind + (if tl = [] then 1 else 0) },
      [.deliver i none], (if tl = [] then 1 else 0), ?_,
      ⟨hcode, rfl, rfl, rfl, rfl, rfl, rfl, rfl, evOK_deliver hidx _, ?_⟩, Or.inl ⟨rfl, rfl, rfl⟩⟩
    · by_cases ht : tl = [] <;> simp [ht]
    · intro σ t pl ht
      rw [(body_short hwf hl _ t ht).2]
      simp only [harg]
  | req =>
    obtain ⟨hk1, hk2⟩ : oli.tail.head? = some ':' ∧ oli.tail.tail.head? ≠ some ':' := hk
    simp only [hk1, hk2, ne_eq, not_false_eq_true, not_true_eq_false, if_true, if_false]
    by_cases ht : tl = []
    · subst ht
      simp only [not_true_eq_false, if_false]
      cases R with
      | nil =>
        have hl' := h.length_last
        simp only [ge_iff_le, hl', le_refl, if_true, List.head?_nil]
        refine ⟨58, { s with place := [], optarg := none, optind := s.nargv.length,
                              optopt := charInt c },
          [.fail ARG_EMISSARG (some a)], 1, rfl,
          ⟨by decide, rfl, hl'.symm, rfl, rfl, rfl, rfl, rfl, evOK_fail _ _, ?_⟩,
          Or.inr ⟨rfl, false, rfl, by simp, rfl⟩⟩
        intro σ t pl _
        have hp : argvPrev { s with place := pl, optarg := none, optind := s.nargv.length,
                                    optopt := charInt c } = .ok (some a) := by
          unfold argvPrev
          simp only
          rw [if_neg (by omega)]
          have := h.getElem
          rw [show s.nargv.length - 1 = s.optind by omega]
          exact argvAt_lt this
        unfold taggedBody
        rw [if_neg (by decide), if_neg (by decide), if_pos rfl, applyAll_single]
        simp only
        rw [hp]
        rfl
      | cons v R =>
        have hv := h.getElem_next
        have hlt : ¬ s.optind + 1 ≥ s.nargv.length := by
          intro hge
          rw [List.getElem?_eq_none hge] at hv; cases hv
        simp only [hlt, if_false, argvAt_lt hv, bind_ok, List.head?_cons]
        refine ⟨charInt c, { s with place := [], optarg := some v, optind := s.optind + 2 },
          [.deliver i (some v)], 2, rfl,
          ⟨hcode, rfl, rfl, rfl, rfl, rfl, rfl, rfl, evOK_deliver hidx _, ?_⟩,
          Or.inr ⟨rfl, true, rfl, by simp, rfl⟩⟩
        intro σ t pl ht
        rw [(body_short hwf hl _ t ht).2]
    · simp only [ht, not_false_eq_true, if_true]
      refine ⟨charInt c, { s with place := [], optarg := some tl, optind := s.optind + 1 },
          [.deliver i (some tl)], 1, rfl,
          ⟨hcode, rfl, rfl, rfl, rfl, rfl, rfl, rfl, evOK_deliver hidx _, ?_⟩,
          Or.inr ⟨rfl, false, rfl, by simp, rfl⟩⟩
      intro σ t pl ht
      rw [(body_short hwf hl _ t ht).2]
  | opt =>
    obtain ⟨hk1, hk2⟩ : oli.tail.head? = some ':' ∧ oli.tail.tail.head? = some ':' := hk
    simp only [hk1, hk2, ne_eq, not_true_eq_false, if_false]
    by_cases ht : tl = []
    · subst ht
      simp only [not_true_eq_false, if_false, if_true]
      refine ⟨charInt c, { s with place := [], optarg := none, optind := s.optind + 1 },
          [.deliver i none], 1, rfl,
          ⟨hcode, rfl, rfl, rfl, rfl, rfl, rfl, rfl, evOK_deliver hidx _, ?_⟩,
          Or.inr ⟨rfl, false, rfl, by simp, rfl⟩⟩
      intro σ t pl ht
      rw [(body_short hwf hl _ t ht).2]
    · simp only [ht, not_false_eq_true, if_true, if_false]
      refine ⟨charInt c, { s with place := [], optarg := some tl, optind := s.optind + 1 },
          [.deliver i (some tl)], 1, rfl,
          ⟨hcode, rfl, rfl, rfl, rfl, rfl, rfl, rfl, evOK_deliver hidx _, ?_⟩,
          Or.inr ⟨rfl, false, rfl, by simp, rfl⟩⟩
      intro σ t pl ht
      rw [(body_short hwf hl _ t ht).2]

/-! ### steps of the loop -/

/-- Starting in `g`, `k` rounds of the loop have the effect of `evs` and lead to `g'`. -/
structure StepsOnly (env : Bool) (nargc : Nat) (sopts : CStr) (lopts : List LongOpt) (ds : List Decl)
    (g : GState) (k : Nat) (evs : List Ev) (g' : GState) : Prop where
  idx : EvOK ds evs
  run : ∀ {σ : Type} (t : Table σ) (n : Nat), t.entries.map declOf = ds →
    taggedLoopOnly env nargc sopts lopts (n + k) g t =
      applyAll evs t >>= fun t' => taggedLoopOnly env nargc sopts lopts n g' t'

variable {env : Bool} {nargc : Nat} {sopts : CStr} {lopts : List LongOpt} {ds : List Decl}

theorem StepsOnly.refl (g : GState) : StepsOnly env nargc sopts lopts ds g 0 [] g :=
  ⟨evOK_nil, by intro σ t n _; rfl⟩

theorem StepsOnly.trans {g g1 g2 : GState} {k1 k2 : Nat} {e1 e2 : List Ev}
    (h1 : StepsOnly env nargc sopts lopts ds g k1 e1 g1)
    (h2 : StepsOnly env nargc sopts lopts ds g1 k2 e2 g2) :
    StepsOnly env nargc sopts lopts ds g (k1 + k2) (e1 ++ e2) g2 := by
  refine ⟨h1.idx.append h2.idx, ?_⟩
  intro σ t n ht
  rw [show n + (k1 + k2) = (n + k2) + k1 by omega, h1.run t _ ht, applyAll_append, M_bind_assoc]
  refine bind_congr_ok fun t' ht' => ?_
  exact h2.run t' n (by rw [applyAll_decl ht', ht])

theorem StepsOnly.one {g g' : GState} {code : Int} {evs : List Ev}
    (hg : getoptLongOnly env nargc sopts lopts g = .ok (code, g')) (hc : code ≠ -1)
    (hi : EvOK ds evs)
    (hb : ∀ {σ : Type} (t : Table σ), t.entries.map declOf = ds →
      taggedBody code g' t = applyAll evs t) :
    StepsOnly env nargc sopts lopts ds g 1 evs g' := by
  refine ⟨hi, ?_⟩
  intro σ t n ht
  simp only [taggedLoopOnly, hg, bind_ok, if_neg hc, hb t ht]

theorem taggedLoopOnly_congr {σ : Type} {g g1 : GState}
    (h : getoptLongOnly env nargc sopts lopts g = getoptLongOnly env nargc sopts lopts g1)
    (n : Nat) (t : Table σ) :
    taggedLoopOnly env nargc sopts lopts n g t = taggedLoopOnly env nargc sopts lopts n g1 t := by
  cases n with
  | zero => rfl
  | succ n => simp only [taggedLoopOnly, h]

theorem StepsOnly.congr {g g1 g' : GState} {k : Nat} {evs : List Ev}
    (h : getoptLongOnly env nargc sopts lopts g = getoptLongOnly env nargc sopts lopts g1)
    (hs : StepsOnly env nargc sopts lopts ds g1 k evs g') :
    StepsOnly env nargc sopts lopts ds g k evs g' := by
  refine ⟨hs.idx, ?_⟩
  intro σ t n ht
  rw [taggedLoopOnly_congr h, hs.run t n ht]

/-- Rules out: getopt on a state whose `place` is inside a cluster. -/
theorem getoptLongOnly_place {so : CStr} {g : GState} {P N O R : List CStr}
    (h : Lay posix log tot g P N O R) (hp : g.place ≠ []) :
    getoptLongOnly env nargc (':' :: so) lopts g =
      afterStartOnly nargc (':' :: so) lopts (.go { g with optarg := none }) := by
  rw [getoptLongOnly_eq env nargc so lopts g posix h.optind_ne h.reset h.posixly,
    scanStart_place (by exact h.reset) (by exact hp)]
  rfl

theorem letter_known {ds : List Decl} (hwf : WF ds) {so : CStr} (hso : SoptsOK so ds) (c : Char) :
    (c != ':' && (strchr (':' :: so) c).isSome) = (shortLookup c ds 0).isSome := by
  by_cases hc : c = ':'
  · subst hc
    cases hl : shortLookup ':' ds 0 with
    | none => rfl
    | some p => exact absurd rfl (shortLookup_wf hwf (j := p.1) (k := p.2) hl).2.1
  · have hlook := hso.look c hc
    have hstr : strchr (':' :: so) c = strchr so c := by
      simp only [strchr]; rw [if_neg (Ne.symm hc)]
    rw [hstr]
    cases hl : shortLookup c ds 0 with
    | none => rw [hl] at hlook; simp only at hlook; simp [hlook]
    | some p =>
      rw [hl] at hlook
      obtain ⟨oli, ho, _⟩ := hlook
      simp [ho, hc]

/-- Reading a cluster. -/
theorem cluster_stepsOnly {ds : List Decl} (hwf : WF ds) {so : CStr} (hso : SoptsOK so ds)
    {P N O R : List CStr} {a : CStr} :
    ∀ (cl : CStr), cl ≠ [] → ∀ (g : GState), g.place = cl →
      Lay posix log tot g P N O (a :: R) → (N = [] ∨ g.nonoptEnd ≠ none) →
      match readClusterOnly ds a R.head? cl with
      | some (evs, u) => ∃ k g' P' O',
          StepsOnly env g.nargv.length (':' :: so) ((longTable ds 0).map toLongOpt) ds g (k + 1) evs g' ∧
          Done posix log tot g.nargv.length g' N (if u then R.tail else R) P' O' ∧
          (u = true → R ≠ [])
      | none => ∃ k evs g',
          StepsOnly env g.nargv.length (':' :: so) ((longTable ds 0).map toLongOpt) ds g k evs g' ∧
          Lay posix log tot g' P N O (a :: R) ∧ (N = [] ∨ g'.nonoptEnd ≠ none) ∧
          g'.place = ['-'] ∧ g'.nargv.length = g.nargv.length := by
  intro cl
  induction cl with
  | nil => intro h; exact absurd rfl h
  | cons c tl ih =>
    intro _ g hp hlay hm
    have hgo := getoptLongOnly_place (env := env) (nargc := g.nargv.length)
      (lopts := (longTable ds 0).map toLongOpt) (so := so) hlay (by rw [hp]; simp)
    -- a long option has been read
    have long : ∀ (s s' : GState) (code : Int) (evs : List Ev) (u : Bool), s.nargv = g.nargv → s.optind = g.optind →
        s.nonoptEnd = g.nonoptEnd → Lay posix log tot s P N O (a :: R) →
        Read ds s s' code evs (usedN u) → (u = true → R ≠ []) →
        getoptLongOnly env g.nargv.length (':' :: so) ((longTable ds 0).map toLongOpt) g = .ok (code, { s' with place := [] }) →
        ∃ k g' P' O',
          StepsOnly env g.nargv.length (':' :: so) ((longTable ds 0).map toLongOpt) ds g (k + 1) evs g' ∧
          Done posix log tot g.nargv.length g' N (if u then R.tail else R) P' O' ∧
          (u = true → R ≠ []) := by
      intro s s' code evs u hs1 hs2 hs3 hlay' hr hu e
      obtain ⟨A, hA, hsplit, hlen⟩ := split_list (a := a) (u := u) hu
      have hadv := Lay.advance (g := s) (g' := { s' with place := [] }) (A := A)
        (R := if u then R.tail else R) (by rw [← hsplit]; exact hlay') hA (by rw [hs3]; exact hm)
        (by exact hr.nargv) (by rw [hlen]; exact hr.optind) (by exact hr.optreset)
        (by exact hr.posixly) (by exact hr.nonoptStart) (by exact hr.nonoptEnd)
        (by exact hr.stderr)
      obtain ⟨P', O', hl2, hset⟩ := hadv
      refine ⟨0, { s' with place := [] }, P', O', ?_, ⟨hl2, rfl, hset, ?_⟩, hu⟩
      · exact StepsOnly.one (code := code) e hr.code_ne hr.idx (fun t ht => hr.body t [] ht)
      · simp only [hr.nargv, hs1]
    by_cases hc : c = '-'
    · subst hc
      simp only [readClusterOnly, if_true]
      by_cases htl : tl = []
      · subst htl
        simp only [if_true]
        exact ⟨0, [], g, StepsOnly.refl g, hlay, hm, hp, rfl⟩
      · simp only [htl, if_false]
        set s : GState := { g with optarg := none, place := tl } with hs
        have hlay' : Lay posix log tot s P N O (a :: R) := hlay.congr rfl rfl rfl rfl rfl rfl rfl
        obtain ⟨code, s', e, hr, hu⟩ := parseMust_read ds so hlay' rfl
        refine long s s' code _ _ rfl rfl rfl hlay' hr hu ?_
        rw [hgo]
        unfold afterStartOnly
        simp only [hp, List.head?_cons, List.tail_cons, if_true, htl, if_false]
        rw [← hs, e]
        simp only [bind_ok, ne_eq, hr.code_ne, not_false_eq_true, if_true]
    · set s : GState := { g with optarg := none } with hs
      have hlay' : Lay posix log tot s P N O (a :: R) := hlay.congr rfl rfl rfl rfl rfl rfl rfl
      have hps : s.place = c :: tl := hp
      have hgo' : getoptLongOnly env g.nargv.length (':' :: so) ((longTable ds 0).map toLongOpt) g =
          (parseLongOptions (':' :: so) ((longTable ds 0).map toLongOpt) (shortLookup c ds 0).isSome true (cs "-") s >>= fun p =>
            if p.1 ≠ -1 then .ok (p.1, { p.2 with place := [] })
            else shortPart g.nargv.length (':' :: so) (some ((longTable ds 0).map toLongOpt)) true p.2) := by
        rw [hgo]
        unfold afterStartOnly
        dsimp only
        rw [if_neg (by rw [hps, List.head?_cons]; exact fun h => hc (Option.some.inj h)), hps]
        simp only [List.head?_cons]
        rw [letter_known hwf hso]
      cases hl : shortLookup c ds 0 with
      | none =>
        rw [hl] at hgo'
        obtain ⟨code, s', e, hr, hu⟩ := parseMust_read ds so hlay' rfl
        rw [hps] at hr hu
        have hrw : readClusterOnly ds a R.head? (c :: tl) = some (mustNameOnly ds a R.head? (c :: tl)) := by
          rw [readClusterOnly, if_neg hc, hl]
        rw [hrw]
        dsimp only
        refine long s s' code _ _ rfl rfl rfl hlay' hr hu ?_
        rw [hgo', Option.isSome_none, e]
        simp only [bind_ok, ne_eq, hr.code_ne, not_false_eq_true, if_true]
      | some p =>
        obtain ⟨i, kd⟩ := p
        rw [hl] at hgo'
        have hpn := parseName_read (dash := cs "-") ds so true hlay' rfl
        rw [hps] at hpn
        cases hnm : readNameOnly ds a R.head? true (c :: tl) with
        | some q =>
          obtain ⟨evs, u⟩ := q
          rw [hnm] at hpn
          obtain ⟨code, s', e, hr, hu⟩ := hpn
          have hrw : readClusterOnly ds a R.head? (c :: tl) = some (evs, u) := by
            rw [readClusterOnly, if_neg hc, hl]
            dsimp only
            rw [hnm]
          rw [hrw]
          dsimp only
          refine long s s' code _ _ rfl rfl rfl hlay' hr hu ?_
          rw [hgo', Option.isSome_some, e]
          simp only [bind_ok, ne_eq, hr.code_ne, not_false_eq_true, if_true]
        | none =>
          rw [hnm] at hpn
          simp only [if_true] at hpn
          obtain ⟨code, s', evs, n, e, hr, hcase⟩ := short_readOnly (s := s) hwf hso
            ((longTable ds 0).map toLongOpt) hlay' rfl (c := c) (tl := tl) hps hc hl hnm
          have hg : getoptLongOnly env g.nargv.length (':' :: so) ((longTable ds 0).map toLongOpt) g
              = .ok (code, s') := by
            rw [hgo', Option.isSome_some, hpn]
            simp only [bind_ok, ne_eq, not_true_eq_false, if_false]
            exact e
          have hstep : StepsOnly env g.nargv.length (':' :: so) ((longTable ds 0).map toLongOpt) ds g 1
              evs s' := StepsOnly.one hg hr.code_ne hr.idx (fun t ht => by
                have := hr.body t s'.place ht
                exact this)
          rcases hcase with ⟨hpl, hn, hrc⟩ | ⟨hpl, u, hn, hu, hrc⟩
          · rw [hrc]
            by_cases htl : tl = []
            · subst htl
              simp only [readClusterOnly, Option.map_some, List.append_nil]
              have hadv := Lay.advance (g' := s') (A := [a]) (R := R) hlay (by simp) hm
                (by exact hr.nargv) (by rw [hr.optind, hn]; simp [hs]) (by exact hr.optreset)
                (by exact hr.posixly) (by exact hr.nonoptStart) (by exact hr.nonoptEnd)
                (by exact hr.stderr)
              obtain ⟨P', O', hl2, hset⟩ := hadv
              exact ⟨0, s', P', O', hstep, ⟨hl2, hpl, hset, by rw [hr.nargv]⟩, by simp⟩
            · have hlay'' : Lay posix log tot s' P N O (a :: R) :=
                hlay.congr (by exact hr.nargv) (by rw [hr.optind, hn]; simp [htl, hs]) (by exact hr.optreset)
                  (by exact hr.posixly) (by exact hr.nonoptStart) (by exact hr.nonoptEnd)
                  (by exact hr.stderr)
              have hlen : s'.nargv.length = g.nargv.length := by rw [hr.nargv]
              have := ih htl s' hpl hlay'' (by rw [hr.nonoptEnd]; exact hm)
              rw [hlen] at this
              cases hrest : readClusterOnly ds a R.head? tl with
              | none =>
                rw [hrest] at this
                obtain ⟨k, evs', g', h1, h2, h3, h4, h5⟩ := this
                exact ⟨1 + k, evs ++ evs', g', hstep.trans h1, h2, h3, h4, h5⟩
              | some p =>
                obtain ⟨evs', u⟩ := p
                rw [hrest] at this
                obtain ⟨k, g', P', O', h1, h2, h3⟩ := this
                refine ⟨1 + k, g', P', O', ?_, h2, h3⟩
                rw [show 1 + k + 1 = 1 + (k + 1) by omega]
                exact hstep.trans h1
          · rw [hrc]
            obtain ⟨A, hA, hsplit, hlen⟩ := split_list (a := a) (u := u) hu
            have hadv := Lay.advance (g' := s') (A := A) (R := if u then R.tail else R)
              (by rw [← hsplit]; exact hlay) hA hm
              (by exact hr.nargv) (by rw [hlen, hr.optind, hn]) (by exact hr.optreset)
              (by exact hr.posixly) (by exact hr.nonoptStart) (by exact hr.nonoptEnd)
              (by exact hr.stderr)
            obtain ⟨P', O', hl2, hset⟩ := hadv
            exact ⟨0, s', P', O', hstep, ⟨hl2, hpl, hset, by rw [hr.nargv]⟩, hu⟩

/-! ### the whole command line -/

theorem getoptLongOnly_option {so : CStr} {g : GState} {P N O R : List CStr} {a : CStr}
    (h : Lay posix log tot g P N O (a :: R)) (hp : g.place = []) (ha : isOperand a = false)
    (hdd : a.tail ≠ ['-']) :
    getoptLongOnly env g.nargv.length (':' :: so) lopts g =
      getoptLongOnly env g.nargv.length (':' :: so) lopts (enter g a.tail) := by
  have hne : a.tail ≠ [] := by
    intro hn
    have := (isOperand_iff a).2 (Or.inr hn)
    rw [ha] at this; cases this
  have hsc := scanStart_option (g := { g with optarg := none })
    (h.congr rfl rfl rfl rfl rfl rfl rfl) hp ha (!posix)
  rw [getoptLongOnly_eq env g.nargv.length so lopts g posix h.optind_ne h.reset h.posixly]
  rw [getoptLongOnly_place (enter_lay (cl := a.tail) h).1 (by exact hne)]
  have hsc' : scanStart g.nargv.length (!posix) false { g with optarg := none } = _ := hsc
  rw [hsc', if_neg hdd]
  rfl

/-- A state from which getopt never gets on: the next argument is a cluster ending in a lone `-`. -/
structure HungAtOnly (ds : List Decl) (posix : Bool) (log : List CStr) (tot : List CStr)
    (g : GState) (P N O R : List CStr) (a : CStr) : Prop where
  lay : Lay posix log tot g P N O (a :: R)
  place : g.place = []
  opt : isOperand a = false
  dd : a.tail ≠ ['-']
  rd : readClusterOnly ds a R.head? a.tail = none
  nul : '\x00' ∉ a

theorem hung_cycleOnly {ds : List Decl} (hwf : WF ds) {so : CStr} (hso : SoptsOK so ds)
    {g : GState} {P N O R : List CStr} {a : CStr} (h : HungAtOnly ds posix log tot g P N O R a) :
    ∃ k evs g', StepsOnly env g.nargv.length (':' :: so) ((longTable ds 0).map toLongOpt) ds g (k + 1)
        evs g' ∧ HungAtOnly ds posix log tot g' P N O R a ∧ g'.nargv.length = g.nargv.length := by
  obtain ⟨el, em⟩ := enter_lay (cl := a.tail) h.lay
  have := cluster_stepsOnly (env := env) (posix := posix) (log := log) (tot := tot) hwf hso a.tail
    (opt_tail_ne h.opt) (enter g a.tail) rfl el em
  rw [h.rd] at this
  obtain ⟨k, evs, g', hst, hl, hm, hp, hlen⟩ := this
  have hgo := getoptLongOnly_place (env := env) (nargc := g.nargv.length)
      (lopts := (longTable ds 0).map toLongOpt) (so := so) hl (by rw [hp]; simp)
  have hlen' : g'.nargv.length = g.nargv.length := hlen
  have h1 : StepsOnly env g.nargv.length (':' :: so) ((longTable ds 0).map toLongOpt) ds g k evs g' :=
    StepsOnly.congr (getoptLongOnly_option h.lay h.place h.opt h.dd) hst
  -- the element before the current one
  have hprev : ∃ x, argvPrev { g' with place := [], optarg := none } = .ok (some x) := by
    have hne := hl.optind_ne
    have hlt := hl.lt
    refine ⟨g'.nargv[g'.optind - 1], ?_⟩
    unfold argvPrev
    simp only [hne, if_false]
    exact argvAt_lt (List.getElem?_eq_getElem (by omega))
  obtain ⟨x, hx⟩ := hprev
  refine ⟨k, evs ++ [.fail ARG_EMISSARG (some x)], { g' with place := [], optarg := none }, ?_,
    ⟨hl.congr rfl rfl rfl rfl rfl rfl rfl, rfl, h.opt, h.dd, h.rd, h.nul⟩, hlen'⟩
  refine StepsOnly.trans h1 (StepsOnly.one (code := 58) ?_ (by decide) (evOK_fail _ _) ?_)
  · rw [hgo]
    unfold afterStartOnly
    simp only [hp, List.head?_cons, if_true, List.tail_cons, BADARG_colon]
  · intro σ t _
    unfold taggedBody
    rw [if_neg (by decide), if_neg (by decide), if_pos rfl, hx, applyAll_single]
    rfl

/-- The loop over the whole command line. -/
theorem loop_specOnly {ds : List Decl} (hwf : WF ds) {so : CStr} (hso : SoptsOK so ds) :
    ∀ (m : Nat) (R : List CStr), R.length ≤ m → CArgs R →
    ∀ (g : GState) (P N O : List CStr), Lay posix log tot g P N O R → g.place = [] →
      (g.nonoptEnd = none ∨ O ≠ []) →
      match tokenizeOnly ds posix R with
      | some (evs, ops) => ∃ k gf, Final log tot gf (N ++ ops) ∧
          ∀ {σ : Type} (t : Table σ) (n : Nat), t.entries.map declOf = ds →
            taggedLoopOnly env g.nargv.length (':' :: so) ((longTable ds 0).map toLongOpt)
              (n + (k + 1)) g t = applyAll evs t >>= fun t' => .ok (gf, t')
      | none => ∃ k evs g' P' N' O' R' a,
          StepsOnly env g.nargv.length (':' :: so) ((longTable ds 0).map toLongOpt) ds g k evs g' ∧
          HungAtOnly ds posix log tot g' P' N' O' R' a ∧ g'.nargv.length = g.nargv.length := by
  intro m
  induction m with
  | zero =>
    intro R hR _ g P N O hl hp hset
    have : R = [] := List.length_eq_zero_iff.1 (by omega)
    subst this
    simp only [tokenizeOnly, List.append_nil]
    obtain ⟨gf, e, f⟩ := scanStart_end (g := { g with optarg := none })
      (hl.congr rfl rfl rfl rfl rfl rfl rfl) hp hset (!posix)
    refine ⟨0, gf, f, ?_⟩
    intro σ t n _
    have e' : scanStart g.nargv.length (!posix) false { g with optarg := none } = _ := e
    simp only [taggedLoopOnly,
      getoptLongOnly_eq env g.nargv.length so _ g posix hl.optind_ne hl.reset hl.posixly, e', bind_ok,
      afterStartOnly, if_true, applyAll]
  | succ m ih =>
    intro R hR hca g P N O hl hp hset
    cases R with
    | nil => exact (by
        simp only [tokenizeOnly, List.append_nil]
        obtain ⟨gf, e, f⟩ := scanStart_end (g := { g with optarg := none })
          (hl.congr rfl rfl rfl rfl rfl rfl rfl) hp hset (!posix)
        refine ⟨0, gf, f, ?_⟩
        intro σ t n _
        have e' : scanStart g.nargv.length (!posix) false { g with optarg := none } = _ := e
        simp only [taggedLoopOnly,
          getoptLongOnly_eq env g.nargv.length so _ g posix hl.optind_ne hl.reset hl.posixly, e',
          bind_ok, afterStartOnly, if_true, applyAll])
    | cons a R =>
      have hR' : R.length ≤ m := by simpa using hR
      have hcaR : CArgs R := fun b hb => hca b (by simp [hb])
      have hnul : '\x00' ∉ a := hca a (by simp)
      have hl0 : Lay posix log tot { g with optarg := none } P N O (a :: R) :=
        hl.congr rfl rfl rfl rfl rfl rfl rfl
      have hgo := getoptLongOnly_eq env g.nargv.length so ((longTable ds 0).map toLongOpt) g posix
        hl.optind_ne hl.reset hl.posixly
      rw [tokenizeOnly]
      by_cases hdd : a = ['-', '-']
      · -- end of options
        rw [if_pos hdd]
        have ha : isOperand a = false := by rw [hdd]; rfl
        have e' : scanStart g.nargv.length (!posix) false { g with optarg := none } = _ :=
          scanStart_option hl0 hp ha (!posix)
        rw [if_pos (by rw [hdd]; rfl)] at e'
        obtain ⟨el, em⟩ := enter_lay (cl := a.tail) hl0
        obtain ⟨gf, e, f⟩ := foundDashDash_lay el em
        refine ⟨0, gf, f, ?_⟩
        intro σ t n _
        simp only [taggedLoopOnly, hgo, e', e, bind_ok, afterStartOnly, if_true, applyAll]
      · rw [if_neg hdd]
        by_cases ha : isOperand a = true
        · rw [if_pos ha]
          cases hpx : posix with
          | true =>
            simp only [if_true]
            obtain ⟨gf, e, f⟩ := scanStart_posix_operand hl0 hp ha hpx
            refine ⟨0, gf, f, ?_⟩
            intro σ t n _
            have e' : scanStart g.nargv.length (!posix) false { g with optarg := none }
                = .ok (.ret (-1) gf) := by
              rw [hpx]; exact e
            simp only [taggedLoopOnly, hgo, e', bind_ok, afterStartOnly, if_true, applyAll]
          | false =>
            simp only [Bool.false_eq_true, if_false]
            obtain ⟨g1, P1, e, hl1, hp1, hn1, ho1, hlen1⟩ := scanStart_operand hl0 hp ha hset hpx
            have hlen1' : g1.nargv.length = g.nargv.length := hlen1
            have hcong : getoptLongOnly env g.nargv.length (':' :: so) ((longTable ds 0).map toLongOpt) g
                = getoptLongOnly env g.nargv.length (':' :: so) ((longTable ds 0).map toLongOpt) g1 := by
              rw [hgo, getoptLongOnly_eq env g.nargv.length so _ g1 posix hl1.optind_ne hl1.reset
                hl1.posixly]
              have hg1 : ({ g1 with optarg := none } : GState) = g1 := by
                cases g1; simp only at ho1; simp [ho1]
              rw [hg1, hpx]
              have e' : scanStart g.nargv.length (!false) false { g with optarg := none } = _ := e
              rw [e']
              rfl
            have := ih R hR' hcaR g1 P1 (N ++ [a]) [] hl1 hp1 (Or.inl hn1)
            rw [hlen1', hpx] at this
            cases htok : tokenizeOnly ds false R with
            | none =>
              rw [htok] at this
              obtain ⟨k, evs, g', P', N', O', R', a', hs, hh, hlen⟩ := this
              exact ⟨k, evs, g', P', N', O', R', a', StepsOnly.congr hcong hs, hh, hlen⟩
            | some p =>
              obtain ⟨evs, ops⟩ := p
              rw [htok] at this
              obtain ⟨k, gf, f, hrun⟩ := this
              refine ⟨k, gf, by simpa using f, ?_⟩
              intro σ t n ht
              rw [taggedLoopOnly_congr hcong, hrun t n ht]
        · rw [if_neg ha]
          have ha' : isOperand a = false := by simpa using ha
          have hdd' : a.tail ≠ ['-'] := by
            intro ht
            cases a with
            | nil => simp at ht
            | cons c tl =>
              simp only [List.tail_cons] at ht
              subst ht
              by_cases hc : c = '-'
              · exact hdd (by rw [hc])
              · exact absurd ((isOperand_iff _).2 (Or.inl (by simpa using hc))) ha
          have hcong := getoptLongOnly_option (env := env) (so := so)
            (lopts := (longTable ds 0).map toLongOpt) hl hp ha' hdd'
          obtain ⟨el, em⟩ := enter_lay (cl := a.tail) hl
          have hcl := cluster_stepsOnly (env := env) (posix := posix) (log := log) (tot := tot) hwf hso
            a.tail (opt_tail_ne ha') (enter g a.tail) rfl el em
          have hlenE : (enter g a.tail).nargv.length = g.nargv.length := rfl
          rw [hlenE] at hcl
          cases hrc : readClusterOnly ds a R.head? a.tail with
          | none =>
            simp only
            exact ⟨0, [], g, P, N, O, R, a, StepsOnly.refl g,
              ⟨hl, hp, ha', hdd', hrc, hnul⟩, rfl⟩
          | some p =>
            obtain ⟨evs, u⟩ := p
            rw [hrc] at hcl
            obtain ⟨k, g1, P1, O1, hst, hdone, hu⟩ := hcl
            have hst' : StepsOnly env g.nargv.length (':' :: so) ((longTable ds 0).map toLongOpt) ds g
                (k + 1) evs g1 := StepsOnly.congr hcong hst
            have key : ∀ R1 : List CStr, R1 = (if u = true then R.tail else R) → R1.length ≤ m →
                CArgs R1 →
                match (tokenizeOnly ds posix R1).map
                    (fun (p : List Ev × List CStr) => (evs ++ p.1, p.2)) with
                | some (evs, ops) => ∃ k gf, Final log tot gf (N ++ ops) ∧
                    ∀ {σ : Type} (t : Table σ) (n : Nat), t.entries.map declOf = ds →
                      taggedLoopOnly env g.nargv.length (':' :: so) ((longTable ds 0).map toLongOpt)
                        (n + (k + 1)) g t = applyAll evs t >>= fun t' => .ok (gf, t')
                | none => ∃ k evs g' P' N' O' R' a,
                    StepsOnly env g.nargv.length (':' :: so) ((longTable ds 0).map toLongOpt) ds g k
                      evs g' ∧
                    HungAtOnly ds posix log tot g' P' N' O' R' a ∧
                    g'.nargv.length = g.nargv.length := by
              intro R1 hR1 hlen1 hca1
              have := ih R1 hlen1 hca1 g1 P1 N O1 (by rw [hR1]; exact hdone.lay) hdone.place
                hdone.set
              rw [hdone.len] at this
              cases htok : tokenizeOnly ds posix R1 with
              | none =>
                rw [htok] at this
                obtain ⟨k', evs', g', P', N', O', R', a', hs, hh, hlen⟩ := this
                exact ⟨k + 1 + k', evs ++ evs', g', P', N', O', R', a', hst'.trans hs, hh, hlen⟩
              | some p =>
                obtain ⟨evs', ops⟩ := p
                rw [htok] at this
                obtain ⟨k', gf, f, hrun⟩ := this
                refine ⟨k' + 1 + k, gf, f, ?_⟩
                intro σ t n ht
                rw [show n + (k' + 1 + k + 1) = (n + (k' + 1)) + (k + 1) by omega, hst'.run t _ ht,
                  applyAll_append, M_bind_assoc]
                refine bind_congr_ok fun t' ht' => ?_
                exact hrun t' n (by rw [applyAll_decl ht', ht])
            cases u with
            | false => exact key R rfl hR' hcaR
            | true =>
              cases R with
              | nil => exact absurd rfl (hu rfl)
              | cons v R =>
                exact key R rfl (by simp at hR'; omega) (fun b hb => hcaR b (by simp [hb]))

end
end Argtable
