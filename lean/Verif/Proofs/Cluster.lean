import Verif.Proofs.Getopt
/-!
# Reading one option argument: a cluster of short options or a long option
-/

namespace Argtable
open Spec

variable {σ : Type}

/-- An event applied to the model's table. -/
def applyEv (t : Table σ) : Ev → M (Table σ)
  | .fail code av => regEnd t code av
  | .deliver i arg => scanEntry t i arg

/-- Events in order. -/
def applyAll : List Ev → Table σ → M (Table σ)
  | [], t => .ok t
  | ev :: evs, t => do
    let t ← applyEv t ev
    applyAll evs t

theorem M_bind_assoc {α β γ : Type} (x : M α) (f : α → M β) (g : β → M γ) :
    (x >>= f) >>= g = x >>= fun a => f a >>= g := by
  cases x <;> rfl

theorem M_bind_ok {α : Type} (x : M α) : (x >>= fun a => Except.ok a) = x := by
  cases x <;> rfl

theorem applyAll_append (e1 e2 : List Ev) (t : Table σ) :
    applyAll (e1 ++ e2) t = applyAll e1 t >>= applyAll e2 := by
  induction e1 generalizing t with
  | nil => rfl
  | cons ev e1 ih =>
    simp only [List.cons_append, applyAll, M_bind_assoc, ih]

theorem applyAll_single (ev : Ev) (t : Table σ) : applyAll [ev] t = applyEv t ev := by
  simp only [applyAll]; exact M_bind_ok _

theorem regEnd_entries {t t' : Table σ} {e : Int} {a : Option CStr} (h : regEnd t e a = .ok t') :
    t'.entries = t.entries := by
  unfold regEnd at h
  cases hr : registerError t.fin .endt e a with
  | error e => rw [hr] at h; cases h
  | ok x => rw [hr] at h; cases h; rfl

theorem map_set_same {α β : Type} (f : α → β) (l : List α) (i : Nat) (a b : α)
    (h : l[i]? = some a) (hf : f b = f a) : (l.set i b).map f = l.map f := by
  rw [List.map_set, hf]
  apply List.ext_getElem?
  intro j
  rw [List.getElem?_set]
  split
  · next hij =>
    subst hij
    split
    · simp [h]
    · next hlt =>
      simp at hlt
      rw [List.getElem?_eq_none hlt] at h; cases h
  · rfl

theorem scanEntry_decl {t t' : Table σ} {i : Nat} {a : Option CStr}
    (h : scanEntry t i a = .ok t') : t'.entries.map declOf = t.entries.map declOf := by
  unfold scanEntry at h
  split at h
  · cases h
  · next hd he =>
    split at h
    · cases h; rfl
    · next f hf =>
      cases hs : f hd.parent a with
      | error e => rw [hs] at h; cases h
      | ok x =>
        obtain ⟨p, err⟩ := x
        rw [hs] at h
        simp only [bind_ok] at h
        have hm : (t.entries.set i { hd with parent := p }).map declOf = t.entries.map declOf :=
          map_set_same declOf _ _ _ _ he rfl
        split at h
        · cases hr : registerError t.fin (.entry i) err a with
          | error e => rw [hr] at h; cases h
          | ok e => rw [hr] at h; cases h; exact hm
        · cases h; exact hm

theorem applyEv_decl {t t' : Table σ} {ev : Ev} (h : applyEv t ev = .ok t') :
    t'.entries.map declOf = t.entries.map declOf := by
  cases ev with
  | fail c a => rw [regEnd_entries h]
  | deliver i a => exact scanEntry_decl h

theorem applyAll_decl {evs : List Ev} {t t' : Table σ} (h : applyAll evs t = .ok t') :
    t'.entries.map declOf = t.entries.map declOf := by
  induction evs generalizing t with
  | nil => cases h; rfl
  | cons ev evs ih =>
    simp only [applyAll] at h
    cases he : applyEv t ev with
    | error e => rw [he] at h; cases h
    | ok t1 => rw [he] at h; rw [ih h, applyEv_decl he]

/-! ### characters -/

theorem char_ofNat_toNat (c : Char) : Char.ofNat c.toNat = c := by simp

theorem intChar_charInt (c : Char) : intChar (charInt c) = c := by
  unfold charInt
  split
  · unfold intChar
    rw [if_neg (by omega)]
    simp
  · split
    · unfold intChar
      rw [if_pos (by omega)]
      have : ((c.toNat : Int) - 256 + 256).toNat = c.toNat := by omega
      rw [this]; simp
    · unfold intChar
      rw [if_neg (by omega)]
      simp

theorem charInt_inj {c d : Char} (h : charInt c = charInt d) : c = d := by
  rw [← intChar_charInt c, h, intChar_charInt]

theorem charInt_ne {c d : Char} (h : c ≠ d) : charInt c ≠ charInt d := fun he => h (charInt_inj he)

/-! ### strings -/

theorem strchr_eq (s : CStr) (c : Char) :
    strchr s c = if c ∈ s then some (s.dropWhile (· ≠ c)) else none := by
  induction s with
  | nil => simp [strchr]
  | cons d t ih =>
    simp only [strchr]
    by_cases h : d = c
    · subst h; simp
    · have h' : c ≠ d := Ne.symm h
      rw [if_neg h, ih]
      simp [h, h']

theorem hasEqual_eq (s : CStr) :
    hasEqual s = if '=' ∈ s then some (s.dropWhile (· ≠ '=')).tail else none := by
  unfold hasEqual
  rw [strchr_eq]
  split <;> rfl

theorem curLen_le (s : CStr) : curLen s ≤ s.length := (List.takeWhile_prefix _).length_le

theorem take_curLen (s : CStr) : s.take (curLen s) = s.takeWhile (· ≠ '=') := by
  have h : s.takeWhile (· != '=') = s.takeWhile (· ≠ '=') := by
    congr 1; funext x; by_cases hx : x = '=' <;> simp [hx]
  unfold curLen
  rw [h]
  exact (List.prefix_iff_eq_take.1 (List.takeWhile_prefix _)).symm

theorem resolve_mem {ls : List Long} {p : CStr} {l : Long} (h : resolve ls p = some l) :
    l ∈ ls := by
  unfold resolve at h
  split at h
  · next hf => cases h; exact List.mem_of_find?_eq_some hf
  · split at h
    · cases h
    · next l' rest hf =>
      split at h
      · cases h
        have : l ∈ ls.filter (fun l => p.isPrefixOf l.name) := by rw [hf]; simp
        exact List.mem_of_mem_filter this
      · cases h

@[simp] theorem warn_colon (so m : CStr) (s : GState) : warn (':' :: so) m s = s := by
  simp [warn]

@[simp] theorem BADARG_colon (so : CStr) : BADARG (':' :: so) = 58 := by simp [BADARG]

/-! ### the body of the loop for a long option -/

theorem taggedBody_long {g : GState} {t : Table σ} {ds : List Decl} {w : CStr}
    (hds : t.entries.map declOf = ds) (hi : g.getoptval < ds.length)
    (hprev : argvPrev g = .ok (some w)) :
    taggedBody 0 g t = applyAll
      ((match g.optarg with
        | some v => emptyValueError ds g.getoptval v w
        | none => []) ++ [.deliver g.getoptval g.optarg]) t := by
  subst hds
  rw [List.length_map] at hi
  unfold taggedBody
  simp only [if_true]
  rw [List.getElem?_eq_getElem hi]
  simp only [hprev, bind_ok]
  have hval : ((t.entries.map declOf)[g.getoptval]?.map (·.hasValue)) =
      some (t.entries[g.getoptval]).hasValue := by
    simp [List.getElem?_eq_getElem hi, declOf]
  cases ho : g.optarg with
  | none => simp [applyAll_single, applyEv]
  | some v =>
    simp only [Option.some.injEq, emptyValueError, hval]
    split
    · rw [applyAll_append, applyAll_single]
      simp only [applyEv]
      congr 1
      funext t'
      rw [applyAll_single]; rfl
    · simp only [bind_ok, List.nil_append, applyAll_single, applyEv]

section
variable {posix : Bool} {log : List CStr} {tot : List CStr}

theorem argvAt_lt {v : List CStr} {i : Nat} {a : CStr} (h : v[i]? = some a) :
    argvAt v i = .ok (some a) := by
  have hlt : i < v.length := by
    by_contra hc
    rw [List.getElem?_eq_none (by omega)] at h; cases h
  unfold argvAt
  rw [if_pos hlt, h]

theorem Lay.getElem_next {g : GState} {P N O R : List CStr} {a b : CStr}
    (h : Lay posix log tot g P N O (a :: b :: R)) : g.nargv[g.optind + 1]? = some b := by
  rw [h.argv, h.optind, show P ++ N ++ O ++ a :: b :: R = (P ++ N ++ O ++ [a]) ++ (b :: R) by simp]
  rw [List.getElem?_append_right (by simp; omega)]
  simp
  have : P.length + N.length + O.length + 1 - (P.length + (N.length + (O.length + 1))) = 0 := by omega
  rw [this]; rfl

theorem Lay.length_last {g : GState} {P N O : List CStr} {a : CStr}
    (h : Lay posix log tot g P N O [a]) : g.optind + 1 = g.nargv.length := by
  rw [h.argv, h.optind]; simp; omega

/-- The entries named by the events exist. -/
def EvOK (ds : List Decl) (evs : List Ev) : Prop := ∀ i a, Ev.deliver i a ∈ evs → i < ds.length

theorem evOK_fail {ds : List Decl} (c : Int) (a : Option CStr) : EvOK ds [.fail c a] := by
  intro i a h; simp at h

theorem evOK_deliver {ds : List Decl} {i : Nat} (h : i < ds.length) (a : Option CStr) :
    EvOK ds [.deliver i a] := by
  intro j b hj
  simp only [List.mem_cons, Ev.deliver.injEq, List.not_mem_nil, or_false] at hj
  rw [hj.1]; exact h

theorem EvOK.append {ds : List Decl} {e1 e2 : List Ev} (h1 : EvOK ds e1) (h2 : EvOK ds e2) :
    EvOK ds (e1 ++ e2) := by
  intro i a h
  rcases List.mem_append.1 h with h | h
  · exact h1 i a h
  · exact h2 i a h

theorem evOK_empty {ds : List Decl} (i : Nat) (v w : CStr) : EvOK ds (emptyValueError ds i v w) := by
  unfold emptyValueError
  split
  · exact evOK_fail _ _
  · intro i a h; simp at h

theorem evOK_nil {ds : List Decl} : EvOK ds [] := by intro i a h; simp at h

theorem shortLookup_lt {c : Char} {ds : List Decl} {i j : Nat} {k : ValKind}
    (h : shortLookup c ds i = some (j, k)) : j < i + ds.length := by
  induction ds generalizing i with
  | nil => simp [shortLookup] at h
  | cons d ds ih =>
    simp only [shortLookup] at h
    split at h
    · cases h; simp
    · have := ih h; simp; omega

/-- Outcome of reading an option argument (or the rest of it): getopt returns `code`, the loop body has
the effect of `evs`, and the arguments `A` have been consumed. -/
structure Read (ds : List Decl) (s s' : GState) (code : Int) (evs : List Ev) (n : Nat) :
    Prop where
  code_ne : code ≠ -1
  nargv : s'.nargv = s.nargv
  optind : s'.optind = s.optind + n
  optreset : s'.optreset = s.optreset
  posixly : s'.posixly = s.posixly
  nonoptStart : s'.nonoptStart = s.nonoptStart
  nonoptEnd : s'.nonoptEnd = s.nonoptEnd
  stderr : s'.stderr = s.stderr
  idx : EvOK ds evs
  body : ∀ {σ : Type} (t : Table σ) (pl : CStr), t.entries.map declOf = ds →
    taggedBody code { s' with place := pl } t = applyAll evs t

/-- number of arguments used up -/
def usedN (u : Bool) : Nat := if u then 2 else 1

theorem parseLong_read {dash : CStr} {s : GState} {P N O R : List CStr} {a : CStr} (ds : List Decl)
    (so : CStr) (h : Lay posix log tot s P N O (a :: R)) (harg : s.optarg = none) :
    ∃ code s', parseLongOptions (':' :: so) ((longTable ds 0).map toLongOpt) false false dash s
        = .ok (code, s') ∧
      Read ds s s' code (readLong ds a R.head? s.place).1
        (usedN (readLong ds a R.head? s.place).2) ∧
      ((readLong ds a R.head? s.place).2 = true → R ≠ []) := by
  set body := s.place with hbody
  set ls := (longTable ds 0).map toLongOpt with hls
  obtain ⟨hm1, hm2⟩ := matchLoop_resolve ds body (curLen body) (curLen_le body)
  rw [take_curLen] at hm1 hm2
  rw [← hls] at hm1 hm2
  -- the outcome "invalid long option"
  have bad : ∀ s' : GState, s'.nargv = s.nargv → s'.optind = s.optind + 1 →
      s'.optreset = s.optreset → s'.posixly = s.posixly → s'.nonoptStart = s.nonoptStart →
      s'.nonoptEnd = s.nonoptEnd → s'.stderr = s.stderr → s'.optopt = 0 →
      Read ds s s' BADCH [.fail ARG_ELONGOPT (some a)] 1 := by
    intro s' h1 h2 h3 h4 h5 h6 h7 h8
    refine ⟨by decide, h1, h2, h3, h4, h5, h6, h7, evOK_fail _ _, ?_⟩
    intro σ t pl _
    have hp : argvPrev { s' with place := pl } = .ok (some a) := by
      unfold argvPrev
      simp only [h1, h2]
      rw [if_neg (by omega)]
      exact argvAt_lt h.getElem
    rw [applyAll_single]
    unfold taggedBody
    rw [if_neg (by decide), if_pos (by rfl), if_pos (by exact h8), hp]
    rfl
  unfold parseLongOptions
  simp only [warn_colon, BADARG_colon, ← hbody]
  set r := matchLoop body (curLen body) false false ls none false with hr
  unfold readLong
  simp only
  rw [hasEqual_eq]
  set name := body.takeWhile (· ≠ '=') with hname
  cases hres : resolve (longTable ds 0) name with
  | none =>
    simp only [usedN]
    by_cases hamb : (!r.exact && r.second) = true
    · rw [if_pos hamb]
      refine ⟨_, _, rfl, bad _ rfl rfl rfl rfl rfl rfl rfl rfl, by simp⟩
    · rw [if_neg hamb]
      rw [if_neg hamb, hres] at hm1
      rw [hm1]
      simp only [Option.map_none, Bool.false_eq_true, if_false]
      refine ⟨_, _, rfl, bad _ rfl rfl rfl rfl rfl rfl rfl rfl, by simp⟩
  | some l =>
    have hamb : ¬ (!r.exact && r.second) = true := by
      intro hc
      rw [Bool.and_eq_true, Bool.not_eq_true'] at hc
      have := hm2 hc
      rw [hres] at this; cases this
    rw [if_neg hamb]
    rw [if_neg hamb, hres] at hm1
    rw [hm1]
    simp only [Option.map_some]
    obtain ⟨d, hd1, hd2, _⟩ := longTable_entry_lt ds 0 l (resolve_mem hres)
    have hlt : l.entry < ds.length := by
      by_contra hc
      rw [List.getElem?_eq_none (by omega)] at hd1; cases hd1
    -- the outcome "delivered"
    have good : ∀ (s' : GState) (arg : Option CStr) (w : CStr) (n : Nat), s'.nargv = s.nargv →
        s'.optind = s.optind + (n + 1) →
        s'.optreset = s.optreset → s'.posixly = s.posixly → s'.nonoptStart = s.nonoptStart →
        s'.nonoptEnd = s.nonoptEnd → s'.stderr = s.stderr → s'.getoptval = l.entry →
        s'.optarg = arg → s.nargv[s.optind + n]? = some w →
        Read ds s s' 0 ((match arg with
          | some v => emptyValueError ds l.entry v w
          | none => []) ++ [.deliver l.entry arg]) (n + 1) := by
      intro s' arg w n h1 h2 h3 h4 h5 h6 h7 h8 h9 h10
      refine ⟨by decide, h1, h2, h3, h4, h5, h6, h7, EvOK.append ?_ (evOK_deliver hlt _), ?_⟩
      · cases arg with
        | none => exact evOK_nil
        | some v => exact evOK_empty _ _ _
      intro σ t pl ht
      have := taggedBody_long (g := { s' with place := pl }) (t := t) (ds := ds) (w := w) ht
        (by simp only [h8]; exact hlt)
        (by unfold argvPrev
            simp only [h1, h2]
            rw [if_neg (by omega)]
            exact argvAt_lt h10)
      rw [this]
      simp only [h8, h9]
    obtain ⟨nm, i, kind⟩ := l
    simp only at hlt hd2 good ⊢
    simp only [toLongOpt]
    by_cases heq : '=' ∈ body
    · -- a value is attached
      rw [if_pos heq]
      cases kind with
      | no =>
        simp only [kindNum, Option.isSome_some, and_self, if_true]
        refine ⟨_, _, rfl, bad _ rfl rfl rfl rfl rfl rfl rfl rfl, by simp⟩
      | req =>
        have := good { s with optind := s.optind + 1, optarg := some (body.dropWhile (· ≠ '=')).tail,
                              getoptval := i } _ a 0 rfl rfl rfl rfl rfl rfl rfl rfl rfl h.getElem
        refine ⟨0, _, ?_, this, by simp⟩
        simp [kindNum, fetchLongArg, hbody]
      | opt =>
        have := good { s with optind := s.optind + 1, optarg := some (body.dropWhile (· ≠ '=')).tail,
                              getoptval := i } _ a 0 rfl rfl rfl rfl rfl rfl rfl rfl rfl h.getElem
        refine ⟨0, _, ?_, this, by simp⟩
        simp [kindNum, fetchLongArg, hbody]
    · rw [if_neg heq]
      cases kind with
      | no =>
        have := good { s with optind := s.optind + 1, getoptval := i } none a 0 rfl rfl rfl rfl rfl
          rfl rfl rfl harg h.getElem
        refine ⟨0, _, ?_, this, by simp⟩
        simp [kindNum, fetchLongArg, hbody]
      | opt =>
        have := good { s with optind := s.optind + 1, getoptval := i } none a 0 rfl rfl rfl rfl rfl
          rfl rfl rfl harg h.getElem
        refine ⟨0, _, ?_, this, by simp⟩
        simp [kindNum, fetchLongArg, hbody]
      | req =>
        cases R with
        | nil =>
          have hl := h.length_last
          refine ⟨58, { s with optind := s.optind + 1, optopt := 0 }, ?_, ?_, by simp⟩
          · have hat : argvAt s.nargv (s.optind + 1) = .ok none := by
              unfold argvAt
              rw [if_neg (by omega), if_pos hl]
            cases s
            simp only at harg hat
            simp [kindNum, fetchLongArg, hat, harg, hbody]
          · refine ⟨by decide, rfl, rfl, rfl, rfl, rfl, rfl, rfl, evOK_fail _ _, ?_⟩
            intro σ t pl _
            have hp : argvPrev { s with optind := s.optind + 1, optopt := 0, place := pl }
                = .ok (some a) := by
              unfold argvPrev
              simp only
              rw [if_neg (by omega)]
              exact argvAt_lt h.getElem
            simp only [List.head?_nil]
            rw [applyAll_single]
            simp only [taggedBody, applyEv, hp, bind_ok]
            simp
        | cons v R =>
          have hv := h.getElem_next
          have := good { s with optind := s.optind + 2, optarg := some v, getoptval := i } (some v) v 1
            rfl rfl rfl rfl rfl rfl rfl rfl rfl hv
          refine ⟨0, _, ?_, this, by simp⟩
          simp [kindNum, fetchLongArg, argvAt_lt hv, hbody]

end
end Argtable
