import Verif.Model.ParsePtr
import Verif.Proofs.GetoptPtr
/-!
# `arg_parse` with pointers does what `arg_parse` with strings does
-/

namespace Argtable

open Spec

/-! ## Related results -/

/-- Both fail in the same way, or both succeed with related results. -/
def Follows {α β : Type} (R : α → β → Prop) : M α → M β → Prop
  | .ok a, .ok b => R a b
  | .error e, .error f => e = f
  | _, _ => False

theorem Follows.bind {α β α' β' : Type} {R : α → β → Prop} {R' : α' → β' → Prop} {x : M α} {y : M β}
    {f : α → M α'} {g : β → M β'} (h : Follows R x y) (hf : ∀ a b, R a b → Follows R' (f a) (g b)) :
    Follows R' (x >>= f) (y >>= g) := by
  cases x with
  | error e =>
    cases y with
    | error e' => exact h
    | ok b => exact h.elim
  | ok a =>
    cases y with
    | error e' => exact h.elim
    | ok b => exact hf a b h

theorem Follows.ok {α β : Type} {R : α → β → Prop} {a : α} {b : β} (h : R a b) : Follows R (.ok a) (.ok b) := h

theorem Follows.imp {α β : Type} {R R' : α → β → Prop} (hi : ∀ a b, R a b → R' a b) {x : M α} {y : M β}
    (h : Follows R x y) : Follows R' x y := by
  cases x with
  | error e =>
    cases y with
    | error e' => exact h
    | ok b => exact h.elim
  | ok a =>
    cases y with
    | error e' => exact h.elim
    | ok b => exact hi a b h

theorem Follows.error_iff {α β : Type} {R : α → β → Prop} {x : M α} {y : M β} (h : Follows R x y) (e : Fault) :
    x = .error e ↔ y = .error e := by
  cases x with
  | error e1 =>
    cases y with
    | error e2 => have : e1 = e2 := h; subst this; constructor <;> (intro h; cases h; rfl)
    | ok b => exact h.elim
  | ok a =>
    cases y with
    | error e' => exact h.elim
    | ok b => simp

theorem Follows.of_ok {α β : Type} {R : α → β → Prop} {x : M α} {y : M β} (h : Follows R x y) {b : β} (hy : y = .ok b) :
    ∃ a, x = .ok a ∧ R a b := by
  subst hy
  cases x with
  | error e => exact h.elim
  | ok a => exact ⟨a, rfl, h⟩

theorem ebind {α β : Type} (a : α) (f : α → M β) : ((Except.ok a : M α) >>= f) = f a := rfl

/-! ## Tables -/

section tables

/-- What is kept for an entry: a relation between the objects, and one between the headers that does not look at them. -/
structure Link (τ σ : Type) where
  obj : τ → σ → Prop
  hdr : Hdr τ → Hdr σ → Prop
  set : ∀ h' h p o, hdr h' h → hdr { h' with parent := p } { h with parent := o }

instance {τ σ : Type} : CoeFun (Link τ σ) fun _ => τ → σ → Prop := ⟨Link.obj⟩

variable {τ σ : Type} {m : Strs} {emsg : CPtr} {argv : List CPtr} {R : Nat → Link τ σ}

structure RecRel (m : Strs) (argv : List CPtr) (r' : PRec) (r : ErrRec) : Prop where
  error : r'.error = r.error
  parent : r'.parent = r.parent
  argval : r.argval = r'.argval.map (strAt m)
  within : ∀ p, r'.argval = some p → Within m argv p

structure EndRel (m : Strs) (argv : List CPtr) (e' : PEnd) (e : EndTbl) : Prop where
  max : e'.maxcount = e.maxcount
  count : e'.count = e.count
  len : e'.slots.length = e.slots.length
  recs : ∀ k, k < e.count → ∃ r' r, e'.slots[k]? = some r' ∧ e.slots[k]? = some r ∧ RecRel m argv r' r

/-- The scan function. -/
def ScanRel (R : τ → σ → Prop) (m : Strs) (argv : List CPtr) :
    Option (ScanPtr τ) → Option (σ → Option CStr → M (σ × Int)) → Prop
  | none, none => True
  | some f, some k => ∀ p o a, R p o → (∀ q, a = some q → Within m argv q) →
      Follows (fun x y => R x.1 y.1 ∧ x.2 = y.2) (f p a) (k o (a.map (strAt m)))
  | _, _ => False

def CheckRel (R : τ → σ → Prop) : Option (τ → Int) → Option (σ → Int) → Prop
  | none, none => True
  | some f, some k => ∀ p o, R p o → f p = k o
  | _, _ => False

def ResetRel (R : τ → σ → Prop) : Option (τ → M τ) → Option (σ → M σ) → Prop
  | none, none => True
  | some f, some k => ∀ p o, R p o → Follows R (f p) (k o)
  | _, _ => False

structure HdrRel (R : Link τ σ) (m : Strs) (argv : List CPtr) (h' : Hdr τ) (h : Hdr σ) (f : Option (ScanPtr τ)) :
    Prop where
  hdr : R.hdr h' h
  hasValue : h'.hasValue = h.hasValue
  hasOptValue : h'.hasOptValue = h.hasOptValue
  shortopts : h'.shortopts = h.shortopts
  longopts : h'.longopts = h.longopts
  parent : R h'.parent h.parent
  scan : ScanRel R m argv f h.scanfn
  check : CheckRel R h'.checkfn h.checkfn
  reset : ResetRel R h'.resetfn h.resetfn

theorem HdrRel.set {R : Link τ σ} {h' : Hdr τ} {h : Hdr σ} {f : Option (ScanPtr τ)} (H : HdrRel R m argv h' h f)
    {p : τ} {o : σ} (hp : R p o) : HdrRel R m argv { h' with parent := p } { h with parent := o } f :=
  ⟨R.set _ _ _ _ H.hdr, H.hasValue, H.hasOptValue, H.shortopts, H.longopts, hp, H.scan, H.check, H.reset⟩

structure EsRel (R : Nat → Link τ σ) (m : Strs) (argv : List CPtr) (fns : List (Option (ScanPtr τ)))
    (es' : List (Hdr τ)) (es : List (Hdr σ)) : Prop where
  num : es'.length = fns.length
  len : es'.length = es.length
  each : ∀ i h' h, es'[i]? = some h' → es[i]? = some h → HdrRel (R i) m argv h' h fns[i]?.join

theorem EsRel.set {fns : List (Option (ScanPtr τ))} {es' : List (Hdr τ)} {es : List (Hdr σ)}
    (H : EsRel R m argv fns es' es) {i : Nat} {h' : Hdr τ} {h : Hdr σ} (h1 : es'[i]? = some h') (h2 : es[i]? = some h)
    {p : τ} {o : σ} (hp : R i p o) :
    EsRel R m argv fns (es'.set i { h' with parent := p }) (es.set i { h with parent := o }) := by
  refine ⟨by simp [H.num], by simp [H.len], fun j k' k e1 e2 => ?_⟩
  rw [List.getElem?_set] at e1 e2
  by_cases hij : i = j
  · subst hij
    have hl1 : i < es'.length := by
      rcases Nat.lt_or_ge i es'.length with h | h
      · exact h
      · rw [List.getElem?_eq_none h] at h1; cases h1
    have hl2 : i < es.length := H.len ▸ hl1
    simp only [if_true, hl1, hl2] at e1 e2
    cases e1
    cases e2
    exact (H.each i h' h h1 h2).set hp
  · rw [if_neg hij] at e1 e2
    exact H.each j k' k e1 e2

theorem EsRel.get {fns : List (Option (ScanPtr τ))} {es' : List (Hdr τ)} {es : List (Hdr σ)}
    (H : EsRel R m argv fns es' es) (i : Nat) :
    (es'[i]? = none ∧ es[i]? = none) ∨
      ∃ h' h, es'[i]? = some h' ∧ es[i]? = some h ∧ HdrRel (R i) m argv h' h fns[i]?.join := by
  rcases Nat.lt_or_ge i es'.length with hl | hl
  · have hl2 : i < es.length := H.len ▸ hl
    exact .inr ⟨es'[i], es[i], List.getElem?_eq_getElem hl, List.getElem?_eq_getElem hl2,
      H.each i _ _ (List.getElem?_eq_getElem hl) (List.getElem?_eq_getElem hl2)⟩
  · exact .inl ⟨List.getElem?_eq_none hl, List.getElem?_eq_none (H.len ▸ hl)⟩

structure TabRel (R : Nat → Link τ σ) (m : Strs) (argv : List CPtr) (fns : List (Option (ScanPtr τ)))
    (t' : PTable τ) (t : Table σ) : Prop where
  entries : EsRel R m argv fns t'.entries t.entries
  fin : EndRel m argv t'.fin t.fin

theorem registerError_sim {e' : PEnd} {e : EndTbl} (H : EndRel m argv e' e) (parent : Parent) (error : Int)
    {a : Option CPtr} (ha : ∀ p, a = some p → Within m argv p) :
    Follows (EndRel m argv) (registerErrorPtr e' parent error a) (registerError e parent error (a.map (strAt m))) := by
  unfold registerErrorPtr registerError
  rw [H.max, H.count, H.len]
  split
  · split
    · rename_i h1 h2
      refine ⟨rfl, rfl, by simp [H.len], fun k hk => ?_⟩
      have hk : k < e.count + 1 := hk
      by_cases hkc : k = e.count
      · subst hkc
        refine ⟨⟨error, parent, a⟩, ⟨error, parent, a.map (strAt m)⟩, ?_, ?_, ⟨rfl, rfl, rfl, ha⟩⟩
        · simp [H.len, h2]
        · simp [h2]
      · obtain ⟨r', r, k1, k2, k3⟩ := H.recs k (by omega)
        refine ⟨r', r, ?_, ?_, k3⟩
        · rw [List.getElem?_set_ne (by omega), k1]
        · rw [List.getElem?_set_ne (by omega), k2]
    · rfl
  · split
    · rename_i h1 h2
      refine ⟨rfl, rfl, by simp [H.len], fun k hk => ?_⟩
      have hk : k < e.count := hk
      have hlt : (e.maxcount - 1).toNat < e.slots.length := by omega
      generalize (e.maxcount - 1).toNat = q at *
      by_cases hkc : k = q
      · subst hkc
        refine ⟨⟨ARG_ELIMIT, .endt, none⟩, ⟨ARG_ELIMIT, .endt, none⟩, ?_, ?_, ⟨rfl, rfl, rfl, fun p h => by cases h⟩⟩
        · simp [H.len, hlt]
        · simp [hlt]
      · obtain ⟨r', r, k1, k2, k3⟩ := H.recs k hk
        refine ⟨r', r, ?_, ?_, k3⟩
        · rw [List.getElem?_set_ne (by omega), k1]
        · rw [List.getElem?_set_ne (by omega), k2]
    · rfl

theorem argvPrev_sim (m : Strs) (s : PtrState) :
    argvPrev (asText m s) = (argvPrevPtr s).map (Option.map (strAt m)) := by
  unfold argvPrev argvPrevPtr
  have e1 : (asText m s).optind = s.optind := rfl
  have e2 : (asText m s).nargv = s.nargv.map (strAt m) := rfl
  rw [e1, e2, vecAt_sim]
  split <;> rfl

theorem vecAt_within (H : Strings m emsg argv) {v : List CPtr} (hv : ∀ p ∈ v, p ∈ argv) {i : Nat} {a : Option CPtr}
    (h : vecAt v i = .ok a) : ∀ p, a = some p → Within m argv p := by
  rintro p rfl
  have := hv _ (vecAt_mem h)
  exact ⟨H.argv _ this, p, this, rfl, Nat.le_refl _⟩

theorem argvPrev_follows (H : Strings m emsg argv) {s : PtrState} (hs : ArgsOK m argv s) :
    Follows (fun a b => b = a.map (strAt m) ∧ ∀ p, a = some p → Within m argv p) (argvPrevPtr s) (argvPrev (asText m s)) := by
  rw [argvPrev_sim]
  cases h : argvPrevPtr s with
  | error e => rfl
  | ok a =>
    refine ⟨rfl, ?_⟩
    unfold argvPrevPtr at h
    split at h
    · cases h
    · exact vecAt_within H hs.nargv h

theorem regEnd_sim {fns : List (Option (ScanPtr τ))} {t' : PTable τ} {t : Table σ} (H : TabRel R m argv fns t' t)
    (error : Int) {a : Option CPtr} (ha : ∀ p, a = some p → Within m argv p) :
    Follows (TabRel R m argv fns) (regEndPtr t' error a) (regEnd t error (a.map (strAt m))) := by
  unfold regEndPtr regEnd
  exact (registerError_sim H.fin .endt error ha).bind fun e' e he => ⟨H.entries, he⟩

theorem scanEntry_sim {fns : List (Option (ScanPtr τ))} {t' : PTable τ} {t : Table σ} (H : TabRel R m argv fns t' t)
    (i : Nat) {a : Option CPtr} (ha : ∀ p, a = some p → Within m argv p) :
    Follows (TabRel R m argv fns) (scanEntryPtr fns t' i a) (scanEntry t i (a.map (strAt m))) := by
  unfold scanEntryPtr scanEntry
  rcases H.entries.get i with ⟨h1, h2⟩ | ⟨h', h, h1, h2, hr⟩
  · rw [h1, h2]; rfl
  · rw [h1, h2]
    have hsc := hr.scan
    dsimp only
    revert hsc
    cases fns[i]?.join with
    | none =>
      cases h.scanfn with
      | none => exact fun _ => H
      | some k => exact fun hsc => hsc.elim
    | some f =>
      cases hsf : h.scanfn with
      | none => exact fun hsc => hsc.elim
      | some k =>
        intro hsc
        refine (hsc h'.parent h.parent a hr.parent ha).bind ?_
        rintro ⟨p, e1⟩ ⟨o, e2⟩ ⟨hpo, he⟩
        have he : e1 = e2 := he
        subst he
        have hT : TabRel R m argv fns { t' with entries := t'.entries.set i { h' with parent := p } }
          { t with entries := t.entries.set i { h with parent := o } } := ⟨H.entries.set h1 h2 hpo, H.fin⟩
        rw [hsf] at hT
        dsimp only
        split
        · exact (registerError_sim H.fin (.entry i) e1 ha).bind fun e' e he => ⟨hT.entries, he⟩
        · exact hT

theorem findShortoption_congr (c : Char) {es' : List (Hdr τ)} {es : List (Hdr σ)}
    (h : es'.map Hdr.shortopts = es.map Hdr.shortopts) (i : Nat) :
    findShortoption c es' i = findShortoption c es i := by
  induction es' generalizing es i with
  | nil =>
    cases es with
    | nil => rfl
    | cons a b => cases h
  | cons a b ih =>
    cases es with
    | nil => cases h
    | cons c d =>
      simp only [List.map_cons, List.cons.injEq] at h
      simp only [findShortoption, h.1, ih h.2]

/-- What `alloc_longoptions` and `alloc_shortoptions` look at. -/
def faceOf (h : Hdr τ) : Bool × Bool × Option CStr × Option CStr := (h.hasValue, h.hasOptValue, h.shortopts, h.longopts)

theorem EsRel.faces {fns : List (Option (ScanPtr τ))} {es' : List (Hdr τ)} {es : List (Hdr σ)}
    (H : EsRel R m argv fns es' es) : es'.map faceOf = es.map faceOf := by
  apply List.ext_getElem?
  intro i
  rw [List.getElem?_map, List.getElem?_map]
  rcases H.get i with ⟨h1, h2⟩ | ⟨h', h, h1, h2, hr⟩
  · rw [h1, h2]; rfl
  · rw [h1, h2]
    simp only [Option.map_some, faceOf, hr.hasValue, hr.hasOptValue, hr.shortopts, hr.longopts]

theorem countPass_face {es' : List (Hdr τ)} {es : List (Hdr σ)} (h : es'.map faceOf = es.map faceOf) (a b : Nat) :
    countPass es' a b = countPass es a b := by
  induction es' generalizing es a b with
  | nil =>
    cases es with
    | nil => rfl
    | cons _ _ => cases h
  | cons x xs ih =>
    cases es with
    | nil => cases h
    | cons y ys =>
      simp only [List.map_cons, List.cons.injEq, faceOf, Prod.mk.injEq] at h
      simp only [countPass, h.1.2.2.2]
      cases y.longopts with
      | none => exact ih h.2 _ _
      | some s =>
        dsimp only
        cases countLongopts s with
        | error e => rfl
        | ok k => exact ih h.2 _ _

theorem fillPass_face {es' : List (Hdr τ)} {es : List (Hdr σ)} (h : es'.map faceOf = es.map faceOf) (cap cap2 : Nat)
    (i : Nat) (os : List LongOpt) (u : Nat) : fillPass cap cap2 es' i os u = fillPass cap cap2 es i os u := by
  induction es' generalizing es i os u with
  | nil =>
    cases es with
    | nil => rfl
    | cons _ _ => cases h
  | cons x xs ih =>
    cases es with
    | nil => cases h
    | cons y ys =>
      simp only [List.map_cons, List.cons.injEq, faceOf, Prod.mk.injEq] at h
      have e1 : hasArgOf x = hasArgOf y := by simp only [hasArgOf, h.1.1, h.1.2.1]
      have e2 : entryNames x = entryNames y := by simp only [entryNames, h.1.2.2.2]
      simp only [fillPass, e1, e2]
      cases storeNames cap cap2 i (hasArgOf y) (entryNames y) os u with
      | error e => rfl
      | ok r => exact ih h.2 _ _ _

theorem allocLong_face {es' : List (Hdr τ)} {es : List (Hdr σ)} (h : es'.map faceOf = es.map faceOf) :
    allocLongoptions es' = allocLongoptions es := by
  simp only [allocLongoptions, countPass_face h, fillPass_face h]

theorem allocShort_face {es' : List (Hdr τ)} {es : List (Hdr σ)} (h : es'.map faceOf = es.map faceOf) :
    allocShortoptions es' = allocShortoptions es := by
  have h1 : es'.flatMap shortChars = es.flatMap shortChars := by
    induction es' generalizing es with
    | nil =>
      cases es with
      | nil => rfl
      | cons _ _ => cases h
    | cons x xs ih =>
      cases es with
      | nil => cases h
      | cons y ys =>
        simp only [List.map_cons, List.cons.injEq, faceOf, Prod.mk.injEq] at h
        have e : shortChars x = shortChars y := by simp only [shortChars, h.1.1, h.1.2.1, h.1.2.2.1]
        rw [List.flatMap_cons, List.flatMap_cons, e, ih h.2]
  have h2 : ∀ n, es'.foldl (fun n h => n + 3 * (h.shortopts.getD []).length) n =
      es.foldl (fun n h => n + 3 * (h.shortopts.getD []).length) n := by
    clear h1
    induction es' generalizing es with
    | nil =>
      cases es with
      | nil => exact fun _ => rfl
      | cons _ _ => cases h
    | cons x xs ih =>
      cases es with
      | nil => cases h
      | cons y ys =>
        intro n
        simp only [List.map_cons, List.cons.injEq, faceOf, Prod.mk.injEq] at h
        rw [List.foldl_cons, List.foldl_cons, h.1.2.2.1, ih h.2]
  simp only [allocShortoptions, h1, h2]

theorem emptyArg_sim (H : Strings m emsg argv) {a : Option CPtr} (ha : ∀ p, a = some p → Within m argv p) :
    emptyArgPtr m a = .ok (decide (a.map (strAt m) = some [])) := by
  unfold emptyArgPtr
  cases a with
  | none => simp
  | some p =>
    have hv := (ha p rfl).1
    dsimp only
    rw [readChar_ok hv]
    simp only [bind, Except.bind, nul_iff H hv, Option.map_some, Option.some.injEq]

theorem taggedBody_sim (H : Strings m emsg argv) {fns : List (Option (ScanPtr τ))} {t' : PTable τ} {t : Table σ}
    (HT : TabRel R m argv fns t' t) (copt : Int) {s : PtrState} (hs : ArgsOK m argv s) :
    Follows (TabRel R m argv fns) (taggedBodyPtr m fns copt s t') (taggedBody copt (asText m s) t) := by
  unfold taggedBodyPtr taggedBody
  have e1 : (asText m s).getoptval = s.getoptval := rfl
  have e2 : (asText m s).optarg = s.optarg.map (strAt m) := rfl
  have e3 : (asText m s).optopt = s.optopt := rfl
  rw [e1, e2, e3]
  have hnone : ∀ p, (none : Option CPtr) = some p → Within m argv p := fun p h => by cases h
  split
  · dsimp only
    rcases HT.entries.get s.getoptval with ⟨h1, h2⟩ | ⟨h', h, h1, h2, hr⟩
    · rw [h1, h2]; rfl
    · rw [h1, h2]
      dsimp only
      rw [emptyArg_sim H hs.optarg, hr.hasValue]
      simp only [ebind]
      by_cases hc : s.optarg.map (strAt m) = some [] ∧ h.hasValue = true
      · rw [if_pos (by simp [hc]), if_pos hc]
        refine (argvPrev_follows H hs).bind ?_
        rintro a b ⟨rfl, hb⟩
        exact (regEnd_sim HT _ hb).bind fun t1' t1 ht => scanEntry_sim ht _ hs.optarg
      · rw [if_neg (by simpa using hc), if_neg hc]
        exact scanEntry_sim HT _ hs.optarg
  · split
    · split
      · refine (argvPrev_follows H hs).bind ?_
        rintro a b ⟨rfl, hb⟩
        exact regEnd_sim HT _ hb
      · exact regEnd_sim HT _ hnone
    · split
      · refine (argvPrev_follows H hs).bind ?_
        rintro a b ⟨rfl, hb⟩
        exact regEnd_sim HT _ hb
      · have : t'.entries.map Hdr.shortopts = t.entries.map Hdr.shortopts := by
          have := congrArg (List.map fun x => x.2.2.1) HT.entries.faces
          simpa [List.map_map, faceOf, Function.comp_def] using this
        rw [findShortoption_congr _ this]
        cases findShortoption (intChar copt) t.entries 0 with
        | none => exact regEnd_sim HT _ hnone
        | some i => exact scanEntry_sim HT i hs.optarg

theorem taggedLoop_sim (H : Strings m emsg argv) (env : Bool) (nargc : Nat) (sopts : CStr) (lopts : List LongOpt)
    {fns : List (Option (ScanPtr τ))} (fuel : Nat) {t' : PTable τ} {t : Table σ} (HT : TabRel R m argv fns t' t)
    {s : PtrState} (hn : ∀ p ∈ s.nargv, p ∈ argv)
    (hp : s.optreset = false → s.optind ≠ 0 → PlaceOK m argv s ∧ Behind m s) :
    Follows (fun x y => y.1 = asText m x.1 ∧ ArgsOK m argv x.1 ∧ TabRel R m argv fns x.2 y.2)
      (taggedLoopPtr m emsg fns env nargc sopts lopts fuel s t')
      (taggedLoop env nargc sopts lopts fuel (asText m s) t) := by
  induction fuel generalizing s t' t with
  | zero => rfl
  | succ fuel ih =>
    have hg := getoptInternal_sim H env nargc sopts (some lopts) true false hn hp
    simp only [taggedLoopPtr, taggedLoop, getoptLongPtr, getoptLong]
    cases hx : getoptInternalPtr m emsg env nargc sopts (some lopts) true false s with
    | error e =>
      rw [hx] at hg
      have hg : _ = _ := hg
      rw [hg]
      rfl
    | ok rs =>
      obtain ⟨r, s1⟩ := rs
      rw [hx] at hg
      obtain ⟨h1, h2, h3, h4⟩ := hg
      rw [h1]
      simp only [bind, Except.bind]
      split
      · exact ⟨rfl, h2, HT⟩
      · exact (taggedBody_sim H HT r h2).bind fun t1' t1 ht => ih ht h2.nargv fun _ _ => ⟨h3, h4⟩

theorem restErrors_ptr (H : Strings m emsg argv) {v : List CPtr} (hv : ∀ p ∈ v, p ∈ argv) (nargc optind : Nat)
    {fns : List (Option (ScanPtr τ))} {t' : PTable τ} {t : Table σ} (HT : TabRel R m argv fns t' t) :
    Follows (fun x y => x.1 = y.1 ∧ TabRel R m argv fns x.2 y.2) (restErrorsPtr v nargc optind t')
      (restErrors (v.map (strAt m)) nargc optind t) := by
  induction hk : nargc - optind generalizing optind t' t with
  | zero =>
    rw [restErrorsPtr, restErrors, if_neg (by omega), if_neg (by omega)]
    exact ⟨rfl, HT⟩
  | succ k ih =>
    rw [restErrorsPtr, restErrors, if_pos (by omega), if_pos (by omega), vecAt_sim]
    cases ha : vecAt v optind with
    | error e => rfl
    | ok a =>
      simp only [Except.map, ebind]
      refine Follows.bind (regEnd_sim HT ARG_ENOMATCH (vecAt_within H hv ha)) ?_
      intro t1' t1 ht
      exact ih _ ht (by omega)

theorem parseUntagged_sim (H : Strings m emsg argv) {v : List CPtr} (hv : ∀ p ∈ v, p ∈ argv) (nargc : Nat)
    {fns : List (Option (ScanPtr τ))} (tabindex optind : Nat) (last : Option (Int × CPtr × Nat))
    (hl : ∀ x, last = some x → Within m argv x.2.1) {t' : PTable τ} {t : Table σ} (HT : TabRel R m argv fns t' t) :
    Follows (fun x y => x.1 = y.1 ∧ TabRel R m argv fns x.2 y.2)
      (parseUntaggedPtr fns v nargc tabindex optind last t')
      (parseUntagged (v.map (strAt m)) nargc tabindex optind (last.map fun x => (x.1, strAt m x.2.1, x.2.2)) t) := by
  induction hk : (nargc - optind) + (t.entries.length - tabindex) using Nat.strongRecOn generalizing tabindex optind last t' t with
  | _ k ih =>
    rw [parseUntaggedPtr.eq_def, parseUntagged.eq_def]
    by_cases htab : tabindex < t.entries.length
    · have htab' : tabindex < t'.entries.length := HT.entries.len ▸ htab
      rw [dif_pos htab, dif_pos htab']
      by_cases hopt : optind ≥ nargc
      · rw [dif_pos hopt, dif_pos hopt]
        exact ⟨rfl, HT⟩
      · rw [dif_neg hopt, dif_neg hopt]
        have g1 : t'.entries[tabindex]? = some t'.entries[tabindex] := List.getElem?_eq_getElem htab'
        have g2 : t.entries[tabindex]? = some t.entries[tabindex] := List.getElem?_eq_getElem htab
        have hr := HT.entries.each tabindex _ _ g1 g2
        generalize t'.entries[tabindex] = h' at *
        generalize t.entries[tabindex] = h at *
        dsimp only
        rw [hr.longopts, hr.shortopts]
        split
        · exact ih _ (by omega) (tabindex + 1) optind last hl HT rfl
        · have hsc := hr.scan
          revert hsc
          cases fns[tabindex]?.join with
          | none =>
            cases h.scanfn with
            | none => exact fun _ => ih _ (by omega) (tabindex + 1) optind last hl HT rfl
            | some k => exact fun hsc => hsc.elim
          | some f =>
            cases hsf : h.scanfn with
            | none => exact fun hsc => hsc.elim
            | some kf =>
              intro hsc
              dsimp only
              rw [List.getElem?_map]
              cases ha : v[optind]? with
              | none => rfl
              | some a =>
                have hmem := hv a (List.mem_of_getElem? ha)
                have hw : Within m argv a := ⟨H.argv _ hmem, a, hmem, rfl, Nat.le_refl _⟩
                have hf := hsc h'.parent h.parent (some a) hr.parent (fun q hq => by cases hq; exact hw)
                simp only [Option.map_some] at hf ⊢
                revert hf
                cases f h'.parent (some a) with
                | error e =>
                  cases kf h.parent (some (strAt m a)) with
                  | error e2 => exact fun hf => hf
                  | ok y => exact fun hf => hf.elim
                | ok x =>
                  cases kf h.parent (some (strAt m a)) with
                  | error e2 => exact fun hf => hf.elim
                  | ok y =>
                    obtain ⟨p, e1⟩ := x
                    obtain ⟨o, e2⟩ := y
                    rintro ⟨hpo, he⟩
                    have he : e1 = e2 := he
                    subst he
                    have hT : TabRel R m argv fns { t' with entries := t'.entries.set tabindex { h' with parent := p } }
                      { t with entries := t.entries.set tabindex { h with parent := o } } :=
                        ⟨HT.entries.set g1 g2 hpo, HT.fin⟩
                    rw [hsf, hr.longopts, hr.shortopts] at hT
                    dsimp only
                    split
                    · exact ih _ (by simp only [List.length_set]; omega) tabindex (optind + 1) none
                        (fun x h => by cases h) hT rfl
                    · exact ih _ (by simp only [List.length_set]; omega) (tabindex + 1) optind (some (e1, a, tabindex))
                        (fun x h => by cases h; exact hw) hT rfl
    · have htab' : ¬ tabindex < t'.entries.length := HT.entries.len ▸ htab
      rw [dif_neg htab, dif_neg htab']
      cases last with
      | none => exact restErrors_ptr H hv nargc optind HT
      | some x =>
        obtain ⟨err, a, i⟩ := x
        refine Follows.bind (registerError_sim HT.fin (.entry i) err (a := some a) fun p h => by
          cases h; exact hl _ rfl) ?_
        intro e' e he
        exact restErrors_ptr H hv nargc (optind + 1) ⟨HT.entries, he⟩

theorem parseCheck_ptr {fns : List (Option (ScanPtr τ))} {es' : List (Hdr τ)} {es : List (Hdr σ)} (n : Nat)
    (hlen : es'.length = es.length)
    (heach : ∀ i h' h, es'[i]? = some h' → es[i]? = some h → HdrRel (R (n + i)) m argv h' h fns[n + i]?.join)
    {e' : PEnd} {e : EndTbl} (he : EndRel m argv e' e) :
    Follows (EndRel m argv) (parseCheckPtr es' n e') (parseCheck es n e) := by
  induction es' generalizing es n e' e with
  | nil =>
    cases es with
    | nil => exact he
    | cons _ _ => cases hlen
  | cons h' es' ih =>
    cases es with
    | nil => cases hlen
    | cons h es =>
      have hr := (heach 0 h' h rfl rfl)
      have ih' := fun {e' e} (he : EndRel m argv e' e) => ih (es := es) (n + 1) (by simpa using hlen) (fun i k' k h1 h2 => by
        have := heach (i + 1) k' k h1 h2
        rwa [show n + 1 + i = n + (i + 1) by omega]) (e' := e') (e := e) he
      have hc := hr.check
      have hpp := hr.parent
      simp only [parseCheckPtr, parseCheck]
      revert hc
      cases h'.checkfn with
      | none =>
        cases h.checkfn with
        | none => exact fun _ => ih' he
        | some k => exact fun hc => hc.elim
      | some f =>
        cases h.checkfn with
        | none => exact fun hc => hc.elim
        | some k =>
          intro hc
          dsimp only
          rw [hc _ _ hpp]
          split
          · exact Follows.bind (registerError_sim he (.entry n) _ (a := none) fun p h => by cases h) fun e1' e1 h => ih' h
          · exact ih' he

theorem resetEntries_sim {fns : List (Option (ScanPtr τ))} {es' : List (Hdr τ)} {es : List (Hdr σ)} (n : Nat)
    (hlen : es'.length = es.length) {N : Nat} (hN : es'.length = N)
    (heach : ∀ i h' h, es'[i]? = some h' → es[i]? = some h → HdrRel (R (n + i)) m argv h' h fns[n + i]?.join) :
    Follows (fun x y => x.length = N ∧ x.length = y.length ∧
      ∀ i h' h, x[i]? = some h' → y[i]? = some h → HdrRel (R (n + i)) m argv h' h fns[n + i]?.join)
      (resetEntries es') (resetEntries es) := by
  induction es' generalizing es n N with
  | nil =>
    cases es with
    | nil => exact ⟨hN, rfl, fun i h' h h1 => by simp at h1⟩
    | cons _ _ => cases hlen
  | cons h' es' ih =>
    cases es with
    | nil => cases hlen
    | cons h es =>
      have hr := (heach 0 h' h rfl rfl)
      have ih' := ih (es := es) (n + 1) (by simpa using hlen) rfl (fun i k' k h1 h2 => by
        have := heach (i + 1) k' k h1 h2
        rwa [show n + 1 + i = n + (i + 1) by omega])
      rw [resetEntries, resetEntries]
      have key : ∀ (k' : Hdr τ) (k : Hdr σ), HdrRel (R n) m argv k' k fns[n]?.join →
          Follows (fun x y => x.length = N ∧ x.length = y.length ∧
            ∀ i h' h, x[i]? = some h' → y[i]? = some h → HdrRel (R (n + i)) m argv h' h fns[n + i]?.join)
          (resetEntries es' >>= fun t => .ok (k' :: t)) (resetEntries es >>= fun t => .ok (k :: t)) := by
        intro k' k hk
        refine ih'.bind ?_
        rintro ts' ts ⟨hn, hl, he⟩
        refine ⟨by rw [← hN]; simp [hn], by simp [hl], fun i => ?_⟩
        cases i with
        | zero => intro x y h1 h2; cases h1; cases h2; exact hk
        | succ i =>
          intro x y h1 h2
          have := he i x y h1 h2
          rwa [show n + 1 + i = n + (i + 1) by omega] at this
      have hc := hr.reset
      have hpp := hr.parent
      revert hc
      cases h1 : h'.resetfn with
      | none =>
        cases h2 : h.resetfn with
        | none => exact fun _ => key _ _ hr
        | some k => exact fun hc => hc.elim
      | some f =>
        cases h2 : h.resetfn with
        | none => exact fun hc => hc.elim
        | some k =>
          intro hc
          refine Follows.bind (hc _ _ hpp) fun p o hpo => ?_
          have := hr.set hpo
          rw [h1, h2] at this
          exact key _ _ this

theorem argParse_sim (H : Strings m emsg argv) (env : Bool) (fuel : Nat) {fns : List (Option (ScanPtr τ))}
    {t' : PTable τ} {t : Table σ} (HT : EsRel R m argv fns t'.entries t.entries) (hmax : t'.fin.maxcount = t.fin.maxcount)
    (hlen : t'.fin.slots.length = t.fin.slots.length) (s : PtrState) :
    Follows (fun x y => x.1 = y.1 ∧ TabRel R m argv fns x.2.1 y.2.1 ∧ y.2.2 = asText m x.2.2 ∧
        (argv ≠ [] → ArgsOK m argv x.2.2))
      (argParsePtr m emsg fns env fuel argv t' s)
      (argParse env fuel (argv.map (strAt m)) t (asText m s)) := by
  unfold argParsePtr argParse argReset
  have h0 := resetEntries_sim (R := R) (m := m) (argv := argv) (fns := fns) 0 HT.len HT.num (fun i h' h h1 h2 => by
    rw [Nat.zero_add]; exact HT.each i h' h h1 h2)
  simp only [bind_assoc]
  refine h0.bind ?_
  rintro es' es ⟨hn, hl, he⟩
  have HE : EsRel R m argv fns es' es := ⟨hn, hl, fun i h' h h1 h2 => by
    have := he i h' h h1 h2; rwa [Nat.zero_add] at this⟩
  have HF : EndRel m argv { t'.fin with count := 0 } { t.fin with count := 0 } :=
    ⟨hmax, rfl, hlen, fun k hk => absurd hk (Nat.not_lt_zero _)⟩
  simp only [List.length_map, ebind]
  by_cases ha : argv.length = 0
  · simp only [ha, if_true]
    refine Follows.bind (parseCheck_ptr (R := R) (fns := fns) 0 hl he HF) ?_
    intro e' e h
    exact ⟨h.count, ⟨HE, h⟩, rfl, fun hc => absurd (List.length_eq_zero_iff.1 ha) hc⟩
  · simp only [ha, if_false]
    refine Follows.bind (R := fun x y => y.1 = asText m x.1 ∧ ArgsOK m argv x.1 ∧ TabRel R m argv fns x.2 y.2) ?_ ?_
    · unfold parseTaggedPtr parseTagged
      rw [allocLong_face HE.faces, allocShort_face HE.faces]
      cases allocLongoptions es with
      | error e => rfl
      | ok lopts =>
        cases allocShortoptions es with
        | error e => rfl
        | ok sopts =>
          exact taggedLoop_sim H env argv.length sopts lopts fuel (t' := ⟨es', _⟩) (t := ⟨es, _⟩) ⟨HE, HF⟩
            (s := { s with nargv := argv, optind := 0, opterr := false }) (fun _ h => h) (fun _ h => absurd rfl h)
    · rintro ⟨s1, t1'⟩ ⟨g1, t1⟩ ⟨h1, h2, h3⟩
      have h1 : g1 = asText m s1 := h1
      subst h1
      have hu := parseUntagged_sim H h2.nargv argv.length 0 s1.optind none (fun _ h => by cases h) h3
      refine Follows.bind (R := fun x y => x.1 = y.1 ∧ TabRel R m argv fns x.2 y.2) hu ?_
      rintro ⟨oi, t2'⟩ ⟨oi2, t2⟩ ⟨k1, k2⟩
      have k1 : oi = oi2 := k1
      subst k1
      have k2 : TabRel R m argv fns t2' t2 := k2
      dsimp only
      rw [k2.fin.count]
      split
      · refine Follows.bind (parseCheck_ptr (R := R) (fns := fns) 0 k2.entries.len (fun i h' h h1 h2 => by
          rw [Nat.zero_add]; exact k2.entries.each i h' h h1 h2) k2.fin) ?_
        intro e' e h
        exact ⟨h.count, ⟨k2.entries, h⟩, rfl, fun _ => ⟨h2.nargv, h2.optarg⟩⟩
      · exact ⟨rfl, k2, rfl, fun _ => ⟨h2.nargv, h2.optarg⟩⟩

end tables

end Argtable
