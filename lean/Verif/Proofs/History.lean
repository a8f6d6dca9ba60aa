import Verif.Proofs.DateSteady
import Verif.Proofs.Live
import Verif.Proofs.Stuck
/-!
# Two parses of the same command line by tables with different histories (C12)
-/

namespace Argtable

open Spec

variable {σ δ : Type}

/-- Both computations fail in the same way, or both succeed with related results. -/
def RelM {α β : Type} (P : α → β → Prop) : M α → M β → Prop
  | .ok a, .ok b => P a b
  | .error e, .error e' => e = e'
  | _, _ => False

theorem RelM.bind {α β α' β' : Type} {P : α → β → Prop} {Q : α' → β' → Prop} {x : M α} {y : M β}
    {f : α → M α'} {g : β → M β'} (h : RelM P x y) (hf : ∀ a b, P a b → RelM Q (f a) (g b)) :
    RelM Q (x >>= f) (y >>= g) := by
  cases x <;> cases y
  · exact h
  · exact absurd h id
  · exact absurd h id
  · exact hf _ _ h

theorem RelM.mono {α β : Type} {P Q : α → β → Prop} {x : M α} {y : M β} (h : RelM P x y)
    (hf : ∀ a b, P a b → Q a b) : RelM Q x y := by
  cases x <;> cases y
  · exact h
  · exact absurd h id
  · exact absurd h id
  · exact hf _ _ h

theorem RelM.refl {α : Type} {P : α → α → Prop} (hP : ∀ a, P a a) (x : M α) : RelM P x x := by
  cases x
  · rfl
  · exact hP _

/-! ### which entries are told that there is no value -/

/-- "No value" is only delivered to entries that allow it. -/
def NoneOK (ds : List Decl) (evs : List Ev) : Prop :=
  ∀ i, Ev.deliver i none ∈ evs → ∃ d, ds[i]? = some d ∧ (d.hasValue = false ∨ d.hasOptValue = true)

theorem noneOK_nil {ds : List Decl} : NoneOK ds [] := by intro i h; simp at h

theorem noneOK_fail {ds : List Decl} (c : Int) (a : Option CStr) : NoneOK ds [.fail c a] := by
  intro i h; simp at h

theorem noneOK_some {ds : List Decl} (i : Nat) (a : CStr) : NoneOK ds [.deliver i (some a)] := by
  intro i h; simp at h

theorem NoneOK.append {ds : List Decl} {e1 e2 : List Ev} (h1 : NoneOK ds e1) (h2 : NoneOK ds e2) :
    NoneOK ds (e1 ++ e2) := by
  intro i h
  rcases List.mem_append.1 h with h | h
  · exact h1 i h
  · exact h2 i h

theorem noneOK_empty {ds : List Decl} (i : Nat) (v w : CStr) : NoneOK ds (emptyValueError ds i v w) := by
  unfold emptyValueError
  split
  · exact noneOK_fail _ _
  · exact noneOK_nil

theorem readLong_noneOK (ds : List Decl) (a : CStr) (n : Option CStr) (b : CStr) :
    NoneOK ds (readLong ds a n b).1 := by
  unfold readLong
  simp only
  split
  · exact noneOK_fail _ _
  · rename_i nm i kind hres
    obtain ⟨d, hd1, hd2, _⟩ := longTable_entry_lt ds 0 _ (resolve_mem hres)
    simp only [Nat.sub_zero] at hd1 hd2
    split
    · exact noneOK_fail _ _
    · exact (noneOK_empty _ _ _).append (noneOK_some _ _)
    · split
      · exact noneOK_fail _ _
      · exact (noneOK_empty _ _ _).append (noneOK_some _ _)
    · rename_i k' hk hk2
      intro j hj
      simp only [List.mem_cons, Ev.deliver.injEq, List.not_mem_nil, or_false, and_true] at hj
      subst hj
      refine ⟨d, hd1, ?_⟩
      unfold Decl.longKind at hd2
      cases ho : d.hasOptValue with
      | true => exact Or.inr rfl
      | false =>
        cases hv : d.hasValue with
        | false => exact Or.inl rfl
        | true =>
          rw [ho, hv] at hd2
          exact absurd hd2 (by assumption)

theorem shortLookup_decl {c : Char} {ds : List Decl} {i j : Nat} {k : ValKind}
    (h : shortLookup c ds i = some (j, k)) : ∃ d, ds[j - i]? = some d ∧ k = d.shortKind ∧ i ≤ j := by
  induction ds generalizing i with
  | nil => simp [shortLookup] at h
  | cons d ds ih =>
    simp only [shortLookup] at h
    split at h
    · cases h; exact ⟨d, by simp, rfl, le_refl _⟩
    · obtain ⟨d', h1, h2, h3⟩ := ih h
      refine ⟨d', ?_, h2, by omega⟩
      have : j - i = (j - (i + 1)) + 1 := by omega
      rw [this, List.getElem?_cons_succ]
      exact h1

theorem readCluster_noneOK (ds : List Decl) (a : CStr) (n : Option CStr) :
    ∀ (cl : CStr) (evs : List Ev) (u : Bool), readCluster ds a n cl = some (evs, u) →
      NoneOK ds evs := by
  intro cl
  induction cl with
  | nil => intro evs u h; cases h; exact noneOK_nil
  | cons c tl ih =>
    intro evs u h
    have deliverNone : ∀ {i k}, shortLookup c ds 0 = some (i, k) → k ≠ .req → NoneOK ds [.deliver i none] := by
      intro i k hl hk j hj
      simp only [List.mem_cons, Ev.deliver.injEq, List.not_mem_nil, or_false, and_true] at hj
      subst hj
      obtain ⟨d, h1, h2, -⟩ := shortLookup_decl hl
      refine ⟨d, h1, ?_⟩
      unfold Decl.shortKind at h2
      cases ho : d.hasOptValue with
      | true => exact Or.inr rfl
      | false =>
        cases hv : d.hasValue with
        | false => exact Or.inl rfl
        | true => rw [ho, hv] at h2; exact absurd h2 hk
    simp only [readCluster] at h
    split at h
    · split at h
      · cases h
      · have := readLong_noneOK ds a n tl
        rw [Option.some.inj h] at this; exact this
    · split at h
      · cases hr : readCluster ds a n tl with
        | none => rw [hr] at h; cases h
        | some p =>
          rw [hr] at h; cases h
          exact (noneOK_fail _ _).append (ih _ _ hr)
      · rename_i i hl
        cases hr : readCluster ds a n tl with
        | none => rw [hr] at h; cases h
        | some p =>
          rw [hr] at h; cases h
          exact (deliverNone hl (by simp)).append (ih _ _ hr)
      · split at h
        · cases h; exact noneOK_some _ _
        · split at h
          · cases h; exact noneOK_fail _ _
          · cases h; exact noneOK_some _ _
      · rename_i i hl
        cases h
        split
        · exact deliverNone hl (by simp)
        · exact noneOK_some _ _

theorem tokenize_noneOK (ds : List Decl) (posix : Bool) :
    ∀ (m : Nat) (args : List CStr), args.length ≤ m → ∀ (evs : List Ev) (ops : List CStr),
      tokenize ds posix args = some (evs, ops) → NoneOK ds evs := by
  intro m
  induction m with
  | zero =>
    intro args hl evs ops h
    have : args = [] := List.length_eq_zero_iff.1 (by omega)
    subst this; cases h; exact noneOK_nil
  | succ m ih =>
    intro args hl evs ops h
    cases args with
    | nil => cases h; exact noneOK_nil
    | cons a rest =>
      have hl' : rest.length ≤ m := by simpa using hl
      rw [tokenize] at h
      split at h
      · cases h; exact noneOK_nil
      · split at h
        · split at h
          · cases h; exact noneOK_nil
          · cases hr : tokenize ds posix rest with
            | none => rw [hr] at h; cases h
            | some p => rw [hr] at h; cases h; exact ih rest hl' _ _ hr
        · split at h
          · cases h
          · rename_i evs1 hrc
            cases hr : tokenize ds posix rest with
            | none => rw [hr] at h; cases h
            | some p =>
              rw [hr] at h; cases h
              exact (readCluster_noneOK _ _ _ _ _ _ hrc).append (ih rest hl' _ _ hr)
          · rename_i evs1 hrc
            cases rest with
            | nil => cases h; exact readCluster_noneOK _ _ _ _ _ _ hrc
            | cons b rest =>
              simp only at h
              cases hr : tokenize ds posix rest with
              | none => rw [hr] at h; cases h
              | some p =>
                rw [hr] at h; cases h
                exact (readCluster_noneOK _ _ _ _ _ _ hrc).append
                  (ih rest (by simp at hl'; omega) _ _ hr)

/-! ### relations kept by all steps -/

/-- May `a` be handed to the entry `h`? -/
def ArgOK (h : Hdr σ) (a : Option CStr) : Prop := a = none → h.hasValue = false ∨ h.hasOptValue = true

/-- `K0` relates the entries before the reset, `K` afterwards. -/
structure Bisim (K0 K : Hdr σ → Hdr σ → Prop) : Prop where
  same : ∀ h h', K h h' → SameHdr h h'
  same0 : ∀ h h', K0 h h' → SameHdr h h'
  reset : ∀ h h' f, K0 h h' → h.resetfn = some f →
    RelM (fun p p' => K { h with parent := p } { h' with parent := p' }) (f h.parent) (f h'.parent)
  noreset : ∀ h h', K0 h h' → h.resetfn = none → K h h'
  scan : ∀ h h' f a, K h h' → ArgOK h a → h.scanfn = some f →
    RelM (fun q q' => q.2 = q'.2 ∧ K { h with parent := q.1 } { h' with parent := q'.1 })
      (f h.parent a) (f h'.parent a)
  check : ∀ h h' f, K h h' → h.checkfn = some f → f h.parent = f h'.parent

variable {K0 K : Hdr σ → Hdr σ → Prop}

theorem resetAll_cons (x : Hdr σ) (xs : List (Hdr σ)) :
    resetAll (x :: xs) = (match x.resetfn with | none => .ok x.parent | some f => f x.parent) >>=
      fun p => resetAll xs >>= fun t => .ok ({ x with parent := p } :: t) := by
  rw [resetAll]
  cases x.resetfn <;> rfl

theorem resetAll_bisim (hB : Bisim K0 K) : ∀ (es es' : List (Hdr σ)), List.Forall₂ K0 es es' →
    RelM (List.Forall₂ K) (resetAll es) (resetAll es') := by
  intro es es' h
  induction h with
  | nil => exact .nil
  | @cons x y xs ys hxy _ ih =>
    have hr : y.resetfn = x.resetfn := by rw [hB.same0 _ _ hxy]
    rw [resetAll_cons, resetAll_cons, hr]
    refine RelM.bind (P := fun p p' => K { x with parent := p } { y with parent := p' }) ?_ ?_
    · split
      · rename_i hf; exact hB.noreset _ _ hxy hf
      · rename_i f hf; exact hB.reset _ _ f hxy hf
    · intro p p' hp
      refine RelM.bind ih ?_
      intro t t' ht
      simp only [hr] at hp
      exact .cons hp ht

theorem forall₂_set {R : Hdr σ → Hdr σ → Prop} : ∀ {es es' : List (Hdr σ)}, List.Forall₂ R es es' →
    ∀ (i : Nat) {x y : Hdr σ}, R x y → List.Forall₂ R (es.set i x) (es'.set i y) := by
  intro es es' h
  induction h with
  | nil => intro i x y _; exact .nil
  | cons h1 h2 ih =>
    intro i x y hxy
    cases i with
    | zero => exact .cons hxy h2
    | succ i => exact .cons h1 (ih i hxy)

theorem forall₂_get {R : Hdr σ → Hdr σ → Prop} : ∀ {es es' : List (Hdr σ)}, List.Forall₂ R es es' →
    ∀ (i : Nat), (es[i]? = none ∧ es'[i]? = none) ∨ ∃ x y, es[i]? = some x ∧ es'[i]? = some y ∧ R x y := by
  intro es es' h
  induction h with
  | nil => intro i; left; simp
  | cons h1 h2 ih =>
    intro i
    cases i with
    | zero => right; exact ⟨_, _, rfl, rfl, h1⟩
    | succ i => simpa using ih i

theorem frame_of_bisim (hB : Bisim K0 K) {es es' : List (Hdr σ)} (h : List.Forall₂ K es es') : Frame es es' :=
  h.imp fun {a b} hab => hB.same a b hab

theorem deliver_bisim (hB : Bisim K0 K) {ds : List Decl} {es es' : List (Hdr σ)} (errs : List ErrRec)
    (h : List.Forall₂ K es es') (hd : es.map declOf = ds) {ev : Ev} (hev : NoneOK ds [ev]) :
    RelM (fun q q' => q.2 = q'.2 ∧ List.Forall₂ K q.1 q'.1 ∧ q.1.map declOf = ds)
      (deliver (es, errs) ev) (deliver (es', errs) ev) := by
  cases ev with
  | fail c a => exact ⟨rfl, h, hd⟩
  | deliver i a =>
    unfold deliver
    dsimp only
    rcases forall₂_get h i with ⟨h1, h2⟩ | ⟨x, y, h1, h2, hxy⟩
    · rw [h1, h2]; rfl
    · rw [h1, h2]
      dsimp only
      have hs : y.scanfn = x.scanfn := by rw [hB.same _ _ hxy]
      rw [hs]
      cases hf : x.scanfn with
      | none => exact ⟨rfl, h, hd⟩
      | some f =>
        dsimp only
        have harg : ArgOK x a := by
          rintro rfl
          obtain ⟨d, hd1, hd2⟩ := hev i (by simp)
          rw [← hd, List.getElem?_map, h1] at hd1
          cases hd1
          exact hd2
        refine RelM.bind (hB.scan x y f a hxy harg hf) ?_
        rintro ⟨p, e⟩ ⟨p', e'⟩ ⟨he, hp⟩
        cases (show e = e' from he)
        refine ⟨rfl, ?_, ?_⟩
        · have := forall₂_set h i hp
          dsimp only at this ⊢
          rw [hs] at this
          rw [← hf]
          exact this
        · show (es.set i _).map declOf = ds
          rw [← hd]
          exact map_set_same declOf es i x _ h1 rfl

theorem deliverAll_bisim (hB : Bisim K0 K) {ds : List Decl} : ∀ (evs : List Ev) (es es' : List (Hdr σ))
    (errs : List ErrRec), List.Forall₂ K es es' → es.map declOf = ds → NoneOK ds evs →
    RelM (fun q q' => q.2 = q'.2 ∧ List.Forall₂ K q.1 q'.1 ∧ q.1.map declOf = ds)
      (deliverAll evs (es, errs)) (deliverAll evs (es', errs)) := by
  intro evs
  induction evs with
  | nil => intro es es' errs h hd _; exact ⟨rfl, h, hd⟩
  | cons ev evs ih =>
    intro es es' errs h hd hev
    simp only [deliverAll]
    refine RelM.bind (deliver_bisim hB errs h hd (ev := ev) fun i hi => hev i (by simp at hi; simp [hi])) ?_
    rintro ⟨q, e⟩ ⟨q', e'⟩ ⟨he, hq, hd'⟩
    cases (show e = e' from he)
    exact ih q q' e hq hd' fun i hi => hev i (by simp [hi])

theorem feed_bisim (hB : Bisim K0 K) {h h' : Hdr σ} {f : σ → Option CStr → M (σ × Int)}
    (hf : h.scanfn = some f) : ∀ (ops : List CStr) (p p' : σ),
    K { h with parent := p } { h' with parent := p' } →
    RelM (fun q q' => q.2 = q'.2 ∧ K { h with parent := q.1 } { h' with parent := q'.1 })
      (feed f p ops) (feed f p' ops) := by
  intro ops
  induction ops with
  | nil => intro p p' hp; exact ⟨rfl, hp⟩
  | cons a ops ih =>
    intro p p' hp
    simp only [feed]
    have := hB.scan { h with parent := p } { h' with parent := p' } f (some a) hp (fun h => by cases h) hf
    refine RelM.bind this ?_
    rintro ⟨q, e⟩ ⟨q', e'⟩ ⟨he, hq⟩
    cases (show e = e' from he)
    dsimp only
    split
    · exact ih q q' hq
    · exact ⟨rfl, hq⟩

theorem operands_bisim (hB : Bisim K0 K) : ∀ (es es' : List (Hdr σ)), List.Forall₂ K es es' →
    ∀ (i : Nat) (last : Option (Int × Nat)) (ops : List CStr),
    RelM (fun q q' => q.2 = q'.2 ∧ List.Forall₂ K q.1 q'.1) (operands es i last ops)
      (operands es' i last ops) := by
  intro es es' h
  induction h with
  | nil => intro i last ops; exact ⟨rfl, .nil⟩
  | @cons x y xs ys hxy hxs ih =>
    intro i last ops
    have hsame := hB.same _ _ hxy
    have hs : y.scanfn = x.scanfn := by rw [hsame]
    have hl : y.longopts = x.longopts := by rw [hsame]
    have ho : y.shortopts = x.shortopts := by rw [hsame]
    have skip : ∀ last ops, RelM (fun q q' => q.2 = q'.2 ∧ List.Forall₂ K q.1 q'.1)
        (operands xs (i + 1) last ops >>= fun q => (.ok (x :: q.1, q.2) : M _))
        (operands ys (i + 1) last ops >>= fun q => (.ok (y :: q.1, q.2) : M _)) := by
      intro last ops
      refine RelM.bind (ih (i + 1) last ops) ?_
      rintro ⟨q, e⟩ ⟨q', e'⟩ ⟨he, hq⟩
      exact ⟨he, .cons hxy hq⟩
    simp only [operands, hs, hl, ho]
    split
    · exact ⟨rfl, .cons hxy hxs⟩
    split
    · exact skip last ops
    · cases hf : x.scanfn with
      | none => exact skip last ops
      | some f =>
        dsimp only
        refine RelM.bind (feed_bisim hB hf ops x.parent y.parent hxy) ?_
        rintro ⟨q, e⟩ ⟨q', e'⟩ ⟨he, hq⟩
        cases (show e = e' from he)
        dsimp only
        refine RelM.bind (ih (i + 1) _ _) ?_
        rintro ⟨r, e1⟩ ⟨r', e1'⟩ ⟨he1, hr⟩
        refine ⟨he1, .cons ?_ hr⟩
        simp only [hs, hl, ho] at hq
        rw [← hf]
        exact hq

theorem checks_bisim (hB : Bisim K0 K) : ∀ (es es' : List (Hdr σ)), List.Forall₂ K es es' →
    ∀ i, checks es i = checks es' i := by
  intro es es' h
  induction h with
  | nil => intro i; rfl
  | @cons x y xs ys hxy _ ih =>
    intro i
    have hc : y.checkfn = x.checkfn := by rw [hB.same _ _ hxy]
    simp only [checks, hc]
    cases hf : x.checkfn with
    | none => exact ih _
    | some f =>
      have := hB.check _ _ f hxy hf
      dsimp only
      rw [this, ih]

/-- Related tables give related results. -/
theorem meaning_bisim (hB : Bisim K0 K) {es es' : List (Hdr σ)} (h : List.Forall₂ K0 es es')
    {evs : List Ev} (hev : NoneOK (es.map declOf) evs) (ops : List CStr) :
    RelM (fun q q' => q.2 = q'.2 ∧ List.Forall₂ K q.1 q'.1) (meaning es evs ops) (meaning es' evs ops) := by
  unfold meaning
  have h0 := resetAll_bisim hB es es' h
  have hfr := resetAll_frame es
  cases h1 : resetAll es with
  | error e =>
    rw [h1] at h0
    cases h2 : resetAll es' with
    | error e' => rw [h2] at h0; exact h0
    | ok _ => rw [h2] at h0; exact absurd h0 id
  | ok es1 =>
    rw [h1] at h0
    cases h2 : resetAll es' with
    | error e' => rw [h2] at h0; exact absurd h0 id
    | ok es1' =>
      rw [h2] at h0
      have hd : es1.map declOf = es.map declOf := by
        have hf := hfr es1 h1
        clear * - hf
        induction hf with
        | nil => rfl
        | @cons a b _ _ hab _ ih =>
          have e : declOf b = declOf a := by rw [hab]; rfl
          rw [List.map_cons, List.map_cons, ih, e]
      simp only [bind_ok]
      refine RelM.bind (deliverAll_bisim hB evs es1 es1' [] h0 hd hev) ?_
      rintro ⟨q, e⟩ ⟨q', e'⟩ ⟨he, hq, -⟩
      cases (show e = e' from he)
      dsimp only
      refine RelM.bind (operands_bisim hB q q' hq 0 none ops) ?_
      rintro ⟨r, e1⟩ ⟨r', e1'⟩ ⟨he1, hr⟩
      cases (show e1 = e1' from he1)
      refine ⟨?_, hr⟩
      dsimp only
      rw [checks_bisim hB r r' hr 0]

/-! ### a relation to a fixed table that all steps keep -/

/-- The relation `K` to a fixed entry is kept by reset and scan functions. -/
structure Keeps (K : Hdr σ → Hdr σ → Prop) : Prop where
  reset : ∀ h0 h f p, K h0 h → h.resetfn = some f → f h.parent = .ok p → K h0 { h with parent := p }
  scan : ∀ h0 h f a q, K h0 h → h.scanfn = some f → f h.parent a = .ok q → K h0 { h with parent := q.1 }

theorem resetAll_keeps (hK : Keeps K) : ∀ {es0 es es' : List (Hdr σ)}, List.Forall₂ K es0 es →
    resetAll es = .ok es' → List.Forall₂ K es0 es' := by
  intro es0 es es' h
  induction h generalizing es' with
  | nil => intro h; cases h; exact .nil
  | @cons x y xs ys hxy _ ih =>
    intro he
    rw [resetAll_cons] at he
    cases hr : y.resetfn with
    | none =>
      rw [hr] at he
      cases ht : resetAll ys with
      | error e => rw [ht] at he; cases he
      | ok t' =>
        rw [ht] at he; cases he
        refine .cons ?_ (ih ht)
        rw [← hr]; exact hxy
    | some f =>
      rw [hr] at he
      dsimp only at he
      cases hf : f y.parent with
      | error e => rw [hf] at he; cases he
      | ok p =>
        rw [hf, bind_ok] at he
        cases ht : resetAll ys with
        | error e => rw [ht] at he; cases he
        | ok t' =>
          rw [ht] at he; cases he
          refine .cons ?_ (ih ht)
          rw [← hr]; exact hK.reset _ _ _ _ hxy hr hf

theorem forall₂_set_right {R : Hdr σ → Hdr σ → Prop} : ∀ {es es' : List (Hdr σ)}, List.Forall₂ R es es' →
    ∀ (i : Nat) {y z : Hdr σ}, es'[i]? = some y → (∀ x, R x y → R x z) → List.Forall₂ R es (es'.set i z) := by
  intro es es' h
  induction h with
  | nil => intro i y z hy; cases hy
  | cons h1 h2 ih =>
    intro i y z hy hz
    cases i with
    | zero => cases hy; exact .cons (hz _ h1) h2
    | succ i => exact .cons h1 (ih i (by simpa using hy) hz)

theorem deliverAll_keeps (hK : Keeps K) {es0 : List (Hdr σ)} : ∀ (evs : List Ev)
    (s s' : List (Hdr σ) × List ErrRec), List.Forall₂ K es0 s.1 → deliverAll evs s = .ok s' →
    List.Forall₂ K es0 s'.1 := by
  intro evs
  induction evs with
  | nil => intro s s' h he; cases he; exact h
  | cons ev evs ih =>
    intro s s' h he
    unfold deliverAll at he
    cases hd : deliver s ev with
    | error e => rw [hd] at he; cases he
    | ok s1 =>
      rw [hd] at he
      refine ih s1 s' ?_ he
      cases ev with
      | fail c a => cases hd; exact h
      | deliver i a =>
        unfold deliver at hd
        dsimp only at hd
        cases hk : s.1[i]? with
        | none => rw [hk] at hd; cases hd
        | some k =>
          rw [hk] at hd
          dsimp only at hd
          cases hs : k.scanfn with
          | none => rw [hs] at hd; cases hd; exact h
          | some f =>
            rw [hs] at hd
            dsimp only at hd
            cases hf : f k.parent a with
            | error e => rw [hf] at hd; cases hd
            | ok q =>
              rw [hf] at hd
              cases hd
              dsimp only
              rw [← hs]
              exact forall₂_set_right h i hk fun x hx => hK.scan _ _ _ _ _ hx hs hf

theorem feed_keeps (hK : Keeps K) {h0 h : Hdr σ} {f : σ → Option CStr → M (σ × Int)} (hf : h.scanfn = some f) :
    ∀ (ops : List CStr) (p : σ) (w : σ × List CStr × Int), K h0 { h with parent := p } →
    feed f p ops = .ok w → K h0 { h with parent := w.1 } := by
  intro ops
  induction ops with
  | nil => intro p w hp he; cases he; exact hp
  | cons a ops ih =>
    intro p w hp he
    simp only [feed] at he
    cases hfr : f p (some a) with
    | error e => rw [hfr] at he; cases he
    | ok q =>
      rw [hfr, bind_ok] at he
      have hq := hK.scan h0 { h with parent := p } f (some a) q hp hf hfr
      dsimp only at he hq
      split at he
      · exact ih q.1 w hq he
      · cases he; exact hq

theorem operands_keeps (hK : Keeps K) : ∀ {es0 es : List (Hdr σ)}, List.Forall₂ K es0 es →
    ∀ (i : Nat) (last : Option (Int × Nat)) (ops : List CStr) (q : List (Hdr σ) × List ErrRec),
    operands es i last ops = .ok q → List.Forall₂ K es0 q.1 := by
  intro es0 es h
  induction h with
  | nil => intro i last ops q he; cases he; exact .nil
  | @cons x k xs t hxy hxs ih =>
    intro i last ops q h
    unfold operands at h
    split at h
    · cases h; exact .cons hxy hxs
    split at h
    · cases ht : operands t (i + 1) last ops with
      | error e => rw [ht] at h; cases h
      | ok r => rw [ht] at h; cases h; exact .cons hxy (ih _ _ _ _ ht)
    · cases hs : k.scanfn with
      | none =>
        rw [hs] at h
        dsimp only at h
        cases ht : operands t (i + 1) last ops with
        | error e => rw [ht] at h; cases h
        | ok r => rw [ht] at h; cases h; exact .cons hxy (ih _ _ _ _ ht)
      | some f =>
        rw [hs] at h
        dsimp only at h
        cases hf : feed f k.parent ops with
        | error e => rw [hf] at h; cases h
        | ok w =>
          rw [hf] at h
          simp only [bind, Except.bind] at h
          cases ht : operands t (i + 1) (some (w.2.2, i)) w.2.1 with
          | error e => rw [ht] at h; cases h
          | ok r =>
            rw [ht] at h
            cases h
            refine .cons ?_ (ih _ _ _ _ ht)
            rw [← hs]
            exact feed_keeps hK hs ops _ _ hxy hf

theorem meaning_keeps (hK : Keeps K) {es0 es : List (Hdr σ)} (h : List.Forall₂ K es0 es) {evs : List Ev}
    {ops : List CStr} {q : List (Hdr σ) × List ErrRec} (hm : meaning es evs ops = .ok q) :
    List.Forall₂ K es0 q.1 := by
  unfold meaning at hm
  cases h0 : resetAll es with
  | error e => rw [h0] at hm; cases hm
  | ok es1 =>
    rw [h0] at hm
    cases h1 : deliverAll evs (es1, []) with
    | error e => simp only [bind, Except.bind, h1] at hm; cases hm
    | ok s1 =>
      simp only [bind, Except.bind, h1] at hm
      cases h2 : operands s1.1 0 none ops with
      | error e => rw [h2] at hm; cases hm
      | ok s2 =>
        rw [h2] at hm
        cases hm
        have := operands_keeps hK (deliverAll_keeps hK evs _ _ (resetAll_keeps hK h h0) h1) _ _ _ _ h2
        exact this

end Argtable
