import Verif.Spec.Oom
import Verif.Proofs.ParseOom
import Verif.Props.Memory
import Verif.Props.History
/-!
# Running out of memory (C71)

`argParseOom sup` (Model/ParseOom.lean) is `arg_parse` when `sup` says which allocations succeed.  `ReturnsOom` and
`Panics` (Spec/Oom.lean) say that a call returns, or that it ends in the panic function.
-/

namespace Argtable

open Spec

variable {δ : Type} {lc : Libc δ} {env : Bool} {m : Nat} {sup : Supply}

/-! ### The allocation functions -/

/-- C71.  The library's own panic function writes the message as it is, and ends the process: by `abort` if
`EF_DUMPCORE` is set and not empty, and with status 1 otherwise. -/
theorem C71_default (var : Option CStr) (msg : CStr) :
    (defaultPanic var msg).1 = msg ∧
    ((defaultPanic var msg).2 = .abort ↔ ∃ s, var = some s ∧ s ≠ []) ∧
    ((defaultPanic var msg).2 = .exit 1 ↔ ¬ ∃ s, var = some s ∧ s ≠ []) := by
  refine ⟨rfl, ?_, ?_⟩ <;> · unfold defaultPanic; rcases var with _ | _ | ⟨c, s⟩ <;> simp

/-- C71.  With a panic function that does not return, the allocation functions never return NULL: if the C library
delivers a block, then they return it and nothing is written; if not, the panic function decides how the run ends, after
having been called once with the message `Out of memory!`. -/
theorem C71_alloc {panic : PanicFn} (hp : ∀ v s, (panic v s).2 ≠ .returns) (var : Option CStr) (size : Nat)
    (lib : Nat → Option Nat) :
    (∀ a, lib size = some a → xmalloc panic var lib size = .ptr (some a) []) ∧
    (lib size = none → xmalloc panic var lib size =
      .ended (panic var (cs "Out of memory!\n")).2 (panic var (cs "Out of memory!\n")).1) := by
  constructor
  · intro a h
    unfold xmalloc onNull
    rw [h]
  · intro h
    unfold xmalloc onNull
    rw [h]
    dsimp only
    have := hp var (cs "Out of memory!\n")
    revert this
    cases panic var (cs "Out of memory!\n") with
    | mk out e => cases e <;> simp

/-- C71.  A request of `xcalloc` or `xrealloc` for no bytes is passed on as one for a byte, so NULL always means that there
is no memory.  All other requests are passed on as they are. -/
theorem C71_sizes (panic : PanicFn) (var : Option CStr) (count size : Nat) (calloc : Nat → Nat → Option Nat)
    (realloc : Option Nat → Nat → Option Nat) (p : Option Nat) :
    (∃ c s, c * s = max (count * size) 1 ∧ xcalloc panic var calloc count size = onNull panic var (calloc c s)) ∧
    xrealloc panic var realloc p size = onNull panic var (realloc p (max size 1)) := by
  constructor
  · unfold xcalloc
    by_cases h : count ≠ 0 ∧ size ≠ 0
    · refine ⟨count, size, ?_, by simp only [if_pos h]⟩
      have := Nat.mul_pos (Nat.pos_of_ne_zero h.1) (Nat.pos_of_ne_zero h.2)
      omega
    · refine ⟨1, 1, ?_, by simp only [if_neg h]⟩
      have : count * size = 0 := by
        by_cases hc : count = 0
        · simp [hc]
        · have : size = 0 := by
            by_contra hs
            exact h ⟨hc, hs⟩
          simp [this]
      omega
  · unfold xrealloc
    by_cases h : size = 0
    · subst h; rfl
    · rw [if_pos h, Nat.max_eq_left (by omega)]

/-! ### arg_parse -/

theorem osim_atWork {h : Hdr (Obj δ)} {f : Option (OScanFn (Obj δ))} (hw : AtWorkOom sup h f) :
    ∃ f', AtWork h f' ∧ OSimFn sup f f' := by
  cases hw with
  | other hn =>
    refine ⟨_, .other hn, ?_⟩
    cases h.scanfn with
    | none => trivial
    | some g => exact fun o a heap => .pre fun _ _ => .ok
  | rex hd =>
    refine ⟨_, .rex hd, fun o a heap => ?_⟩
    cases o with
    | rex o =>
      refine .bind (.within (osim_rexScan sup _ _ _ o a heap) ?_) fun _ _ => .ok
      rintro ⟨q, h'⟩ ⟨h1, h2⟩
      dsimp only at h1 h2 ⊢
      exact ⟨by rw [h1], h2⟩
    | _ => exact .up _

theorem osim_allAtWork {fns : List (Option (OScanFn (Obj δ)))} {es : List (Hdr (Obj δ))} (hw : AllAtWorkOom sup fns es) :
    ∃ fns', AllAtWork fns' es ∧ OSimFns sup fns fns' := by
  induction es generalizing fns with
  | nil =>
    have : fns = [] := List.length_eq_zero_iff.1 hw.1
    subst this
    exact ⟨[], ⟨rfl, fun i h f hi => by cases hi⟩, fun i => trivial⟩
  | cons d es ih =>
    cases fns with
    | nil => cases hw.1
    | cons f fns =>
      obtain ⟨f', h1, h2⟩ := osim_atWork (hw.2 0 d f rfl rfl)
      obtain ⟨fns', h3, h4⟩ := ih (fns := fns) ⟨by simpa using hw.1, fun i h f hi hf => hw.2 (i + 1) h f hi hf⟩
      refine ⟨f' :: fns', ⟨by simp [h3.1], fun i h g hi hg => ?_⟩, fun i => ?_⟩
      · cases i with
        | zero => cases hi; cases hg; exact h1
        | succ i => exact h3.2 i h g hi hg
      · cases i with
        | zero => exact h2
        | succ i => exact h4 i

/-- The declarations, and consistency, survive resetting and scanning. -/
theorem keeps_live (lc : Libc δ) : Keeps fun h0 h : Hdr (Obj δ) => SameHdr h0 h ∧ Live lc AnyPat h := by
  have L := lawful_live lc (R := AnyPat) (A := AnyArg) (E := fun _ => True) (Or.inl trivial) (Or.inl ⟨trivial, trivial⟩)
  constructor
  · rintro h0 h f p ⟨h1, h2⟩ hf hp
    have := L.reset h f h2 hf
    rw [hp] at this
    refine ⟨?_, this⟩
    unfold SameHdr at h1 ⊢
    rw [h1]
  · rintro h0 h f a q ⟨h1, h2⟩ hf hq
    have := L.scan h f a h2 trivial hf
    rw [hq] at this
    refine ⟨?_, this⟩
    unfold SameHdr at h1 ⊢
    rw [h1]

theorem inUse_live {t : Table (Obj δ)} (hend : EndOK m t.fin) (hl : ∀ h ∈ t.entries, Live lc AnyPat h) :
    InUse (fun h0 h => SameHdr h0 h ∧ Live lc AnyPat h) m t.entries t := by
  refine ⟨hend, ?_⟩
  have : ∀ es : List (Hdr (Obj δ)), (∀ h ∈ es, Live lc AnyPat h) →
      List.Forall₂ (fun h0 h => SameHdr h0 h ∧ Live lc AnyPat h) es es := by
    intro es
    induction es with
    | nil => exact fun _ => .nil
    | cons h es ih => exact fun hh => .cons ⟨rfl, hh h (by simp)⟩ (ih fun k hk => hh k (by simp [hk]))
  exact this _ hl

theorem oom_parse {t : Table (Obj δ)} (hend : EndOK m t.fin) (hl : ∀ h ∈ t.entries, Live lc AnyPat h)
    {fns : List (Option (OScanFn (Obj δ)))} (hw : AllAtWorkOom sup fns t.entries) (argv : List CStr) (g : GState) (heap : Heap) :
    ∃ fns', AllAtWork fns' t.entries ∧ ∀ fuel,
      OSim sup (Lost (fun h0 h => SameHdr h0 h ∧ Live lc AnyPat h) m t.entries 6 heap)
        (argParseMem fns' env fuel argv t g heap) (argParseOom sup fns env fuel argv t g heap) := by
  obtain ⟨fns', h1, h2⟩ := osim_allAtWork hw
  exact ⟨fns', h1, fun fuel => osim_parse (keeps_live lc) sup h2 env fuel argv t g heap (sim_allAtWork h1)
    (inUse_live hend hl)⟩

/-- C71.  Every table whose entries come from the constructors has scan functions at work, however memory is supplied. -/
theorem C71_installed (sup : Supply) {es : List (Hdr (Obj δ))} (hl : ∀ h ∈ es, Live lc AnyPat h) :
    ∃ fns, AllAtWorkOom sup fns es := by
  induction es with
  | nil => exact ⟨[], rfl, fun i h f hi => by cases hi⟩
  | cons d es ih =>
    obtain ⟨fns, h1, h2⟩ := ih fun h hh => hl h (List.mem_cons_of_mem _ hh)
    have key : ∃ f, AtWorkOom sup d f := by
      by_cases hr : ∃ o, d.parent = .rex o
      · cases hl d (by simp) with
        | rex so lo pat dt mn mx ic gl h ov o h0 _ h1 h2 => exact ⟨_, .rex (.mk so lo pat dt mn mx ic gl h ov o h0 h1 h2)⟩
        | _ => obtain ⟨o, hr⟩ := hr; cases hr
      · exact ⟨_, .other fun o ho => hr ⟨o, ho⟩⟩
    obtain ⟨f, hf⟩ := key
    refine ⟨f :: fns, by simp [h1], fun i h f' hi hf' => ?_⟩
    cases i with
    | zero => cases hi; cases hf'; exact hf
    | succ i => exact h2 i h f' hi hf'

/-- C71.  Running out of memory is never passed over: if `arg_parse` returns, then the return value, the error records and
all counts and values are those of a call with enough memory, and all memory has been released. -/
theorem C71_never_silent {t : Table (Obj δ)} (hend : EndOK m t.fin) (hl : ∀ h ∈ t.entries, Live lc AnyPat h)
    {argv : List CStr} {g : GState} {heap heap' : Heap} {r : Nat × Table (Obj δ) × GState}
    (hr : ReturnsOom sup env argv t g heap r heap') : Returns env argv t g r ∧ Unchanged heap heap' := by
  obtain ⟨fns, fuel, hw, h⟩ := hr
  obtain ⟨fns', h1, h2⟩ := oom_parse (env := env) hend hl hw argv g heap
  have h2 := h2 fuel
  rw [h] at h2
  have h2 : _ = _ := h2
  obtain ⟨h3, h4⟩ := (C64_parse h1 argv g heap).2 _ _ _ h2
  exact ⟨⟨fuel, h3⟩, h4⟩

/-- C71.  Each call that would return with enough memory either returns the same or ends in the panic function; it does
nothing else, and in particular nothing undefined. -/
theorem C71_outcome {t : Table (Obj δ)} (hend : EndOK m t.fin) (hl : ∀ h ∈ t.entries, Live lc AnyPat h)
    (sup : Supply) {argv : List CStr} {g : GState} (heap : Heap) {r : Nat × Table (Obj δ) × GState}
    (hr : Returns env argv t g r) :
    (∃ heap', ReturnsOom sup env argv t g heap r heap') ∨ ∃ c, Panics sup env argv t g heap c := by
  obtain ⟨fns, hw⟩ := C71_installed sup hl
  obtain ⟨fns', h1, h2⟩ := oom_parse (env := env) hend hl hw argv g heap
  obtain ⟨fuel, heap', h3, h4⟩ := (C64_parse h1 argv g heap).1 r hr
  have h2 := h2 fuel
  rw [h3] at h2
  cases hx : argParseOom sup fns env fuel argv t g heap with
  | ok v =>
    rw [hx] at h2
    have h2 : Except.ok (r, heap') = Except.ok v := h2
    cases h2
    exact .inl ⟨heap', fns, fuel, hw, hx⟩
  | error e =>
    cases e with
    | fault f => rw [hx] at h2; have h2 : Except.ok (r, heap') = Except.error f := h2; cases h2
    | panic c => exact .inr ⟨c, fns, fuel, hw, hx⟩

/-- C71.  As long as there is memory, the panic function is not called. -/
theorem C71_plenty {t : Table (Obj δ)} (hend : EndOK m t.fin) (hl : ∀ h ∈ t.entries, Live lc AnyPat h) (hs : Plenty sup)
    {argv : List CStr} {g : GState} {heap : Heap} {c : Crash (Obj δ)} : ¬ Panics sup env argv t g heap c := by
  rintro ⟨fns, fuel, hw, h⟩
  obtain ⟨fns', h1, h2⟩ := oom_parse (env := env) hend hl hw argv g heap
  have h2 := h2 fuel
  rw [h] at h2
  exact h2.1 hs

/-- C71.  When the panic function is called, the declarations are intact, counts and arrays are consistent (`Live`), and so
is `arg_end`.  No block that existed before the call has been changed or released, and at most six new ones exist: this is
what is lost if the panic function leaves by `longjmp`. -/
theorem C71_state {t : Table (Obj δ)} (hend : EndOK m t.fin) (hl : ∀ h ∈ t.entries, Live lc AnyPat h)
    {argv : List CStr} {g : GState} {heap : Heap} {c : Crash (Obj δ)} (hp : Panics sup env argv t g heap c) :
    Frame t.entries c.t.entries ∧ (∀ h ∈ c.t.entries, Live lc AnyPat h) ∧ EndOK m c.t.fin ∧ Grown 6 heap c.heap := by
  obtain ⟨fns, fuel, hw, h⟩ := hp
  obtain ⟨fns', h1, h2⟩ := oom_parse (env := env) hend hl hw argv g heap
  have h2 := h2 fuel
  rw [h] at h2
  obtain ⟨-, ⟨h3, h4⟩, h5⟩ := h2
  refine ⟨h4.imp fun _ _ h => h.1, ?_, h3, h5⟩
  have : ∀ es es' : List (Hdr (Obj δ)), List.Forall₂ (fun h0 h => SameHdr h0 h ∧ Live lc AnyPat h) es es' →
      ∀ h ∈ es', Live lc AnyPat h := by
    intro es es' h
    induction h with
    | nil => intro h hh; cases hh
    | cons hab _ ih =>
      intro k hk
      rcases List.mem_cons.1 hk with rfl | hk
      · exact hab.2
      · exact ih k hk
  exact this _ _ h4

theorem afterOom_twin {t t' : Table (Obj δ)} (hend : EndOK m t.fin) (hwf : WF (t.entries.map declOf))
    (hs : ∀ h ∈ t.entries, Steady lc h) (hl : ∀ h ∈ t.entries, Live lc AnyPat h) (ha : AfterOom t t') :
    EndOK m t'.fin ∧ WF (t'.entries.map declOf) ∧ (∀ h ∈ t'.entries, Live lc AnyPat h) ∧
      List.Forall₂ (Twin lc False) t.entries t'.entries := by
  induction ha with
  | refl => exact ⟨hend, hwf, hl, twin_self hs⟩
  | @returned t' sup env argv g heap heap' r _ hargs hr ih =>
    obtain ⟨e, w, l, tw⟩ := ih
    obtain ⟨hr, -⟩ := C71_never_silent e l hr
    obtain ⟨evs, ops, es, errs, -, h2, h3⟩ := C02_complete e w hargs hr
    have hk := meaning_keeps (twin_keeps lc) tw h2
    obtain ⟨h4, h5, h6⟩ := C09_invariant e w l (.parse _ _ _ _ .refl hargs hr)
    exact ⟨h4, h5, h6, by rw [h3.entries]; exact hk⟩
  | @panicked t' sup env argv g heap c _ hargs hp ih =>
    obtain ⟨e, w, l, tw⟩ := ih
    obtain ⟨h1, h2, h3, -⟩ := C71_state e l hp
    obtain ⟨fns, fuel, hw, h⟩ := hp
    obtain ⟨fns', h4, h5⟩ := osim_allAtWork hw
    have h6 := osim_parse (twin_keeps lc) sup h5 env fuel argv t' g heap (sim_allAtWork h4) ⟨e, tw⟩
    rw [h] at h6
    refine ⟨h3, ?_, h2, h6.2.1.entries⟩
    rw [map_declOf_of h1 fun h => by rw [h]; rfl]
    exact w

/-- C71.  Let `t'` be what the table `t` has become after any number of calls of `arg_parse` each of which has returned or
has been left by `longjmp` when memory ran out.  On any command line, `arg_parse` returns with `t'` if and only if it
returns with `t`, with the same return value, error records, counts and values.  (The conditions are those of
`C12_history_partial`.) -/
theorem C71_recover {t t' : Table (Obj δ)} (hend : EndOK m t.fin) (hwf : WF (t.entries.map declOf))
    (hs : ∀ h ∈ t.entries, Steady lc h) (hl : ∀ h ∈ t.entries, Live lc AnyPat h) (ha : AfterOom t t') (env : Bool)
    (argv : List CStr) (hargs : CArgs argv.tail) (g g' : GState) :
    (∀ r, Returns env argv t g r → ∃ r', Returns env argv t' g' r' ∧ SameOutcome r r') ∧
    (∀ r', Returns env argv t' g' r' → ∃ r, Returns env argv t g r ∧ SameOutcome r r') := by
  obtain ⟨e, w, -, tw⟩ := afterOom_twin hend hwf hs hl ha
  exact same_of_twin hend hwf e w tw env argv hargs g g'

/-! ### Examples -/

/-- The scan function of `Demo.range` at work, with a supply of memory. -/
def Demo.rangeOom (sup : Supply) : OScanFn (Obj Unit)
  | .rex o, a, heap => do
    let ((o, e), heap) ← within (fun (q : StrObj × Heap) => (.rex q.1, q.2))
      (rexScanOom sup (cs "([0-9]+)-([0-9]+)|all") false Demo.range.maxcount o a heap)
    .ok ((.rex o, e), heap)
  | _, _, _ => up confused

theorem Demo.rangeAtWork (sup : Supply) : AllAtWorkOom sup [some (Demo.rangeOom sup)] [Demo.range] := by
  refine ⟨rfl, fun i h f hi hf => ?_⟩
  match i, hi, hf with
  | 0, hi, hf =>
    cases hi
    cases hf
    have h := AtWorkOom.rex (sup := sup) Demo.rangeEntry
    convert h using 2
    funext p a heap
    cases p <;> rfl

theorem Demo.rangeLive : ∀ h ∈ [Demo.range], Live Demo.lc AnyPat h := by
  intro h hh
  simp only [List.mem_singleton] at hh
  subst hh
  exact live_rexEntry Demo.rangeEntry

/-- There is room for eight blocks in all. -/
def Demo.eight : Supply := ⟨fun heap _ => heap.length < 8, fun _ _ => true⟩

/-- `prog -r1-2 -r3-4`: the second value cannot be matched any more.  In the panic function, the first one is there, and
four blocks of memory are lost. -/
theorem Demo.eight_panics : ∃ c, Panics Demo.eight false [cs "prog", cs "-r1-2", cs "-r3-4"] ⟨[Demo.range], Demo.fin⟩
    Demo.g0 [] c ∧ c.t.entries.map (·.parent) = [.rex ⟨1, [cs "1-2", []]⟩] ∧ (liveBlocks c.heap).length = 4 := by
  have hc : (match argParseOom Demo.eight [some (Demo.rangeOom Demo.eight)] false 9 [cs "prog", cs "-r1-2", cs "-r3-4"]
        ⟨[Demo.range], Demo.fin⟩ Demo.g0 [] with
      | .error (.panic (c : Crash (Obj Unit))) =>
        (match (c.t.entries.map (·.parent) : List (Obj Unit)) with
          | [.rex o] => o.count == 1 && o.sval == [cs "1-2", []]
          | _ => false) && (liveBlocks c.heap).length == 4
      | _ => false) = true := by decide +kernel
  split at hc
  · rename_i c h1
    refine ⟨c, ⟨_, 9, Demo.rangeAtWork _, h1⟩, ?_⟩
    simp only [Bool.and_eq_true, beq_iff_eq] at hc
    obtain ⟨hc, h3⟩ := hc
    refine ⟨?_, h3⟩
    split at hc
    · rename_i o h4
      rw [h4]
      simp only [Bool.and_eq_true, beq_iff_eq] at hc
      obtain ⟨c, s⟩ := o
      dsimp only at hc
      rw [hc.1, hc.2]
    · cases hc
  · cases hc

/-- With the same supply, `prog -r1-2` returns. -/
example : ∃ r heap', ReturnsOom Demo.eight false [cs "prog", cs "-r1-2"] ⟨[Demo.range], Demo.fin⟩ Demo.g0 [] r heap' ∧
    r.1 = 0 := by
  have hc : (match argParseOom Demo.eight [some (Demo.rangeOom Demo.eight)] false 9 [cs "prog", cs "-r1-2"]
        ⟨[Demo.range], Demo.fin⟩ Demo.g0 [] with
      | .ok ((n, _), _) => n == 0
      | _ => false) = true := by decide +kernel
  split at hc
  · rename_i n q heap' h1
    exact ⟨_, _, ⟨_, 9, Demo.rangeAtWork _, h1⟩, by simpa using hc⟩
  · cases hc

/-- A table that has been through a panic, as in `C71_recover`. -/
example : ∃ t', AfterOom ⟨[Demo.range], Demo.fin⟩ t' ∧ t'.entries.map (·.parent) = [.rex ⟨1, [cs "1-2", []]⟩] := by
  obtain ⟨c, h1, h2, -⟩ := Demo.eight_panics
  exact ⟨c.t, .panicked .refl (by decide) h1, h2⟩

example : ∀ h ∈ [Demo.range], Steady Demo.lc h := by
  intro h hh
  refine .other h (Demo.rangeLive h hh) ?_
  simp only [List.mem_singleton] at hh
  subst hh
  rfl

/-- Memory for everything, but `malloc(0)` returns NULL, as the C standard permits. -/
def Demo.noZero : Supply := ⟨fun _ n => n != 0, fun _ _ => true⟩

/-- `xmalloc` passes a request for no bytes on, and takes NULL for lack of memory.  `trex_compile` makes such a request
for the empty regular expression: every argument given to it is a panic. -/
theorem C71_zero_request : (∀ heap n, n ≠ 0 → Demo.noZero.malloc heap n = true) ∧
    ∀ (ic : Bool) (mx : Int) (o : StrObj) (a : CStr) (heap : Heap), (o.count : Int) ≠ mx →
      ∃ w, rexScanOom Demo.noZero [] ic mx o (some a) heap = .error (.panic w) := by
  refine ⟨fun heap n h => by simpa [Demo.noZero] using h, fun ic mx o a heap hc => ?_⟩
  unfold rexScanOom
  rw [if_neg hc]
  exact ⟨_, rfl⟩

end Argtable
