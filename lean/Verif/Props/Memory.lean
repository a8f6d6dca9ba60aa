import Verif.Spec.Memory
import Verif.Proofs.ParseMem
import Verif.Props.Parse
import Verif.Props.Rex
/-!
# `arg_parse` and memory (C64)

`argParseMem` (Model/ParseMem.lean) is `arg_parse` with the memory it uses: the private copy of `argv`, the tables for
getopt, and, for every argument given to an `arg_rex`, the compiled regular expression with its array of captures.
Every access to a block is checked to hit an allocated block, and every capture is checked to lie in the array.
-/

namespace Argtable

open Spec

variable {δ : Type} {lc : Libc δ} {env : Bool} {m : Nat}

theorem unchanged_append (heap : Heap) (k : Nat) : Unchanged heap (heap ++ List.replicate k none) := by
  refine ⟨?_, fun a ha => List.getElem?_append_left ha⟩
  unfold liveBlocks
  rw [List.filterMap_append]
  have : List.filterMap id (List.replicate k (none : Option (List Byte))) = [] := by
    induction k with
    | zero => rfl
    | succ k ih => rw [List.replicate_succ, List.filterMap_cons]; exact ih
  rw [this, List.append_nil]

theorem unchanged_trans {a b c : Heap} (h1 : Unchanged a b) (hl : a.length ≤ b.length) (h2 : Unchanged b c) :
    Unchanged a c :=
  ⟨h2.1.trans h1.1, fun i hi => (h2.2 i (Nat.lt_of_lt_of_le hi hl)).trans (h1.2 i hi)⟩

theorem LiftH.ok_of {α : Type} {heap : Heap} {x : M α} {y : M (α × Heap)} (h : LiftH heap x y) {r : α}
    (hx : x = .ok r) : ∃ heap', y = .ok (r, heap') ∧ Unchanged heap heap' := by
  subst hx
  obtain ⟨k, e⟩ := h
  exact ⟨_, e, unchanged_append heap k⟩

theorem LiftH.error_of {α : Type} {heap : Heap} {x : M α} {y : M (α × Heap)} (h : LiftH heap x y) {e : Fault}
    (hx : x = .error e) : y = .error e := by
  subst hx
  exact h

theorem sim_atWork {h : Hdr (Obj δ)} {f : Option (ScanFn (Obj δ))} (hw : AtWork h f) : SimFn f h.scanfn := by
  cases hw with
  | other _ =>
    cases h.scanfn with
    | none => trivial
    | some g => exact fun o a heap => bind_map_heap _
  | @rex pat ic _ o hd =>
    cases hd with
    | mk so lo fm dt mn mx ic gl h ov o hh hc hlen =>
      obtain ⟨hm, -, -, -, -, -, -, -, -, -, hs, -⟩ := argRexn_inv hh
      dsimp only
      rw [hs, hm]
      intro q a heap
      cases q with
      | rex q =>
        exact .bind (rexScan_lift pat ic _ q a heap) fun r k _ => .ok
      | _ => exact (rfl : _ = _)

theorem sim_allAtWork {fns : List (Option (ScanFn (Obj δ)))} {es : List (Hdr (Obj δ))} (hw : AllAtWork fns es) :
    SimFns fns es := by
  intro i h hi
  have hlt : i < fns.length := by rw [hw.1]; exact lt_of_getElem? hi
  have := sim_atWork (hw.2 i h _ hi (List.getElem?_eq_getElem hlt))
  rw [List.getElem?_eq_getElem hlt]
  exact this

/-- C64.  Every table whose entries come from the constructors has scan functions at work. -/
theorem C64_installed {es : List (Hdr (Obj δ))} (hl : ∀ h ∈ es, Live lc AnyPat h) : ∃ fns, AllAtWork fns es := by
  induction es with
  | nil => exact ⟨[], rfl, fun i h f hi => by cases hi⟩
  | cons d es ih =>
    obtain ⟨fns, h1, h2⟩ := ih fun h hh => hl h (List.mem_cons_of_mem _ hh)
    have key : ∃ f, AtWork d f := by
      by_cases hr : ∃ o, d.parent = .rex o
      · cases hl d (by simp) with
        | rex so lo pat dt mn mx ic gl h ov o h0 _ h1 h2 => exact ⟨_, .rex (.mk so lo pat dt mn mx ic gl h ov o h0 h1 h2)⟩
        | _ => obtain ⟨o, hr⟩ := hr; cases hr
      · exact ⟨_, .other fun o ho => hr ⟨o, ho⟩⟩
    obtain ⟨f, hf⟩ := key
    refine ⟨f :: fns, by simp [h1], fun i h f' hi hf' => ?_⟩
    cases i with
    | zero => cases hi; cases hf'; exact hf
    | succ i => exact h2 i h f' hi hf'

/-- C64.  Whenever `arg_parse` returns, it has released all memory it allocated, and it has neither released nor
changed any other block; this holds for every table, command line and number of errors.  The memory has no influence
on the result. -/
theorem C64_parse {fns : List (Option (ScanFn (Obj δ)))} {t : Table (Obj δ)} (hw : AllAtWork fns t.entries)
    (argv : List CStr) (g : GState) (heap : Heap) :
    (∀ r, Returns env argv t g r →
      ∃ fuel heap', argParseMem fns env fuel argv t g heap = .ok (r, heap') ∧ Unchanged heap heap') ∧
    ∀ fuel r heap', argParseMem fns env fuel argv t g heap = .ok (r, heap') →
      argParse env fuel argv t g = .ok r ∧ Unchanged heap heap' := by
  have hl := fun fuel => lift_parse env fuel argv t g heap (sim_allAtWork hw)
  constructor
  · rintro r ⟨fuel, h⟩
    exact ⟨fuel, (hl fuel).ok_of h⟩
  · intro fuel r heap' h
    cases hp : argParse env fuel argv t g with
    | error e =>
      rw [(hl fuel).error_of hp] at h
      cases h
    | ok r' =>
      obtain ⟨heap1, h1, h2⟩ := (hl fuel).ok_of hp
      rw [h1] at h
      cases h
      exact ⟨rfl, h2⟩

/-- C64.  `arg_parse` uses no block after releasing it, releases none twice, and stores no capture outside the array of
captures: the only undefined operations are those of C23, C34 and C35. -/
theorem C64_no_stray {fns : List (Option (ScanFn (Obj δ)))} {t : Table (Obj δ)} (hw : AllAtWork fns t.entries)
    (hend : EndOK m t.fin) (hwf : WF (t.entries.map declOf)) (hm : ∀ h ∈ t.entries, Live lc AnyPat h)
    (argv : List CStr) (hargs : CArgs argv.tail) (g : GState) (heap : Heap) (fuel : Nat) (w : String)
    (hc : argParseMem fns env fuel argv t g heap = .error (.ub w)) : Hazard (.ub w) := by
  have hl := lift_parse env fuel argv t g heap (sim_allAtWork hw)
  refine C09_no_stray_write (env := env) hend hwf hm .refl argv hargs g w ⟨fuel, ?_⟩
  cases hp : argParse env fuel argv t g with
  | error e =>
    rw [hl.error_of hp] at hc
    cases hc
    rfl
  | ok r =>
    obtain ⟨heap1, h1, h2⟩ := hl.ok_of hp
    rw [h1] at hc
    cases hc

/-- C64, for a history of calls with the same table. -/
theorem C64_history {fns : List (Option (ScanFn (Obj δ)))} {t t' : Table (Obj δ)} (hw : AllAtWork fns t.entries)
    {argvs : List (List CStr)} {g g' : GState} {heap heap' : Heap} {ns : List Nat}
    (hs : Session fns env argvs t g heap ns t' g' heap') : Unchanged heap heap' := by
  have key : SimFns fns t.entries → Unchanged heap heap' ∧ heap.length ≤ heap'.length := by
    clear hw
    induction hs with
    | nil => exact fun _ => ⟨⟨rfl, fun _ _ => rfl⟩, Nat.le_refl _⟩
    | @cons argv argvs t t1 t2 g g1 g2 heap heap1 heap2 fuel n ns hp _ ih =>
      intro hw
      have hl := lift_parse env fuel argv t g heap hw
      revert hl
      cases hx : argParse env fuel argv t g with
      | error e => intro h; have h : _ = _ := h; rw [hp] at h; cases h
      | ok r =>
        rintro ⟨k, e⟩
        rw [hp] at e
        cases e
        obtain ⟨h1, h2⟩ := ih (sim_parse hw hx)
        have hle : heap.length ≤ (heap ++ List.replicate k none).length := by simp
        exact ⟨unchanged_trans (unchanged_append heap k) hle h1, Nat.le_trans hle h2⟩
  exact (key (sim_allAtWork hw)).1

/-- C64, for one argument of an `arg_rex`, whatever the pattern: matching with captures gives the same verdict as
matching without them, all memory is released, and the only undefined operations are the two of C34 and C35. -/
theorem C64_scan {pat : CStr} {ic : Bool} {h : Hdr (Obj δ)} {o : StrObj} (hd : RexEntry pat ic h o) (a : Option CStr)
    (heap : Heap) :
    (∃ q e heap', rexScanMem pat ic h.maxcount o a heap = .ok ((q, e), heap') ∧ give h a = .ok (.rex q, e) ∧
      Unchanged heap heap') ∨
    rexScanMem pat ic h.maxcount o a heap = .error (.ub "read past the end of the text") ∨
    rexScanMem pat ic h.maxcount o a heap = .error (.ub "trex_match: NULL pointer dereference") := by
  have hl := rexScan_lift pat ic h.maxcount o a heap
  have hg := give_rex' hd a
  cases hx : rexScan pat ic h.maxcount o a with
  | ok r =>
    obtain ⟨heap1, h1, h2⟩ := hl.ok_of hx
    exact .inl ⟨r.1, r.2, heap1, h1, by rw [hg, hx]; rfl, h2⟩
  | error e =>
    right
    rw [hl.error_of hx]
    rcases C34_faults hd (a := a) (f := e) (by rw [hg, hx]; rfl) with rfl | rfl
    · exact .inl rfl
    · exact .inr rfl

/-- C64, for the compilation in `arg_rexn` that only serves to report errors in the pattern. -/
theorem C64_made {so lo : Option CStr} {pat : CStr} {dt : Option CStr} {mn mx : Int} {ic : Bool} {gl : Option CStr}
    {h : Hdr (Obj δ)} (hh : argRexn so lo pat dt mn mx ic gl = .ok h) (heap : Heap) :
    ∃ valid heap', rexTryMem pat heap = .ok (valid, heap') ∧ Unchanged heap heap' ∧
      (valid = false ↔ rexCompile pat = .ok none) := by
  obtain ⟨-, -, -, -, -, -, -, -, -, -, -, r, hr⟩ := argRexn_inv hh
  have hl := rexTry_lift pat heap
  rw [hr] at hl
  obtain ⟨heap', h1, h2⟩ := hl.ok_of (r := r.isSome) rfl
  refine ⟨_, heap', h1, h2, ?_⟩
  rw [hr]
  cases r <;> simp

/-- `arg_rexn("r", "range", "([0-9]+)-([0-9]+)|all", NULL, 0, 2, 0, NULL)`. -/
def Demo.range : Hdr (Obj Unit) :=
  Demo.made (argRexn (some (cs "r")) (some (cs "range")) (cs "([0-9]+)-([0-9]+)|all") none 0 2 false none)

/-- A pattern with three captures. -/
example : (match compileNodes (cs "([0-9]+)-([0-9]+)|all") with | .ok (_, n) => n | .error _ => 0) = 3 := by
  decide +kernel

theorem Demo.rangeEntry : RexEntry (cs "([0-9]+)-([0-9]+)|all") false Demo.range ⟨0, [[], []]⟩ := by
  have h : ∃ h, argRexn (δ := Unit) (some (cs "r")) (some (cs "range")) (cs "([0-9]+)-([0-9]+)|all") none 0 2 false none
      = .ok h := by
    have : ∃ r, rexCompile (cs "([0-9]+)-([0-9]+)|all") = .ok r := by
      have : (match rexCompile (cs "([0-9]+)-([0-9]+)|all") with | .ok _ => true | .error _ => false) = true := by
        decide +kernel
      revert this
      cases rexCompile (cs "([0-9]+)-([0-9]+)|all") with
      | ok r => exact fun _ => ⟨r, rfl⟩
      | error e => intro h; cases h
    obtain ⟨r, hr⟩ := this
    unfold argRexn
    rw [hr]
    exact ⟨_, rfl⟩
  obtain ⟨h, e⟩ := h
  have hm := (argRexn_inv e).1
  have := RexEntry.mk (some (cs "r")) (some (cs "range")) (cs "([0-9]+)-([0-9]+)|all") none 0 2 false none h false
    ⟨0, [[], []]⟩ e (by rw [hm]; decide) (by rw [hm]; rfl)
  have e2 : Demo.range = { h with hasOptValue := false, parent := .rex ⟨0, [[], []]⟩ } := by
    unfold Demo.range
    rw [e]
    unfold argRexn at e
    dsimp only at e
    obtain ⟨n, h1, e⟩ := hbind_ok' e
    obtain ⟨r, h2, e⟩ := hbind_ok' e
    cases e
    cases h1
    rfl
  rw [e2]
  exact this

/-- Scanning `10-20` allocates four blocks and releases them; the text is stored. -/
example : (match rexScanMem (cs "([0-9]+)-([0-9]+)|all") false 2 ⟨0, [[], []]⟩ (some (cs "10-20")) [some [some 'x']] with
    | .ok ((o, e), heap) => o.sval == [cs "10-20", []] && e == 0 && heap == [some [some 'x'], none, none, none, none]
    | .error _ => false) = true := by decide +kernel

theorem live_rexEntry {pat : CStr} {ic : Bool} {h : Hdr (Obj δ)} {o : StrObj} (hd : RexEntry pat ic h o) :
    Live lc AnyPat h := by
  cases hd with
  | mk so lo pat dt mn mx ic gl h ov o h1 h2 h3 => exact .rex so lo _ dt mn mx _ gl h ov _ h1 trivial h2 h3

/-- The hypotheses of the theorems hold for the demonstration table with a regular expression added. -/
example : ∃ fns, AllAtWork fns (Demo.entries ++ [Demo.range]) := by
  refine C64_installed (lc := Demo.lc) fun h hh => ?_
  rcases List.mem_append.1 hh with hh | hh
  · exact Demo.live AnyPat h hh
  · simp only [List.mem_singleton] at hh
    subst hh
    exact live_rexEntry Demo.rangeEntry

/-- The scan function of `Demo.range` at work. -/
def Demo.rangeFn : ScanFn (Obj Unit)
  | .rex o, a, heap => do
    let ((o, e), heap) ← rexScanMem (cs "([0-9]+)-([0-9]+)|all") false Demo.range.maxcount o a heap
    .ok ((.rex o, e), heap)
  | _, _, _ => confused

/-- A session of two calls on the table with the one entry `-r`; the second command line has two errors. -/
example : AllAtWork [some Demo.rangeFn] [Demo.range] ∧ ∃ t g heap, Session [some Demo.rangeFn] false
    [[cs "prog", cs "-r10-20", cs "--range=all"], [cs "prog", cs "-r", cs "x", cs "-q"]]
    ⟨[Demo.range], Demo.fin⟩ Demo.g0 [] [0, 2] t g heap := by
  constructor
  · refine ⟨rfl, fun i h f hi hf => ?_⟩
    match i, hi, hf with
    | 0, hi, hf =>
      cases hi
      cases hf
      have h := AtWork.rex Demo.rangeEntry
      convert h using 2
      funext p a heap
      cases p <;> rfl
  · have hc : (match argParseMem [some Demo.rangeFn] false 9 [cs "prog", cs "-r10-20", cs "--range=all"]
          ⟨[Demo.range], Demo.fin⟩ Demo.g0 [] with
        | .ok ((n, t, g), heap) =>
          match argParseMem [some Demo.rangeFn] false 9 [cs "prog", cs "-r", cs "x", cs "-q"] t g heap with
          | .ok ((k, _, _), _) => n == 0 && k == 2
          | .error _ => false
        | .error _ => false) = true := by decide +kernel
    split at hc
    · rename_i n t g heap h1
      split at hc
      · rename_i k t2 g2 heap2 h2
        simp only [Bool.and_eq_true, beq_iff_eq] at hc
        obtain ⟨rfl, rfl⟩ := hc
        exact ⟨t2, g2, heap2, .cons h1 (.cons h2 .nil)⟩
      · cases hc
    · cases hc

end Argtable
