import Verif.Spec.LifeOom
import Verif.Props.Oom
import Verif.Props.Life
import Verif.Props.Shortage
/-!
# Lemmas about programs that survive running out of memory
-/

namespace Argtable

open Spec

variable {δ : Type} {lc : Libc δ} {a : Abi} {addr : Nat → Nat} {env : Bool} {heap0 : Heap} {X : List Nat} {w : World δ}

/-! ### New blocks -/

/-- The blocks `ps` are the allocated ones in the new part of the heap. -/
structure News (heap heap' : Heap) (ps : List Nat) : Prop where
  ext : ∃ l, heap' = heap ++ l
  nodup : ps.Nodup
  above : ∀ p ∈ ps, heap.length ≤ p
  live : ∀ p, heap.length ≤ p → (Spec.Allocated heap' p ↔ p ∈ ps)

theorem Grew.news {heap heap' : Heap} {ps ns : List Nat} (h : Grew heap heap' ps ns) : News heap heap' ps :=
  ⟨h.ext, h.nodup, h.above, h.live⟩

theorem Spec.Grown.news {n : Nat} {heap heap' : Heap} (h : Grown n heap heap') :
    ∃ ps, ps.length ≤ n ∧ News heap heap' ps := by
  obtain ⟨l, rfl, hl⟩ := h
  have key : ∀ (l : Heap) (k : Nat), ∃ ps : List Nat, ps.length = (liveBlocks l).length ∧ ps.Nodup ∧ (∀ p ∈ ps, k ≤ p) ∧
      ∀ p, k ≤ p → (Spec.Allocated l (p - k) ↔ p ∈ ps) := by
    intro l
    induction l with
    | nil =>
      intro k
      exact ⟨[], rfl, .nil, by simp, fun p _ => ⟨fun ⟨b, hb⟩ => by simp at hb, by simp⟩⟩
    | cons x l ih =>
      intro k
      obtain ⟨ps, h1, h2, h3, h4⟩ := ih (k + 1)
      have hs : ∀ p, k + 1 ≤ p → (Spec.Allocated (x :: l) (p - k) ↔ p ∈ ps) := by
        intro p hp
        rw [← h4 p hp]
        unfold Spec.Allocated
        obtain ⟨j, rfl⟩ : ∃ j, p = k + 1 + j := ⟨p - (k + 1), by omega⟩
        rw [show k + 1 + j - k = j + 1 by omega, show k + 1 + j - (k + 1) = j by omega, List.getElem?_cons_succ]
      cases x with
      | none =>
        refine ⟨ps, h1, h2, fun p hp => by have := h3 p hp; omega, fun p hp => ?_⟩
        by_cases hk : p = k
        · subst hk
          refine ⟨fun ⟨b, hb⟩ => ?_, fun hc => absurd (h3 p hc) (by omega)⟩
          simp at hb
        · exact hs p (by omega)
      | some b =>
        refine ⟨k :: ps, ?_, ?_, ?_, fun p hp => ?_⟩
        · show ps.length + 1 = (b :: liveBlocks l).length
          rw [h1]; rfl
        · exact List.nodup_cons.2 ⟨fun hc => absurd (h3 k hc) (by omega), h2⟩
        · intro p hp
          rcases List.mem_cons.1 hp with rfl | hp
          · exact Nat.le_refl _
          · have := h3 p hp; omega
        · by_cases hk : p = k
          · subst hk
            exact ⟨fun _ => by simp, fun _ => ⟨b, by simp⟩⟩
          · rw [hs p (by omega), List.mem_cons]
            exact ⟨.inr, fun h => h.elim (fun h => absurd h hk) id⟩
  obtain ⟨ps, h1, h2, h3, h4⟩ := key l heap.length
  refine ⟨ps, by omega, ⟨l, rfl⟩, h2, h3, fun p hp => ?_⟩
  rw [← h4 p hp]
  unfold Spec.Allocated
  rw [List.getElem?_append_right hp]

theorem grown_of_frame {n : Nat} {heap heap' : Heap} (h1 : ∀ i, i < heap.length → heap'[i]? = heap[i]?)
    (h2 : (liveBlocks heap').length ≤ (liveBlocks heap).length + n) : Grown n heap heap' := by
  have he : heap' = heap ++ heap'.drop heap.length := by
    refine List.ext_getElem? fun i => ?_
    by_cases hi : i < heap.length
    · rw [List.getElem?_append_left hi, h1 i hi]
    · rw [List.getElem?_append_right (by omega), List.getElem?_drop]
      congr 1; omega
  refine ⟨_, he, ?_⟩
  rw [he, liveBlocks_append, List.length_append] at h2
  omega

theorem WorldOK.news (h : WorldOK lc a heap0 X w) {heap : Heap} {ps : List Nat} (hn : News w.heap heap ps) :
    WorldOK lc a heap0 (X ++ ps) { w with heap } := by
  obtain ⟨l, rfl⟩ := hn.ext
  have hin : ∀ p ∈ held w ++ X, p < w.heap.length := fun p hp => by
    obtain ⟨b, hb⟩ := (h.live p (h.above p hp)).2 hp
    exact lt_of_getElem? hb
  have hlen := h.len
  refine ⟨?_, ?_, ?_, ?_, ?_, fun T hT => (h.tabs T hT).grown⟩
  · show heap0.length ≤ (w.heap ++ l).length
    rw [List.length_append]; omega
  · intro p hp
    show (w.heap ++ l)[p]? = _
    rw [List.getElem?_append_left (by omega)]; exact h.old p hp
  · intro p hp
    show Spec.Allocated (w.heap ++ l) p ↔ p ∈ held w ++ (X ++ ps)
    rw [← List.append_assoc, List.mem_append]
    by_cases hp1 : p < w.heap.length
    · have : Spec.Allocated (w.heap ++ l) p ↔ Spec.Allocated w.heap p := by
        unfold Spec.Allocated; rw [List.getElem?_append_left hp1]
      refine this.trans ((h.live p hp).trans ⟨.inl, fun hc => hc.elim id fun hc => ?_⟩)
      have := hn.above p hc; omega
    · refine (hn.live p (by omega)).trans ⟨.inr, fun hc => hc.elim (fun hc => ?_) id⟩
      have := hin p hc; omega
  · show (held w ++ (X ++ ps)).Nodup
    rw [← List.append_assoc]
    refine List.nodup_append.2 ⟨h.nodup, hn.nodup, fun x hx y hy => ?_⟩
    have := hin x hx
    have := hn.above y hy
    omega
  · show ∀ p ∈ held w ++ (X ++ ps), _
    rw [← List.append_assoc]
    intro p hp
    rcases List.mem_append.1 hp with hp | hp
    · exact h.above p hp
    · have := hn.above p hp
      omega

theorem WorldOK.perm (h : WorldOK lc a heap0 X w) {Y : List Nat} (hp : X.Perm Y) : WorldOK lc a heap0 Y w := by
  have hq := hp.append_left (held w)
  refine ⟨h.len, h.old, fun p h0 => ?_, ?_, fun p h0 => ?_, h.tabs⟩
  · rw [← hq.mem_iff]; exact h.live p h0
  · rw [← hq.nodup_iff]; exact h.nodup
  · rw [← hq.mem_iff] at h0; exact h.above p h0

/-- A table has other contents. -/
theorem WorldOK.put (h : WorldOK lc a heap0 X w) (out : CStr) (g : GState) (n : Nat) {i : Nat} {T T' : LTable δ}
    (hi : w.tables[i]? = some T) (hp : T'.ptrs = T.ptrs) (hT : TabOK lc a w.heap T') :
    WorldOK lc a heap0 X ⟨w.heap, out, g, n, w.tables.set i T'⟩ := by
  have := h.grown 0 out g n hi hp hT
  rwa [List.replicate_zero, List.append_nil] at this

theorem WorldOK.say (h : WorldOK lc a heap0 X w) (out : CStr) : WorldOK lc a heap0 X { w with out } := by
  have := h.same 0 out
  rwa [List.replicate_zero, List.append_nil] at this

/-! ### Construction -/

theorem osim_rexTry (sup : Supply) (pattern : CStr) (heap : Heap) :
    OSim sup (Grown 3 heap) (rexTryMem pattern heap) (rexTryOom sup pattern heap) := by
  unfold rexTryMem rexTryOom
  refine .bind (osim_compile sup pattern heap) ?_
  rintro ⟨rex, h1⟩ -
  exact .pre fun _ _ => .ok

theorem osim_make (sup : Supply) (m : Maker) (heap : Heap) :
    OSim sup (Grown 4 heap) (m.make lc a addr heap) (m.makeOom sup lc a addr heap) := by
  unfold Maker.make Maker.makeOom
  have g1 := Grown.malloc (m.size a) heap
  refine .malloc ((Grown.refl _).mono (by omega)) ?_
  dsimp only
  refine .pre fun h _ => ?_
  cases m with
  | rex so lo pat dt mn mx ic gl =>
    dsimp only
    refine .bind ((osim_rexTry sup pat _).mono fun w hw => (g1.trans hw).mono (by omega)) ?_
    rintro ⟨v, h1⟩ -
    exact .ok
  | _ => exact .ok

/-- What is there when the constructors are broken off: the first objects have been made. -/
structure Broken (a : Abi) (heap : Heap) (ms : List Maker) (q : List Nat × Heap) : Prop where
  less : q.1.length ≤ ms.length
  mid : ∃ h1, Grew heap h1 q.1 ((ms.take q.1.length).map (·.size a)) ∧ Grown 4 h1 q.2

theorem osim_makeAll (sup : Supply) : ∀ (ms : List Maker) (heap : Heap), (∀ m ∈ ms, Maker.Sound m) →
    OSim sup (fun q => Broken a heap ms q ∧ q.1.length < ms.length) (makeAll lc a addr ms heap)
      (makeAllOom sup lc a addr ms heap) := by
  intro ms
  induction ms with
  | nil => exact fun heap _ => .ok
  | cons m ms ih =>
    intro heap hs
    unfold makeAll makeAllOom
    refine .bind (.within (osim_make sup m heap) fun w hw => ⟨⟨Nat.zero_le _, heap, .nil heap, hw⟩, by simp⟩) ?_
    rintro ⟨x, h1⟩ hx
    obtain ⟨h, heap1, e1, e2, e3⟩ := make_ok (lc := lc) (a := a) (addr := addr) (hs m (by simp)) heap
    rw [e1] at hx
    cases hx
    dsimp only
    refine .bind (.within (ih _ fun m hm => hs m (by simp [hm])) ?_) ?_
    · rintro ⟨ps, h2⟩ ⟨⟨l1, h3, g1, g2⟩, l2⟩
      refine ⟨⟨by simpa using l1, h3, ?_, g2⟩, by simpa using l2⟩
      have := e3.append g1
      simpa using this
    · rintro ⟨xs, h2⟩ -
      exact .ok

theorem osim_makeTable (sup : Supply) (w : World δ) {ms : List Maker} (hs : ∀ m ∈ ms, Maker.Sound m) (maxerr : Int)
    (junk : ErrRec) (junkCount fuel : Nat) :
    OSim sup (Broken a w.heap ms) (lifeStep lc a addr env fuel w (.make ms maxerr junk junkCount))
      (makeTableOom sup lc a addr w ms maxerr junk junkCount) := by
  unfold makeTableOom lifeStep
  dsimp only
  refine .bind ((osim_makeAll sup ms w.heap hs).mono fun q hq => hq.1) ?_
  rintro ⟨xs, h1⟩ hx
  obtain ⟨xs', heap1, e1, e2, e3⟩ := makeAll_ok (lc := lc) (a := a) (addr := addr) ms w.heap hs
  rw [e1] at hx
  cases hx
  dsimp only
  refine .mallocIn ?_ ?_
  · have hl : xs.length = ms.length := by have := e2.length_eq; simpa using this.symm
    refine ⟨by simp [hl], h1, ?_, (Grown.refl _).mono (by omega)⟩
    rw [List.length_map, hl, List.take_length]
    exact e3
  · exact .pre fun _ _ => .ok

/-! ### The arrays that were not completed -/

def Stub (ptrs : List (Option Nat)) : Prop := ∃ (ps : List Nat) (k : Nat), ptrs = ps.map some ++ List.replicate (k + 1) none

theorem pointers_replicate (k : Nat) : pointers (List.replicate k none) = [] :=
  pointers_freed fun _ hp => (List.mem_replicate.1 hp).2

theorem pointers_stub (ps : List Nat) (k : Nat) : pointers (ps.map some ++ List.replicate k none) = ps := by
  rw [pointers_append, pointers_map, pointers_replicate, List.append_nil]

theorem flagsOf_stub {ps : List Nat} {k : Nat} {heap : Heap} {p : Nat} (h : Spec.Allocated heap p) :
    flagsOf (ps.map some ++ List.replicate (k + 1) none) heap p = some false := by
  rw [flagsOf_ne h, List.getLast?_append, List.getLast?_replicate]
  simp

theorem freeStub_ok {heap : Heap} {ps : List Nat} {k : Nat} (hn : ps.Nodup) (ha : ∀ p ∈ ps, Spec.Allocated heap p) (old : Bool) :
    ∃ heap', freeWith (if old then argFree else argFreetable (ps.map some ++ List.replicate (k + 1) none).length)
        (ps.map some ++ List.replicate (k + 1) none) heap = .ok (List.replicate (ps.length + (k + 1)) none, heap') ∧
      heap'.length = heap.length ∧ ∀ q, heap'[q]? = if q ∈ ps then some none else heap[q]? := by
  obtain ⟨heap', h1, h2, h3⟩ := free_all ps heap hn ha
  refine ⟨heap', ?_, h2, h3⟩
  have key : ∃ s, (if old then argFree else argFreetable (ps.map some ++ List.replicate (k + 1) none).length)
      ⟨ps.map some ++ List.replicate (k + 1) none, flagsOf (ps.map some ++ List.replicate (k + 1) none) heap, []⟩ = .ok s ∧
      s.freed = ps ∧ s.table = List.replicate (ps.length + (k + 1)) none := by
    cases old with
    | false =>
      rw [if_neg (by simp)]
      obtain ⟨s, e1, e2, e3, -⟩ := C50_freetable ⟨ps.map some ++ List.replicate (k + 1) none,
          flagsOf (ps.map some ++ List.replicate (k + 1) none) heap, []⟩
        (ps.map some ++ List.replicate (k + 1) none).length (Nat.le_refl _) (by
          rw [List.take_length, pointers_stub]; exact hn) (by
          simp only [List.take_length, pointers_stub]
          intro p hp
          rw [flagsOf_stub (ha p hp)]; simp)
      exact ⟨s, e1, by rw [e2, List.take_length, pointers_stub]; rfl, by rw [e3]; simp⟩
    | true =>
      rw [if_pos rfl]
      have := free_loop_null ps.length 0 ⟨ps.map some ++ List.replicate (k + 1) none,
          flagsOf (ps.map some ++ List.replicate (k + 1) none) heap, []⟩ [] ps (List.replicate k none)
          ((ps.map some ++ List.replicate (k + 1) none).length + 1) (by simp [List.replicate_succ]) rfl rfl (by simp) hn
          (fun p hp => flagsOf_stub (ha p hp))
      refine ⟨_, this, rfl, ?_⟩
      rw [List.nil_append, ← List.replicate_succ, ← List.replicate_add]
  obtain ⟨s, e1, e2, e3⟩ := key
  unfold freeWith
  rw [e1, hbind_ok, e2, h1, hbind_ok, e3]

/-- Blocks that belong to no table are released. -/
theorem WorldOK.drop {Y ps : List Nat} (h : WorldOK lc a heap0 (ps ++ Y) w) {heap : Heap} (hl : heap.length = w.heap.length)
    (hh : ∀ q, heap[q]? = if q ∈ ps then some none else w.heap[q]?) : WorldOK lc a heap0 Y { w with heap } := by
  have hnd := h.nodup
  have hp1 : (held w ++ (ps ++ Y)).Perm (ps ++ (held w ++ Y)) := by
    rw [← List.append_assoc, ← List.append_assoc]
    exact List.perm_append_comm.append_right _
  rw [hp1.nodup_iff] at hnd
  have hdis : ∀ p ∈ held w ++ Y, p ∉ ps := fun p hp hps => (List.nodup_append.1 hnd).2.2 p hps p hp rfl
  have hab : ∀ p ∈ ps, heap0.length ≤ p := fun p hp => h.above p (by simp [hp])
  refine ⟨?_, ?_, ?_, (List.nodup_append.1 hnd).2.1, fun p hp => h.above p (hp1.mem_iff.2 (List.mem_append_right _ hp)), ?_⟩
  · show heap0.length ≤ heap.length
    rw [hl]; exact h.len
  · intro p hp
    show heap[p]? = _
    rw [hh, if_neg (fun hc => by have := hab p hc; omega)]
    exact h.old p hp
  · intro p hp
    show Spec.Allocated heap p ↔ p ∈ held w ++ Y
    have hl := h.live p hp
    rw [hp1.mem_iff, List.mem_append] at hl
    unfold Spec.Allocated at hl ⊢
    rw [hh]
    by_cases hps : p ∈ ps
    · rw [if_pos hps]
      exact ⟨fun ⟨b, hb⟩ => (by cases hb), fun hc => absurd hps (hdis p hc)⟩
    · rw [if_neg hps, hl]
      exact ⟨fun hc => hc.elim (fun hc => absurd hc hps) id, .inr⟩
  · intro T hT
    have hTo := h.tabs T hT
    refine { hTo with ptrs := hTo.ptrs.imp id ?_ }
    rintro ⟨qs, q1, q2⟩
    refine ⟨qs, q1, ?_⟩
    have hq : ∀ p ∈ qs, p ∉ ps := fun p hp => hdis p (List.mem_append_left _ (by
      unfold held
      exact List.mem_flatMap.2 ⟨T, hT, by rw [q1, pointers_map]; exact hp⟩))
    clear q1
    show List.Forall₂ (fun p n => heap[p]? = _) _ _
    generalize T.makers.map (·.size a) ++ [(endBlock a 0 T.maxerr).size] = ns at q2 ⊢
    induction q2 with
    | nil => exact .nil
    | cons hx _ ih =>
      refine .cons ?_ (ih fun p hp => hq p (by simp [hp]))
      rw [hh, if_neg (hq _ (by simp))]
      exact hx

/-! ### The invariant -/

def ProgOK (lc : Libc δ) (a : Abi) (heap0 : Heap) (s : Prog δ) (n : Nat) : Prop :=
  (∀ ptrs ∈ s.stubs, Stub ptrs) ∧ ∃ lost, lost.length ≤ 6 * n ∧ WorldOK lc a heap0 (s.stubs.flatMap pointers ++ lost) s.w

theorem ProgOK.mono {s : Prog δ} {n k : Nat} (h : ProgOK lc a heap0 s n) (hk : n ≤ k) : ProgOK lc a heap0 s k := by
  obtain ⟨h1, lost, h2, h3⟩ := h
  exact ⟨h1, lost, by omega, h3⟩

theorem frame_wf {es es' : List (Hdr (Obj δ))} (h : Frame es es') (hw : WF (es.map declOf)) : WF (es'.map declOf) := by
  rw [map_declOf_of h fun h => by rw [h]; rfl]
  exact hw

theorem flatMap_set {l : List (List (Option Nat))} {j : Nat} {x y : List (Option Nat)} (hj : l[j]? = some x)
    (hy : pointers y = []) : (l.flatMap pointers).Perm (pointers x ++ (l.set j y).flatMap pointers) := by
  induction l generalizing j with
  | nil => cases hj
  | cons z l ih =>
    cases j with
    | zero =>
      cases hj
      simp [hy]
    | succ j =>
      have := ih (j := j) hj
      rw [List.set_cons_succ, List.flatMap_cons, List.flatMap_cons]
      refine (this.append_left _).trans ?_
      rw [← List.append_assoc, ← List.append_assoc]
      exact List.perm_append_comm.append_right _

/-- What a call that prints does. -/
theorem ProgOK.print {s : Prog δ} {n : Nat} (h : ProgOK lc a heap0 s n) {sup : Supply} {objSize : Nat} {text : CStr}
    (hn : '\x00' ∉ text) (hl : text.length ≤ 500000000) {cmds : List DCmd} (hc : Appending cmds text) :
    ∃ heap out b, streamShort sup objSize cmds s.w.heap s.w.out = .ok ((heap, out), b) ∧ (b = false → ¬ Plenty sup) ∧
      (b = true → out = s.w.out ++ text ∧ Unchanged s.w.heap heap) ∧ (b = false → out = s.w.out ∧ Grown 2 s.w.heap heap) ∧
      ProgOK lc a heap0 ⟨{ s.w with heap, out }, s.stubs⟩ (if b then n else n + 1) := by
  obtain ⟨h1, lost, h2, h3⟩ := h
  have hf : Appends (fun st => execAll st cmds) text := ⟨cmds, hc, fun _ => rfl⟩
  have key : ∀ heap out : _, ∀ k, Grown k s.w.heap heap → k ≤ 6 → ProgOK lc a heap0 ⟨{ s.w with heap, out }, s.stubs⟩ (n + 1) := by
    intro heap out k hg hk
    obtain ⟨ps, l1, l2⟩ := hg.news
    refine ⟨h1, lost ++ ps, by rw [List.length_append]; omega, ?_⟩
    rw [← List.append_assoc]
    exact (h3.news l2).say out
  by_cases hcr : sup.malloc s.w.heap objSize = true
  · have hcreate : dstrCreateOom sup objSize s.w.heap = .ok (dstrCreate s.w.heap) := by unfold dstrCreateOom; rw [if_pos hcr]
    rcases untilShort_of (sup := sup) hc hn (DInv.create s.w.heap) (by simpa using hl) with
      ⟨st', S', e', x', hi', hS'⟩ | ⟨hpl', st', S', lost', part, rest, e', he, hi', hS', hl'⟩
    · obtain ⟨heap', t1, t2, t3⟩ := toStream_of hf hn hl s.w.heap s.w.out
      refine ⟨heap', s.w.out ++ text, true, ?_, by simp, fun _ => ⟨rfl, t2, t3⟩, by simp, ?_⟩
      · unfold streamShort
        rw [hcreate]
        dsimp only
        rw [e', bind_ok]
        dsimp only
        rw [if_pos rfl]
        unfold toStream at t1
        dsimp only at t1
        rw [x', bind_ok] at t1
        cases hcs : st'.cstr (dstrCstr st') with
        | error e => rw [hcs] at t1; cases t1
        | ok s =>
          rw [hcs, bind_ok] at t1
          rw [bind_ok]
          cases hd : dstrDestroy st' with
          | error e => rw [hd] at t1; cases t1
          | ok q =>
            rw [hd, bind_ok] at t1
            rw [bind_ok]
            have t1 := Except.ok.inj t1
            rw [t1]
      · obtain ⟨k, rfl⟩ := grown_of_unchanged ⟨t2, t3⟩
        exact ⟨h1, lost, h2, h3.same k _⟩
    · have hg : Grown 2 s.w.heap st'.heap := grown_of_frame hi'.live_frame (by
        have := hi'.live_le
        have h3 := congrArg List.length hS'
        simp only [List.length_map, List.map_nil, List.nil_append] at h3
        omega)
      refine ⟨st'.heap, s.w.out, false, ?_, fun _ => hpl', by simp, fun _ => ⟨rfl, hg⟩, key _ _ 2 hg (by omega)⟩
      unfold streamShort
      rw [hcreate]
      dsimp only
      rw [e', bind_ok]
      rfl
  · have hg : Grown 2 s.w.heap s.w.heap := (Grown.refl _).mono (by omega)
    refine ⟨s.w.heap, s.w.out, false, ?_, fun _ hp => hcr (hp.1 _ _), by simp, fun _ => ⟨rfl, hg⟩, key _ _ 2 hg (by omega)⟩
    unfold streamShort dstrCreateOom
    rw [if_neg hcr]

/-- The printing functions are sequences of calls that add to a string. -/
theorem fill_ok {s : World δ} (h : WorldOK lc a heap0 X s) {op : LifeOp δ} (hl : Permitted lc env s op) {text : M CStr}
    (ht : textOf s op = some text) : ∃ T f out cmds, fillOf s op = some (T, f) ∧ touchAll T.ptrs s.heap = .ok () ∧ text = .ok out ∧
      ConsistsOf f cmds ∧ Appending cmds out ∧ '\x00' ∉ out ∧ out.length ≤ 500000000 := by
  have key : ∀ {i : Nat} {T : LTable δ} {f : DState → M DState} {x : M CStr} {out : CStr}, s.tables[i]? = some T → Unfreed T →
      x = .ok out → '\x00' ∉ out → out.length ≤ 500000000 → Appends f out → ∃ cmds, touchAll T.ptrs s.heap = .ok () ∧ x = .ok out ∧
      ConsistsOf f cmds ∧ Appending cmds out ∧ '\x00' ∉ out ∧ out.length ≤ 500000000 := by
    rintro i T f x out hi hu hx h1 h2 ⟨cmds, c1, c2⟩
    exact ⟨cmds, unfreed_touch (h.tabs T (List.mem_of_getElem? hi)) hu, hx, c2, c1, h1, h2⟩
  cases op with
  | «syntax» i suffix =>
    obtain ⟨T, hi, hu, out, h1, h2, h3⟩ := hl
    obtain ⟨cmds, hh⟩ := key hi hu h1 h2 h3 (appends_syntax h1)
    simp only [textOf, hi, Option.map_some, Option.some.injEq] at ht
    subst ht
    exact ⟨T, _, out, cmds, by simp only [fillOf, hi, Option.map_some], hh⟩
  | syntaxv i suffix =>
    obtain ⟨T, hi, hu, out, h1, h2, h3⟩ := hl
    obtain ⟨cmds, hh⟩ := key hi hu h1 h2 h3 (appends_syntaxv h1)
    simp only [textOf, hi, Option.map_some, Option.some.injEq] at ht
    subst ht
    exact ⟨T, _, out, cmds, by simp only [fillOf, hi, Option.map_some], hh⟩
  | glossary i fmtlen fmt2 =>
    obtain ⟨T, hi, hu, h0, out, h1, h2, h3⟩ := hl
    obtain ⟨cmds, hh⟩ := key hi hu h1 h2 h3 (appends_glossary h0 fmt2 _ h1)
    simp only [textOf, hi, Option.map_some, Option.some.injEq] at ht
    subst ht
    exact ⟨T, _, out, cmds, by simp only [fillOf, hi, Option.map_some], hh⟩
  | glossaryGnu i fuel =>
    obtain ⟨T, hi, hu, out, h1, h2, h3⟩ := hl
    obtain ⟨cmds, hh⟩ := key hi hu h1 h2 h3 (appends_glossaryGnu h1)
    simp only [textOf, hi, Option.map_some, Option.some.injEq] at ht
    subst ht
    exact ⟨T, _, out, cmds, by simp only [fillOf, hi, Option.map_some], hh⟩
  | errors i prog =>
    obtain ⟨T, hi, hu, out, h1, h2, h3⟩ := hl
    have hT := h.tabs T (List.mem_of_getElem? hi)
    obtain ⟨cmds, hh⟩ := key hi hu h1 h2 h3 (appends_errors (fnsOf_errSim hT.err) h1)
    simp only [textOf, hi, Option.map_some, Option.some.injEq] at ht
    subst ht
    exact ⟨T, _, out, cmds, by simp only [fillOf, hi, Option.map_some], hh⟩
  | _ => cases ht

theorem WorldOK.parsed (h : WorldOK lc a heap0 X w) {i : Nat} {T : LTable δ} (hi : w.tables[i]? = some T)
    {argv : List CStr} (hargs : CArgs argv.tail) {r : Nat × Table (Obj δ) × GState} (hr : Returns env argv T.t w.g r)
    {heap : Heap} (hu : Unchanged w.heap heap) :
    WorldOK lc a heap0 X { w with heap, g := r.2.2, ret := r.1, tables := w.tables.set i { T with t := r.2.1 } } := by
  have hT := h.tabs T (List.mem_of_getElem? hi)
  have hm := hT.fin
  obtain ⟨k, rfl⟩ := grown_of_unchanged hu
  obtain ⟨i1, i2, i3⟩ := C09_invariant hm hT.wf hT.live (.parse env argv w.g r .refl hargs hr)
  obtain ⟨fr, -, -⟩ := C08_counts hm hT.wf hT.live argv hargs w.g r hr
  obtain ⟨fuel, hp⟩ := hr
  exact h.grown k w.out r.2.2 r.1 hi (T' := { T with t := r.2.1 }) rfl
    ⟨i3, i2, i1, sim_parse hT.sim hp, errSim_frame (fr.imp fun _ _ hx => by rw [hx]) hT.err, hT.len,
      cap_frame (fr.imp fun _ _ hx => by rw [hx]) hT.cap, hT.sound, hT.more, hT.ptrs⟩

theorem WorldOK.unparsed (h : WorldOK lc a heap0 X w) {i : Nat} {T : LTable δ} (hi : w.tables[i]? = some T)
    {sup : Supply} {argv : List CStr} {c : Crash (Obj δ)} (hc : Panics sup env argv T.t w.g w.heap c) :
    ∃ lost, lost.length ≤ 6 ∧
      WorldOK lc a heap0 (X ++ lost) { w with heap := c.heap, g := c.g, tables := w.tables.set i { T with t := c.t } } := by
  have hT := h.tabs T (List.mem_of_getElem? hi)
  obtain ⟨fr, l, e, g⟩ := C71_state hT.fin hT.live hc
  obtain ⟨lost, l1, l2⟩ := g.news
  have h2 := h.news l2
  have hT2 := h2.tabs T (List.mem_of_getElem? hi)
  refine ⟨lost, l1, ?_⟩
  exact h2.put w.out c.g w.ret (T := T) (T' := { T with t := c.t }) hi rfl
    ⟨l, frame_wf fr hT.wf, e, simFns_frame (fr.imp fun _ _ hx => by rw [hx]) hT.sim,
      errSim_frame (fr.imp fun _ _ hx => by rw [hx]) hT.err, hT.len,
      cap_frame (fr.imp fun _ _ hx => by rw [hx]) hT.cap, hT.sound, hT.more, hT2.ptrs⟩

/-- Every step keeps the invariant. -/
theorem ProgOK.step {s s' : Prog δ} {n : Nat} (h : ProgOK lc a heap0 s n) {act : Act δ} (hal : MayDo lc env s act)
    {sup : Supply} {objSize : Nat} {b : Bool} (hh : Happens sup objSize lc a addr env s act s' b) :
    ProgOK lc a heap0 s' (if b then n else n + 1) ∧ (b = false → ¬ Plenty sup) := by
  obtain ⟨h1, lost, h2, h3⟩ := id h
  cases hh with
  | quiet hq hs => exact ⟨⟨h1, lost, h2, (world_step h3 hal).2 _ _ hs⟩, by simp⟩
  | @made ms maxerr junk junkCount w hs =>
    have := osim_makeTable (lc := lc) (a := a) (addr := addr) (env := env) sup s.w hal.1 maxerr junk junkCount 0
    rw [hs] at this
    exact ⟨⟨h1, lost, h2, (world_step h3 (show Permitted lc env s.w (.make ms maxerr junk junkCount) from hal)).2 0 _ this⟩, by simp⟩
  | @unmade ms maxerr junk junkCount ps heap hs =>
    have := osim_makeTable (lc := lc) (a := a) (addr := addr) (env := env) sup s.w hal.1 maxerr junk junkCount 0
    rw [hs] at this
    obtain ⟨hpl, hless, h4, g1, g2⟩ := this
    dsimp only at hless g1 g2
    obtain ⟨lost2, l1, l2⟩ := g2.news
    refine ⟨⟨?_, lost ++ lost2, by simp only [List.length_append]; simp; omega, ?_⟩, fun _ => hpl⟩
    · intro ptrs hp
      rcases List.mem_append.1 hp with hp | hp
      · exact h1 ptrs hp
      · rw [List.mem_singleton.1 hp]
        exact ⟨ps, ms.length - ps.length, by rw [show ms.length + 1 - ps.length = ms.length - ps.length + 1 by omega]⟩
    · have := (h3.news g1.news).news (heap := heap) l2
      refine this.perm ?_
      rw [List.flatMap_append, List.flatMap_singleton, pointers_stub, List.append_assoc, List.append_assoc,
        List.append_assoc]
      refine List.Perm.append_left _ ?_
      rw [← List.append_assoc, ← List.append_assoc]
      exact List.perm_append_comm.append_right _
  | @parsed i T argv r heap hi ht hr =>
    have hT := h3.tabs T (List.mem_of_getElem? hi)
    obtain ⟨T', hi', -, hargs, -⟩ := hal
    obtain ⟨r1, r2⟩ := C71_never_silent hT.fin hT.live hr
    exact ⟨⟨h1, lost, h2, h3.parsed hi hargs r1 r2⟩, by simp⟩
  | @unparsed i T argv c hi ht hc =>
    have hT := h3.tabs T (List.mem_of_getElem? hi)
    obtain ⟨lost2, l1, l2⟩ := h3.unparsed hi hc
    refine ⟨⟨h1, lost ++ lost2, by simp only [List.length_append]; simp; omega, by rw [← List.append_assoc]; exact l2⟩, fun _ hp => ?_⟩
    obtain ⟨fns, fuel, hw, hc⟩ := hc
    obtain ⟨fns', -, e2⟩ := oom_parse (env := env) hT.fin hT.live hw argv s.w.g s.w.heap
    have := e2 fuel
    rw [hc] at this
    exact this.1 hp
  | @printed op T f text cmds heap out b hf ht hx hc ha hs =>
    obtain ⟨T', f', out', cmds', e1, e2, e3, e4, e5, e6, e7⟩ := fill_ok h3 hal hx
    cases e3
    obtain ⟨heap', out', b', p1, p2, p3, p4, p5⟩ := h.print (sup := sup) (objSize := objSize) e6 e7 ha
    rw [hs] at p1
    cases p1
    exact ⟨p5, p2⟩
  | @cleared j old ptrs ptrs' heap hj hs =>
    obtain ⟨ps, k, rfl⟩ := h1 _ (List.mem_of_getElem? hj)
    have hpp := (flatMap_set (y := List.replicate (ps.length + (k + 1)) none) hj (pointers_replicate _))
    rw [pointers_stub] at hpp
    have h4 := h3.perm (hpp.append_right lost)
    rw [List.append_assoc] at h4
    have hnd := h4.nodup
    have hal : ∀ p ∈ ps, Spec.Allocated s.w.heap p := fun p hp =>
      (h4.live p (h4.above p (by simp [hp]))).2 (by simp [hp])
    have hnd : ps.Nodup := (List.nodup_append.1 (List.nodup_append.1 hnd).2.1).1
    obtain ⟨heap', e1, e2, e3⟩ := freeStub_ok (k := k) hnd hal old
    rw [hs] at e1
    cases e1
    refine ⟨⟨?_, lost, h2, h4.drop e2 e3⟩, by simp⟩
    intro q hq
    rcases List.mem_or_eq_of_mem_set hq with hq | rfl
    · exact h1 q hq
    · exact ⟨[], ps.length + k, by simp; omega⟩

theorem ProgOK.can {s : Prog δ} {n : Nat} (h : ProgOK lc a heap0 s n) {act : Act δ} (hal : MayDo lc env s act)
    (sup : Supply) (objSize : Nat) : ∃ s' b, Happens sup objSize lc a addr env s act s' b := by
  obtain ⟨h1, lost, h2, h3⟩ := id h
  have quiet : ∀ op, act = .call op → Quiet op → ∃ s' b, Happens sup objSize lc a addr env s act s' b := by
    rintro op rfl hq
    obtain ⟨⟨fuel, w', hs⟩, -⟩ := world_step (addr := addr) h3 hal
    exact ⟨_, _, .quiet hq hs⟩
  have prints : ∀ op text, act = .call op → textOf s.w op = some text → ∃ s' b, Happens sup objSize lc a addr env s act s' b := by
    rintro op text rfl ht
    obtain ⟨T, f, out, cmds, e1, e2, rfl, e4, e5, e6, e7⟩ := fill_ok h3 hal ht
    obtain ⟨heap, out', b, p1, -⟩ := h.print (sup := sup) (objSize := objSize) e6 e7 e5
    exact ⟨_, _, .printed e1 e2 ht e4 e5 p1⟩
  cases act with
  | clear j old =>
    obtain ⟨ptrs, hj⟩ : ∃ ptrs, s.stubs[j]? = some ptrs := ⟨_, List.getElem?_eq_getElem hal⟩
    obtain ⟨ps, k, rfl⟩ := h1 _ (List.mem_of_getElem? hj)
    have hpp := (flatMap_set (y := List.replicate (ps.length + (k + 1)) none) hj (pointers_replicate _))
    rw [pointers_stub] at hpp
    have h4 := h3.perm (hpp.append_right lost)
    rw [List.append_assoc] at h4
    have hnd := h4.nodup
    have hal : ∀ p ∈ ps, Spec.Allocated s.w.heap p := fun p hp =>
      (h4.live p (h4.above p (by simp [hp]))).2 (by simp [hp])
    have hnd : ps.Nodup := (List.nodup_append.1 (List.nodup_append.1 hnd).2.1).1
    obtain ⟨heap', e1, -⟩ := freeStub_ok (k := k) hnd hal old
    exact ⟨_, _, .cleared hj e1⟩
  | call op =>
    cases op with
    | make ms maxerr junk junkCount =>
      have hsim := osim_makeTable (lc := lc) (a := a) (addr := addr) (env := env) sup s.w hal.1 maxerr junk junkCount
      obtain ⟨⟨fuel, w', hs⟩, -⟩ := world_step (addr := addr) h3 (show Permitted lc env s.w (.make ms maxerr junk junkCount) from hal)
      rcases (hsim fuel).cases hs with e | ⟨⟨ps, heap⟩, e, -⟩
      · exact ⟨_, _, .made e⟩
      · exact ⟨_, _, .unmade e⟩
    | parse i argv =>
      obtain ⟨T, hi, hu, hargs, r, hr⟩ := hal
      have hT := h3.tabs T (List.mem_of_getElem? hi)
      have ht := unfreed_touch hT hu
      rcases C71_outcome hT.fin hT.live sup s.w.heap hr with ⟨heap', e⟩ | ⟨c, e⟩
      · exact ⟨_, _, .parsed hi ht e⟩
      · exact ⟨_, _, .unparsed hi ht e⟩
    | preset => exact quiet _ rfl trivial
    | freetable => exact quiet _ rfl trivial
    | free => exact quiet _ rfl trivial
    | «syntax» i suffix => obtain ⟨T, hi, -⟩ := id hal; exact prints _ _ rfl (by simp only [textOf, hi, Option.map_some]; rfl)
    | syntaxv i suffix => obtain ⟨T, hi, -⟩ := id hal; exact prints _ _ rfl (by simp only [textOf, hi, Option.map_some]; rfl)
    | glossary i fmtlen fmt2 => obtain ⟨T, hi, -⟩ := id hal; exact prints _ _ rfl (by simp only [textOf, hi, Option.map_some]; rfl)
    | glossaryGnu i fuel => obtain ⟨T, hi, -⟩ := id hal; exact prints _ _ rfl (by simp only [textOf, hi, Option.map_some]; rfl)
    | errors i prog => obtain ⟨T, hi, -⟩ := id hal; exact prints _ _ rfl (by simp only [textOf, hi, Option.map_some]; rfl)

theorem Spec.Survives.progOK {s0 s : Prog δ} {n : Nat} (h0 : s0.w.tables = []) (h1 : s0.stubs = [])
    (h : Survives lc a addr env s0 s n) : ProgOK lc a s0.w.heap s n := by
  induction h with
  | start =>
    have hh : held s0.w = [] := by unfold held; rw [h0]; rfl
    refine ⟨by rw [h1]; simp, [], by simp, ?_⟩
    rw [h1]
    refine ⟨Nat.le_refl _, fun _ _ => rfl, fun p hp => ?_, by rw [hh]; exact .nil, by rw [hh]; simp, by rw [h0]; simp⟩
    rw [hh]
    exact ⟨fun ⟨b, hb⟩ => absurd (lt_of_getElem? hb) (by omega), fun hc => (by cases hc)⟩
  | step _ hl hs ih => exact (ih.step hl hs).1

end Argtable
