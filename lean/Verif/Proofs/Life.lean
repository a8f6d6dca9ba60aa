import Verif.Spec.Life
import Verif.Props.Memory
import Verif.Props.Stream
import Verif.Props.Free
/-!
# Lemmas about programs that use the library
-/

namespace Argtable

open Spec

variable {δ : Type}

/-! ### Memory -/

theorem liveBlocks_append (a b : Heap) : liveBlocks (a ++ b) = liveBlocks a ++ liveBlocks b := by
  unfold liveBlocks; rw [List.filterMap_append]

theorem liveBlocks_nil {l : Heap} (h : liveBlocks l = []) : l = List.replicate l.length none := by
  induction l with
  | nil => rfl
  | cons x l ih =>
    cases x with
    | none => rw [List.length_cons, List.replicate_succ, ← ih h]
    | some b => cases h

theorem grown_of_unchanged {h h' : Heap} (hu : Unchanged h h') : ∃ k, h' = h ++ List.replicate k none := by
  obtain ⟨h1, h2⟩ := hu
  have hlen : h.length ≤ h'.length := by
    by_contra hc
    have := h2 h'.length (by omega)
    rw [List.getElem?_eq_none (Nat.le_refl _), List.getElem?_eq_getElem (by omega)] at this
    cases this
  have he : h' = h ++ h'.drop h.length := by
    refine List.ext_getElem? fun i => ?_
    by_cases hi : i < h.length
    · rw [List.getElem?_append_left hi, h2 i hi]
    · rw [List.getElem?_append_right (by omega), List.getElem?_drop]
      congr 1; omega
  refine ⟨(h'.drop h.length).length, ?_⟩
  rw [he, liveBlocks_append] at h1
  have := liveBlocks_nil (l := h'.drop h.length) (by
    have h1 := congrArg List.length h1
    rw [List.length_append] at h1
    exact List.length_eq_zero_iff.1 (by omega))
  rw [← this]
  exact he

theorem allocated_grown {h : Heap} {k p : Nat} : Allocated (h ++ List.replicate k none) p ↔ Allocated h p := by
  unfold Allocated
  by_cases hp : p < h.length
  · rw [List.getElem?_append_left hp]
  · rw [List.getElem?_append_right (by omega), List.getElem?_eq_none (by omega : h.length ≤ p)]
    constructor
    · rintro ⟨b, hb⟩
      rw [List.getElem?_replicate] at hb
      split at hb <;> cases hb
    · rintro ⟨b, hb⟩; cases hb

theorem block_grown {h l : Heap} {p : Nat} {b : List Byte} (hb : h[p]? = some (some b)) : (h ++ l)[p]? = some (some b) := by
  rw [List.getElem?_append_left (lt_of_getElem? hb)]; exact hb

theorem free_all : ∀ (l : List Nat) (heap : Heap), l.Nodup → (∀ p ∈ l, Allocated heap p) →
    ∃ heap', l.foldlM (fun heap p => heapFree p heap) heap = .ok heap' ∧ heap'.length = heap.length ∧
      ∀ q, heap'[q]? = if q ∈ l then some none else heap[q]? := by
  intro l
  induction l with
  | nil => exact fun heap _ _ => ⟨heap, rfl, rfl, fun q => by simp⟩
  | cons p l ih =>
    intro heap hn ha
    obtain ⟨b, hb⟩ := ha p (by simp)
    have h1 : heapFree p heap = .ok (heap.set p none) := by rw [heapFree, hb]
    obtain ⟨hpl, hn⟩ := List.nodup_cons.1 hn
    obtain ⟨heap', h2, h3, h4⟩ := ih (heap.set p none) hn (fun q hq => by
      obtain ⟨c, hc⟩ := ha q (by simp [hq])
      exact ⟨c, by rw [List.getElem?_set_ne (by rintro rfl; exact hpl hq)]; exact hc⟩)
    refine ⟨heap', ?_, by rw [h3, List.length_set], fun q => ?_⟩
    · rw [List.foldlM_cons, h1]; exact h2
    · rw [h4 q]
      by_cases hq : q ∈ l
      · rw [if_pos hq, if_pos (by simp [hq])]
      · rw [if_neg hq]
        by_cases hqp : q = p
        · subst hqp
          rw [if_pos (by simp), List.getElem?_set_self (lt_of_getElem? hb)]
        · rw [if_neg (by simp [hq, hqp]), List.getElem?_set_ne (fun h => hqp h.symm)]

/-! ### The objects -/

theorem Spec.Maker.Sound.header {lc : Libc δ} {a : Abi} {m : Maker} (h : Maker.Sound m) (p : Nat) :
    ∃ hd : Hdr (Obj δ), m.header lc a p = .ok hd := by
  cases m with
  | lit so lo mn mx gl => exact ⟨_, rfl⟩
  | rem dt gl => exact ⟨_, rfl⟩
  | int so lo dt mn mx gl =>
    obtain ⟨hd, _, h, -⟩ := C51_int (δ := δ) so lo dt gl mn mx h.2.2.2.2; exact ⟨hd, h⟩
  | dbl so lo dt mn mx gl =>
    obtain ⟨hd, _, h, -⟩ := C51_dbl (δ := δ) lc (p + a.argDbl) so lo dt gl mn mx h.2.2.2.2; exact ⟨hd, h⟩
  | str so lo dt mn mx gl => obtain ⟨hd, h, -⟩ := C51_str (δ := δ) so lo dt gl mn mx h.2.2.2.2; exact ⟨hd, h⟩
  | file so lo dt mn mx gl => obtain ⟨hd, h, -⟩ := C51_file (δ := δ) so lo dt gl mn mx h.2.2.2.2; exact ⟨hd, h⟩
  | date so lo fm dt mn mx gl =>
    obtain ⟨hd, h, -⟩ := C51_date (δ := δ) lc so lo fm dt gl mn mx h.2.2.2.2.2; exact ⟨hd, h⟩
  | rex so lo pat dt mn mx ic gl =>
    obtain ⟨hd, h, -⟩ := C51_rex (δ := δ) so lo pat dt gl mn mx ic h.2.2.2.2.2.1 h.2.2.2.2.2.2; exact ⟨hd, h⟩

/-- The error function of an entry and the function at work. -/
def ErrSim (h : Hdr (Obj δ)) (f : Option (ErrFn (Obj δ))) : Prop :=
  (h.errorfn = none ∧ f = none) ∨ ∃ g f', h.errorfn = some g ∧ f = some f' ∧ ∀ o, Writes (f' o) (g o)

/-- What the constructor guarantees. -/
structure MadeBy (lc : Libc δ) (a : Abi) (m : Maker) (h : Hdr (Obj δ)) : Prop where
  made : ∃ p, m.header lc a p = .ok h
  live : Live lc AnyPat h
  decl : declOf h = Maker.decl m
  scan : SimFn (m.scan h) h.scanfn
  err : ErrSim h (m.err lc h)
  cap : h.maxcount = Maker.limit m

theorem simFn_other (h : Hdr (Obj δ)) : SimFn (h.scanfn.map fun f p a heap => do
      let r ← f p a
      .ok (r, heap)) h.scanfn := by
  cases h.scanfn with
  | none => trivial
  | some g => exact fun o a heap => bind_map_heap _

theorem madeBy {lc : Libc δ} {a : Abi} {m : Maker} {p : Nat} {h : Hdr (Obj δ)} (hh : m.header lc a p = .ok h) :
    MadeBy lc a m h := by
  cases m with
  | lit so lo mn mx gl =>
    cases hh
    exact ⟨⟨p, rfl⟩, C09_made (.lit ..), rfl, simFn_other (argLitn so lo mn mx gl), .inr ⟨_, _, rfl, rfl, fun _ => writes_lit _ _ _⟩, foolproof_max _ _⟩
  | rem dt gl =>
    cases hh
    exact ⟨⟨p, rfl⟩, C09_made (.rem ..), rfl, simFn_other (argRem dt gl), .inl ⟨rfl, rfl⟩, rfl⟩
  | int so lo dt mn mx gl =>
    refine ⟨⟨p, hh⟩, C09_made (.int _ _ _ _ _ _ _ hh), ?_, simFn_other _, ?_, ?_⟩ <;>
    · have hh : argIntn so lo dt mn mx gl = .ok h := hh
      unfold argIntn at hh
      obtain ⟨n, -, hh⟩ := bind_some_ok hh
      cases hh
      first | rfl | exact foolproof_max _ _ | exact .inr ⟨_, _, rfl, rfl, fun _ => writes_int _ _ _⟩
  | dbl so lo dt mn mx gl =>
    refine ⟨⟨p, hh⟩, C09_made (.dbl _ _ _ _ _ _ _ _ hh), ?_, simFn_other _, ?_, ?_⟩ <;>
    · have hh : argDbln lc _ so lo dt mn mx gl = .ok h := hh
      unfold argDbln at hh
      obtain ⟨n, -, hh⟩ := bind_some_ok hh
      cases hh
      first | rfl | exact foolproof_max _ _ | exact .inr ⟨_, _, rfl, rfl, fun _ => writes_dbl _ _ _⟩
  | str so lo dt mn mx gl =>
    refine ⟨⟨p, hh⟩, C09_made (.str _ _ _ _ _ _ _ hh), ?_, simFn_other _, ?_, ?_⟩ <;>
    · have hh : argStrn so lo dt mn mx gl = .ok h := hh
      unfold argStrn at hh
      obtain ⟨n, -, hh⟩ := bind_some_ok hh
      cases hh
      first | rfl | exact foolproof_max _ _ | exact .inr ⟨_, _, rfl, rfl, fun _ => writes_str _ _ _⟩
  | file so lo dt mn mx gl =>
    refine ⟨⟨p, hh⟩, C09_made (.file _ _ _ _ _ _ _ hh), ?_, simFn_other _, ?_, ?_⟩ <;>
    · have hh : argFilen so lo dt mn mx gl = .ok h := hh
      unfold argFilen at hh
      obtain ⟨n, -, hh⟩ := bind_some_ok hh
      cases hh
      first | rfl | exact foolproof_max _ _ | exact .inr ⟨_, _, rfl, rfl, fun _ => writes_file _ _ _⟩
  | date so lo fm dt mn mx gl =>
    refine ⟨⟨p, hh⟩, C09_made (.date _ _ _ _ _ _ _ _ hh), ?_, simFn_other _, ?_, ?_⟩ <;>
    · have hh : argDaten lc so lo fm dt mn mx gl = .ok h := hh
      unfold argDaten at hh
      obtain ⟨n, -, hh⟩ := bind_some_ok hh
      cases hh
      first | rfl | exact foolproof_max _ _ | exact .inr ⟨_, _, rfl, rfl, fun _ => writes_date _ _ _ _ _⟩
  | rex so lo pat dt mn mx ic gl =>
    have hl : Live lc AnyPat h := C09_made (.rex _ _ _ _ _ _ _ _ _ hh trivial)
    have hh : argRexn so lo pat dt mn mx ic gl = .ok h := hh
    have hw : ∃ o, RexEntry pat ic h o := by
      have h0 := hh
      unfold argRexn at h0
      obtain ⟨n, hn, h0⟩ := bind_some_ok h0
      obtain ⟨n2, -, h0⟩ := bind_some_ok h0
      have e : h.parent = .rex { count := 0, sval := List.replicate n [] } ∧ h.hasOptValue = false ∧
          h.maxcount = foolproof mn mx := by cases h0; exact ⟨rfl, rfl, rfl⟩
      have hn' : (n : Int) = foolproof mn mx := by
        unfold arrayCells at hn
        split at hn
        · cases hn
        · cases hn; omega
      refine ⟨{ count := 0, sval := List.replicate n [] }, ?_⟩
      have := RexEntry.mk so lo pat dt mn mx ic gl h false { count := 0, sval := List.replicate n [] } hh
        (by rw [e.2.2]; simp; omega) (by rw [e.2.2]; simp [hn'])
      rw [← e.1, ← e.2.1] at this
      exact this
    refine ⟨⟨p, hh⟩, hl, ?_, ?_, ?_, ?_⟩
    · unfold argRexn at hh
      obtain ⟨n, -, hh⟩ := bind_some_ok hh
      obtain ⟨n2, -, hh⟩ := bind_some_ok hh
      cases hh; rfl
    · obtain ⟨o, ho⟩ := hw
      exact sim_atWork (.rex ho)
    · unfold argRexn at hh
      obtain ⟨n, -, hh⟩ := bind_some_ok hh
      obtain ⟨n2, -, hh⟩ := bind_some_ok hh
      cases hh
      exact .inr ⟨_, _, rfl, rfl, fun _ => writes_rex _ _ _⟩
    · unfold argRexn at hh
      obtain ⟨n, -, hh⟩ := bind_some_ok hh
      obtain ⟨n2, -, hh⟩ := bind_some_ok hh
      cases hh
      exact foolproof_max _ _

/-! ### Construction -/

/-- The blocks of `ps` are the only ones in the new part of the heap, and have the sizes `ns`. -/
structure Grew (heap heap' : Heap) (ps : List Nat) (ns : List Nat) : Prop where
  ext : ∃ l, heap' = heap ++ l
  nodup : ps.Nodup
  above : ∀ p ∈ ps, heap.length ≤ p
  live : ∀ p, heap.length ≤ p → (Allocated heap' p ↔ p ∈ ps)
  size : List.Forall₂ (fun p n => heap'[p]? = some (some (List.replicate n none))) ps ns

theorem Grew.nil (heap : Heap) : Grew heap heap [] [] :=
  ⟨⟨[], by simp⟩, .nil, fun p hp => (by cases hp), fun p hp => ⟨fun ⟨b, hb⟩ => by
    have := lt_of_getElem? hb; omega, fun h => by cases h⟩, .nil⟩

theorem grew_one (heap : Heap) (n k : Nat) :
    Grew heap (heap ++ [some (List.replicate n none)] ++ List.replicate k none) [heap.length] [n] := by
  refine ⟨⟨_, List.append_assoc _ _ _⟩, by simp, by simp, fun p hp => ?_, ?_⟩
  · rw [allocated_grown]
    constructor
    · rintro ⟨b, hb⟩
      have := lt_of_getElem? hb
      simp at this
      simp; omega
    · intro h
      simp only [List.mem_singleton] at h
      subst h
      exact ⟨List.replicate n none, by simp⟩
  · exact .cons (by simp) .nil

theorem Grew.append {h0 h1 h2 : Heap} {ps qs ns ms : List Nat} (a : Grew h0 h1 ps ns) (b : Grew h1 h2 qs ms) :
    Grew h0 h2 (ps ++ qs) (ns ++ ms) := by
  obtain ⟨l1, e1⟩ := a.ext
  obtain ⟨l2, e2⟩ := b.ext
  have hlen : h0.length ≤ h1.length := by rw [e1]; simp
  have hin : ∀ p ∈ ps, p < h1.length := fun p hp => by
    obtain ⟨c, hc⟩ := (a.live p (a.above p hp)).2 hp
    exact lt_of_getElem? hc
  have hold : ∀ p, p < h1.length → h2[p]? = h1[p]? := fun p hp => by rw [e2, List.getElem?_append_left hp]
  refine ⟨⟨l1 ++ l2, by rw [e2, e1, List.append_assoc]⟩, ?_, ?_, ?_, ?_⟩
  · refine List.nodup_append.2 ⟨a.nodup, b.nodup, fun x hx y hy => ?_⟩
    have := hin x hx
    have := b.above y hy
    omega
  · intro p hp
    rcases List.mem_append.1 hp with h | h
    · exact a.above p h
    · exact Nat.le_trans hlen (b.above p h)
  · intro p hp
    by_cases hp1 : p < h1.length
    · have : Allocated h2 p ↔ Allocated h1 p := by unfold Allocated; rw [hold p hp1]
      rw [this, a.live p hp, List.mem_append]
      exact ⟨.inl, fun h => h.elim id fun h => absurd (b.above p h) (by omega)⟩
    · rw [b.live p (by omega), List.mem_append]
      exact ⟨.inr, fun h => h.elim (fun h => absurd (hin p h) hp1) id⟩
  · refine (List.rel_append ?_ b.size)
    have := a.size
    revert hin
    clear a b
    induction this with
    | nil => exact fun _ => .nil
    | cons h _ ih =>
      intro hin
      exact .cons (by rw [hold _ (hin _ (by simp))]; exact h) (ih fun p hp => hin p (by simp [hp]))

theorem make_ok {lc : Libc δ} {a : Abi} {addr : Nat → Nat} {m : Maker} (hm : Maker.Sound m) (heap : Heap) :
    ∃ h heap', m.make lc a addr heap = .ok ((heap.length, h), heap') ∧ MadeBy lc a m h ∧
      Grew heap heap' [heap.length] [m.size a] := by
  obtain ⟨h, hh⟩ := hm.header (lc := lc) (a := a) (addr heap.length)
  have hg := grew_one heap (m.size a)
  unfold Maker.make heapMalloc
  dsimp only
  rw [hh]
  refine ⟨h, ?_⟩
  have hM := madeBy hh
  have hg0 := hg 0
  rw [List.replicate_zero, List.append_nil] at hg0
  cases m with
  | rex so lo pat dt mn mx ic gl =>
    obtain ⟨v, heap', h1, h2, -⟩ := C64_made (δ := δ) (h := h) hh (heap ++ [some (List.replicate
      ((Maker.rex so lo pat dt mn mx ic gl).size a) none)])
    obtain ⟨k, rfl⟩ := grown_of_unchanged h2
    refine ⟨_, ?_, hM, hg k⟩
    rw [hbind_ok]
    dsimp only
    rw [h1]
    rfl
  | lit => exact ⟨_, rfl, hM, hg0⟩
  | int => exact ⟨_, rfl, hM, hg0⟩
  | dbl => exact ⟨_, rfl, hM, hg0⟩
  | str => exact ⟨_, rfl, hM, hg0⟩
  | file => exact ⟨_, rfl, hM, hg0⟩
  | date => exact ⟨_, rfl, hM, hg0⟩
  | rem => exact ⟨_, rfl, hM, hg0⟩

theorem makeAll_ok {lc : Libc δ} {a : Abi} {addr : Nat → Nat} : ∀ (ms : List Maker) (heap : Heap),
    (∀ m ∈ ms, Maker.Sound m) → ∃ xs heap', makeAll lc a addr ms heap = .ok (xs, heap') ∧
      List.Forall₂ (MadeBy lc a) ms (xs.map (·.2)) ∧ Grew heap heap' (xs.map (·.1)) (ms.map (·.size a)) := by
  intro ms
  induction ms with
  | nil => exact fun heap _ => ⟨[], heap, rfl, .nil, Grew.nil heap⟩
  | cons m ms ih =>
    intro heap hs
    obtain ⟨h, heap1, h1, h2, h3⟩ := make_ok (lc := lc) (a := a) (addr := addr) (hs m (by simp)) heap
    obtain ⟨xs, heap2, h4, h5, h6⟩ := ih heap1 fun m hm => hs m (by simp [hm])
    refine ⟨(heap.length, h) :: xs, heap2, ?_, .cons h2 h5, h3.append h6⟩
    rw [makeAll, h1, hbind_ok]
    dsimp only
    rw [h4]
    rfl

/-! ### The invariant -/

structure TabOK (lc : Libc δ) (a : Abi) (heap : Heap) (T : LTable δ) : Prop where
  live : ∀ h ∈ T.t.entries, Live lc AnyPat h
  wf : WF (T.t.entries.map declOf)
  fin : EndOK T.maxerr.toNat T.t.fin
  sim : SimFns T.scan T.t.entries
  err : List.Forall₂ ErrSim T.t.entries T.err
  len : T.ptrs.length = T.makers.length + 1
  cap : List.Forall₂ (fun m h => h.maxcount = Maker.limit m) T.makers T.t.entries
  sound : ∀ m ∈ T.makers, Maker.Sound m
  more : 1 ≤ T.maxerr
  ptrs : Freed T ∨ ∃ ps, T.ptrs = ps.map some ∧
    List.Forall₂ (fun p n => heap[p]? = some (some (List.replicate n none))) ps
      (T.makers.map (·.size a) ++ [(endBlock a 0 T.maxerr).size])

/-- `X`: blocks that belong to none of the tables. -/
structure WorldOK (lc : Libc δ) (a : Abi) (heap0 : Heap) (X : List Nat) (w : World δ) : Prop where
  len : heap0.length ≤ w.heap.length
  old : ∀ p, p < heap0.length → w.heap[p]? = heap0[p]?
  live : ∀ p, heap0.length ≤ p → (Allocated w.heap p ↔ p ∈ held w ++ X)
  nodup : (held w ++ X).Nodup
  above : ∀ p ∈ held w ++ X, heap0.length ≤ p
  tabs : ∀ T ∈ w.tables, TabOK lc a w.heap T

theorem WorldOK.live0 {lc : Libc δ} {a : Abi} {heap0 : Heap} {w : World δ} (h : WorldOK lc a heap0 [] w) :
    ∀ p, heap0.length ≤ p → (Allocated w.heap p ↔ p ∈ held w) := by
  have := h.live; rwa [List.append_nil] at this

theorem WorldOK.nodup0 {lc : Libc δ} {a : Abi} {heap0 : Heap} {w : World δ} (h : WorldOK lc a heap0 [] w) :
    (held w).Nodup := by
  have := h.nodup; rwa [List.append_nil] at this

theorem WorldOK.above0 {lc : Libc δ} {a : Abi} {heap0 : Heap} {w : World δ} (h : WorldOK lc a heap0 [] w) :
    ∀ p ∈ held w, heap0.length ≤ p := by
  have := h.above; rwa [List.append_nil] at this

theorem pointers_map (ps : List Nat) : pointers (ps.map some) = ps := by
  unfold pointers
  induction ps with
  | nil => rfl
  | cons p ps ih => rw [List.map_cons, List.filterMap_cons]; exact congrArg (p :: ·) ih

theorem pointers_freed {ptrs : List (Option Nat)} (h : ∀ p ∈ ptrs, p = none) : pointers ptrs = [] := by
  unfold pointers
  induction ptrs with
  | nil => rfl
  | cons p ps ih =>
    have := h p (by simp); subst this
    rw [List.filterMap_cons]
    exact ih fun q hq => h q (by simp [hq])

theorem pointers_append (a b : List (Option Nat)) : pointers (a ++ b) = pointers a ++ pointers b := by
  unfold pointers; rw [List.filterMap_append]

/-- Changing the contents of a table does not change what is held. -/
theorem held_set {w : World δ} {i : Nat} {T T' : LTable δ} (hi : w.tables[i]? = some T) (hp : T'.ptrs = T.ptrs)
    (heap : Heap) (out : CStr) (g : GState) (n : Nat) :
    held (⟨heap, out, g, n, w.tables.set i T'⟩ : World δ) = held w := by
  unfold held
  have : (w.tables.set i T').map (fun T => pointers T.ptrs) = w.tables.map (fun T => pointers T.ptrs) := by
    refine List.ext_getElem? fun j => ?_
    rw [List.getElem?_map, List.getElem?_map]
    by_cases hj : j = i
    · subst hj
      rw [List.getElem?_set_self (lt_of_getElem? hi), hi]
      simp [hp]
    · rw [List.getElem?_set_ne (fun h => hj h.symm)]
  rw [List.flatMap_def, List.flatMap_def, this]

theorem TabOK.grown {lc : Libc δ} {a : Abi} {heap l : Heap} {T : LTable δ} (h : TabOK lc a heap T) :
    TabOK lc a (heap ++ l) T := by
  refine { h with ptrs := h.ptrs.imp id ?_ }
  rintro ⟨ps, h1, h2⟩
  exact ⟨ps, h1, h2.imp fun _ _ h => block_grown h⟩

theorem WorldOK.grown {lc : Libc δ} {a : Abi} {heap0 : Heap} {X : List Nat} {w : World δ} (h : WorldOK lc a heap0 X w) (k : Nat)
    (out : CStr) (g : GState) (n : Nat) {i : Nat} {T T' : LTable δ} (hi : w.tables[i]? = some T)
    (hp : T'.ptrs = T.ptrs) (hT : TabOK lc a w.heap T') :
    WorldOK lc a heap0 X ⟨w.heap ++ List.replicate k none, out, g, n, w.tables.set i T'⟩ := by
  have hh := held_set hi hp (w.heap ++ List.replicate k none) out g n
  refine ⟨?_, ?_, ?_, ?_, ?_, ?_⟩
  · have := h.len; simp; omega
  · intro p hp'
    have := h.len
    show (w.heap ++ _)[p]? = _
    rw [List.getElem?_append_left (by omega)]; exact h.old p hp'
  · intro p hp'
    rw [hh]
    show Allocated (w.heap ++ _) p ↔ _
    rw [allocated_grown]; exact h.live p hp'
  · rw [hh]; exact h.nodup
  · rw [hh]; exact h.above
  · intro T2 hT2
    rcases List.mem_or_eq_of_mem_set hT2 with h2 | rfl
    · exact (h.tabs T2 h2).grown
    · exact hT.grown

theorem unfreed_touch {lc : Libc δ} {a : Abi} {heap : Heap} {T : LTable δ} (h : TabOK lc a heap T) (hu : Unfreed T) :
    touchAll T.ptrs heap = .ok () := by
  rcases h.ptrs with hf | ⟨ps, h1, h2⟩
  · have := h.len
    cases hp : T.ptrs with
    | nil => rw [hp] at this; simp at this
    | cons p ps => exact absurd (hf p (by simp [hp])) (hu p (by simp [hp]))
  · rw [h1]
    clear h1 hu h
    generalize T.makers.map (·.size a) ++ [(endBlock a 0 T.maxerr).size] = ns at h2
    induction h2 with
    | nil => rfl
    | cons hx _ ih =>
      rw [List.map_cons, touchAll, heapTouch, hx]
      exact ih

theorem World.table_eq {w : World δ} {i : Nat} {T : LTable δ} (h : w.tables[i]? = some T) : w.table i = .ok T := by
  unfold World.table; rw [h]

theorem errSim_frame {es es' : List (Hdr (Obj δ))} {fs : List (Option (ErrFn (Obj δ)))}
    (hf : List.Forall₂ (fun h h' => h'.errorfn = h.errorfn) es es') (h : List.Forall₂ ErrSim es fs) :
    List.Forall₂ ErrSim es' fs := by
  induction hf generalizing fs with
  | nil => exact h
  | cons hx _ ih =>
    cases h with
    | cons h1 h2 => exact .cons (by unfold ErrSim at h1 ⊢; rw [hx]; exact h1) (ih h2)

theorem cap_frame {es es' : List (Hdr (Obj δ))} {ms : List Maker}
    (hf : List.Forall₂ (fun h h' => h'.maxcount = h.maxcount) es es')
    (h : List.Forall₂ (fun m h => h.maxcount = Maker.limit m) ms es) :
    List.Forall₂ (fun m h => h.maxcount = Maker.limit m) ms es' := by
  induction hf generalizing ms with
  | nil => exact h
  | cons hx _ ih =>
    cases h with
    | cons h1 h2 => exact .cons (hx.trans h1) (ih h2)

theorem simFns_frame {es es' : List (Hdr (Obj δ))} {fs : List (Option (ScanFn (Obj δ)))}
    (hf : List.Forall₂ (fun h h' => h'.scanfn = h.scanfn) es es') (hs : SimFns fs es) : SimFns fs es' := by
  intro i h' hi
  obtain ⟨h, h1, h2⟩ : ∃ h, es[i]? = some h ∧ h'.scanfn = h.scanfn := by
    clear hs
    induction hf generalizing i with
    | nil => cases hi
    | cons hx _ ih =>
      cases i with
      | zero => cases hi; exact ⟨_, rfl, hx⟩
      | succ i => exact ih i hi
  rw [h2]
  exact hs i h h1

theorem fnsOf_errSim {es : List (Hdr (Obj δ))} {fs : List (Option (ErrFn (Obj δ)))} (h : List.Forall₂ ErrSim es fs) :
    FnsOf es fs :=
  h.imp fun _ _ hx => hx.imp id fun ⟨g, f', h1, h2, h3⟩ => ⟨g, f', h1, h2, h3 _⟩

/-! ### Freeing -/

theorem flagsOf_ne {ptrs : List (Option Nat)} {heap : Heap} {p : Nat} (h : Allocated heap p) :
    flagsOf ptrs heap p = some (decide (ptrs.getLast? = some (some p))) := by
  obtain ⟨b, hb⟩ := h
  unfold flagsOf; rw [hb]

theorem argFree_freed {ptrs : List (Option Nat)} (h : ∀ p ∈ ptrs, p = none) (h0 : ptrs ≠ []) (fl : FlagHeap) :
    argFree ⟨ptrs, fl, []⟩ = .ok ⟨ptrs, fl, []⟩ := by
  cases ptrs with
  | nil => exact absurd rfl h0
  | cons p ps =>
    have := h p (by simp); subst this
    rfl

theorem freetable_freed {ptrs : List (Option Nat)} (h : ∀ p ∈ ptrs, p = none) (fl : FlagHeap) :
    ∃ s, argFreetable ptrs.length ⟨ptrs, fl, []⟩ = .ok s ∧ s.freed = [] ∧ s.table = ptrs := by
  obtain ⟨s, h1, h2, h3, -⟩ := C50_freetable ⟨ptrs, fl, []⟩ ptrs.length (Nat.le_refl _)
    (by simp [pointers_freed h]) (by simp [pointers_freed h])
  refine ⟨s, h1, ?_, ?_⟩
  · rw [h2]; simp [pointers_freed h]
  · rw [h3]
    simp only [List.drop_length, List.append_nil]
    exact (List.eq_replicate_iff.2 ⟨rfl, h⟩).symm

/-- Both functions free all objects of the table and set all pointers to NULL. -/
theorem freeWith_ok {heap : Heap} {ps : List Nat} (hn : ps.Nodup) (ha : ∀ p ∈ ps, Allocated heap p) (h0 : ps ≠ [])
    {f : FreeState → M FreeState} (hf : f = argFreetable (ps.map some).length ∨ f = argFree) :
    ∃ heap', freeWith f (ps.map some) heap = .ok (List.replicate ps.length none, heap') ∧ heap'.length = heap.length ∧
      ∀ q, heap'[q]? = if q ∈ ps then some none else heap[q]? := by
  obtain ⟨heap', h1, h2, h3⟩ := free_all ps heap hn ha
  refine ⟨heap', ?_, h2, h3⟩
  have key : ∃ s, f ⟨ps.map some, flagsOf (ps.map some) heap, []⟩ = .ok s ∧ s.freed = ps ∧
      s.table = List.replicate ps.length none := by
    rcases hf with rfl | rfl
    · obtain ⟨s, e1, e2, e3, -⟩ := C50_freetable ⟨ps.map some, flagsOf (ps.map some) heap, []⟩ (ps.map some).length
        (Nat.le_refl _) (by rw [List.take_length, pointers_map]; exact hn) (by
          simp only [List.take_length, pointers_map]
          intro p hp
          rw [flagsOf_ne (ha p hp)]; simp)
      exact ⟨s, e1, by rw [e2, List.take_length, pointers_map]; rfl, by rw [e3]; simp⟩
    · obtain ⟨objs, last, rfl⟩ : ∃ objs last, ps = objs ++ [last] :=
        ⟨ps.dropLast, ps.getLast h0, (List.dropLast_append_getLast h0).symm⟩
      have hlast : (List.map some (objs ++ [last])).getLast? = some (some last) := by simp
      have hno : ∀ p ∈ objs, p ≠ last := fun p hp he =>
        (List.nodup_append.1 hn).2.2 p hp last (by simp) he
      obtain ⟨s, e1, e2, e3, -⟩ := C50_free ⟨(objs ++ [last]).map some, flagsOf ((objs ++ [last]).map some) heap, []⟩
        objs last [] (by simp) hn (fun p hp => by
          show flagsOf _ _ p = _
          rw [flagsOf_ne (ha p (by simp [hp])), hlast]
          have := hno p hp
          simpa using fun h => this (Eq.symm h)) (by
          show flagsOf _ _ last = _
          rw [flagsOf_ne (ha last (by simp)), hlast]; simp)
      exact ⟨s, e1, by rw [e2]; simp, by rw [e3]; simp⟩
  obtain ⟨s, e1, e2, e3⟩ := key
  unfold freeWith
  rw [e1, hbind_ok, e2, h1, hbind_ok, e3]

theorem TabOK.held_alloc {lc : Libc δ} {a : Abi} {heap : Heap} {T : LTable δ} (h : TabOK lc a heap T) {p : Nat}
    (hp : p ∈ pointers T.ptrs) : Allocated heap p := by
  rcases h.ptrs with hf | ⟨ps, h1, h2⟩
  · rw [pointers_freed hf] at hp; cases hp
  · rw [h1, pointers_map] at hp
    generalize T.makers.map (·.size a) ++ [(endBlock a 0 T.maxerr).size] = ns at h2
    clear h1
    induction h2 with
    | nil => cases hp
    | cons hx _ ih =>
      rcases List.mem_cons.1 hp with rfl | hp
      · exact ⟨_, hx⟩
      · exact ih hp

theorem held_split {w : World δ} {i : Nat} {T : LTable δ} (hi : w.tables[i]? = some T) : ∃ pre post,
    held w = pre ++ pointers T.ptrs ++ post ∧ (∀ T' heap out g n,
      held (⟨heap, out, g, n, w.tables.set i T'⟩ : World δ) = pre ++ pointers T'.ptrs ++ post) ∧
    ∀ j T2, j ≠ i → w.tables[j]? = some T2 → ∀ p ∈ pointers T2.ptrs, p ∈ pre ∨ p ∈ post := by
  obtain ⟨l1, l2, h1, h2⟩ : ∃ l1 l2, w.tables = l1 ++ T :: l2 ∧ l1.length = i := by
    refine ⟨w.tables.take i, w.tables.drop (i + 1), ?_, ?_⟩
    · have hlt := lt_of_getElem? hi
      have : w.tables[i] = T := by rw [List.getElem?_eq_getElem hlt] at hi; exact Option.some.inj hi
      rw [← this, ← List.drop_eq_getElem_cons hlt, List.take_append_drop]
    · have := lt_of_getElem? hi
      simp; omega
  refine ⟨l1.flatMap fun T => pointers T.ptrs, l2.flatMap fun T => pointers T.ptrs, ?_, ?_, ?_⟩
  · unfold held; rw [h1]; simp
  · intro T' heap out g n
    unfold held
    rw [h1, ← h2]
    simp
  · intro j T2 hne hT2 p hp
    rw [h1] at hT2
    simp only [List.mem_flatMap]
    by_cases hj : j < i
    · rw [List.getElem?_append_left (by omega)] at hT2
      exact .inl ⟨T2, List.mem_of_getElem? hT2, hp⟩
    · rw [List.getElem?_append_right (by omega)] at hT2
      obtain ⟨k, hk⟩ : ∃ k, j - l1.length = k + 1 := ⟨j - l1.length - 1, by omega⟩
      rw [hk, List.getElem?_cons_succ] at hT2
      exact .inr ⟨T2, List.mem_of_getElem? hT2, hp⟩

/-- Freeing a table of the world. -/
theorem WorldOK.freed {lc : Libc δ} {a : Abi} {heap0 : Heap} {X : List Nat} {w : World δ} (h : WorldOK lc a heap0 X w) {i : Nat}
    {T : LTable δ} (hi : w.tables[i]? = some T) {f : FreeState → M FreeState}
    (hf : f = argFreetable T.ptrs.length ∨ f = argFree) :
    ∃ ptrs heap, freeWith f T.ptrs w.heap = .ok (ptrs, heap) ∧ (∀ p ∈ ptrs, p = none) ∧
      WorldOK lc a heap0 X { w with heap, tables := w.tables.set i { T with ptrs } } ∧
      ∀ q, q ∉ pointers T.ptrs → heap[q]? = w.heap[q]? := by
  have hT := h.tabs T (List.mem_of_getElem? hi)
  obtain ⟨pre, post, hs1, hs2, hs3⟩ := held_split hi
  have hlen := hT.len
  rcases hT.ptrs with hfr | ⟨ps, h1, h2⟩
  · have hne : T.ptrs ≠ [] := by intro e; rw [e] at hlen; simp at hlen
    have key : ∃ s, f ⟨T.ptrs, flagsOf T.ptrs w.heap, []⟩ = .ok s ∧ s.freed = [] ∧ s.table = T.ptrs := by
      rcases hf with rfl | rfl
      · exact freetable_freed hfr _
      · exact ⟨_, argFree_freed hfr hne _, rfl, rfl⟩
    obtain ⟨s, e1, e2, e3⟩ := key
    refine ⟨T.ptrs, w.heap, ?_, hfr, ?_, fun _ _ => rfl⟩
    · unfold freeWith
      rw [e1, hbind_ok, e2, e3]; rfl
    · have := h.grown 0 w.out w.g w.ret hi rfl hT
      rw [List.replicate_zero, List.append_nil] at this
      exact this
  · have hnd : ps.Nodup := by
      have := h.nodup
      rw [hs1, h1, pointers_map, List.append_assoc] at this
      exact (List.nodup_append.1 (List.nodup_append.1 this).1).2.1
    have hal : ∀ p ∈ ps, Allocated w.heap p := fun p hp => hT.held_alloc (by rw [h1, pointers_map]; exact hp)
    have hne : ps ≠ [] := by rintro rfl; rw [h1] at hlen; simp at hlen
    obtain ⟨heap', e1, e2, e3⟩ := freeWith_ok (f := f) hnd hal hne (by rw [← h1]; exact hf)
    rw [← h1] at e1
    have hnone : ∀ p ∈ List.replicate ps.length (none : Option Nat), p = none := fun p hp => (List.mem_replicate.1 hp).2
    refine ⟨_, heap', e1, hnone, ?_, ?_⟩
    · have hh : held { w with heap := heap', tables := w.tables.set i { T with ptrs := List.replicate ps.length none } }
          = pre ++ post := by
        rw [hs2, pointers_freed hnone, List.append_nil]
      have hnd' := h.nodup
      rw [hs1, h1, pointers_map, List.append_assoc] at hnd'
      have hdis : ∀ p ∈ pre ++ (post ++ X), p ∉ ps := by
        intro p hp hps
        have ⟨h12, h3, hx⟩ := List.nodup_append.1 hnd'
        rcases List.mem_append.1 hp with hp | hp
        · exact (List.nodup_append.1 h12).2.2 p hp p hps rfl
        · exact hx p (by simp [hps]) p hp rfl
      have hab := h.above
      rw [hs1, h1, pointers_map, List.append_assoc] at hab
      refine ⟨?_, ?_, ?_, ?_, ?_, ?_⟩
      · show heap0.length ≤ heap'.length
        rw [e2]; exact h.len
      · intro p hp
        show heap'[p]? = _
        rw [e3, if_neg (fun hc => by have := hab p (by simp [hc]); omega)]
        exact h.old p hp
      · intro p hp
        rw [hh]
        show Allocated heap' p ↔ _
        have hl := h.live p hp
        rw [hs1, h1, pointers_map, List.append_assoc] at hl
        rw [List.append_assoc]
        unfold Allocated at hl ⊢
        rw [e3]
        by_cases hps : p ∈ ps
        · rw [if_pos hps]
          constructor
          · rintro ⟨b, hb⟩; cases hb
          · exact fun hc => absurd hps (hdis p hc)
        · rw [if_neg hps, hl]
          simp [hps]
      · rw [hh, List.append_assoc]
        exact hnd'.sublist (by simp)
      · rw [hh, List.append_assoc]
        exact fun p hp => hab p (by rcases List.mem_append.1 hp with h | h <;> simp [h])
      · intro T2 hT2
        obtain ⟨j, hj⟩ := List.mem_iff_getElem?.1 hT2
        by_cases hji : j = i
        · subst hji
          have hj' : (w.tables.set j { T with ptrs := List.replicate ps.length none })[j]? = some T2 := hj
          rw [List.getElem?_set_self (lt_of_getElem? hi)] at hj'
          cases hj'
          refine ⟨hT.live, hT.wf, hT.fin, hT.sim, hT.err, ?_, hT.cap, hT.sound, hT.more, .inl hnone⟩
          rw [← hlen, h1]; simp
        · have hj' : (w.tables.set i { T with ptrs := List.replicate ps.length none })[j]? = some T2 := hj
          rw [List.getElem?_set_ne (fun h => hji h.symm)] at hj'
          have h2T := h.tabs T2 (List.mem_of_getElem? hj')
          refine { h2T with ptrs := h2T.ptrs.imp id ?_ }
          rintro ⟨qs, q1, q2⟩
          refine ⟨qs, q1, ?_⟩
          have hq := hs3 j T2 hji hj'
          rw [q1, pointers_map] at hq
          show List.Forall₂ (fun p n => heap'[p]? = _) _ _
          generalize T2.makers.map (·.size a) ++ [(endBlock a 0 T2.maxerr).size] = ns at q2 ⊢
          clear q1
          induction q2 with
          | nil => exact .nil
          | cons hx _ ih =>
            refine .cons ?_ (ih fun p hp => hq p (by simp [hp]))
            rw [e3, if_neg (hdis _ (List.mem_append.2 ((hq _ (by simp)).imp id fun h => List.mem_append_left _ h)))]
            exact hx
    · intro q hq
      rw [h1, pointers_map] at hq
      rw [e3, if_neg hq]

/-! ### The steps -/

variable {lc : Libc δ} {a : Abi} {addr : Nat → Nat} {env : Bool} {heap0 : Heap} {X : List Nat} {w : World δ}

theorem WorldOK.same (h : WorldOK lc a heap0 X w) (k : Nat) (out : CStr) :
    WorldOK lc a heap0 X { w with heap := w.heap ++ List.replicate k none, out } := by
  refine ⟨?_, ?_, ?_, h.nodup, h.above, fun T hT => (h.tabs T hT).grown⟩
  · have := h.len; simp; omega
  · intro p hp
    have := h.len
    show (w.heap ++ _)[p]? = _
    rw [List.getElem?_append_left (by omega)]; exact h.old p hp
  · intro p hp
    show Allocated (w.heap ++ _) p ↔ _
    rw [allocated_grown]; exact h.live p hp

theorem forall₂_madeBy_sim {ms : List Maker} {hs : List (Hdr (Obj δ))} (h : List.Forall₂ (MadeBy lc a) ms hs) :
    SimFns (List.zipWith (fun m h => m.scan h) ms hs) hs ∧
    List.Forall₂ ErrSim hs (List.zipWith (fun m h => m.err lc h) ms hs) ∧
    (∀ h ∈ hs, Live lc AnyPat h) ∧ hs.map declOf = ms.map Maker.decl ∧ hs.length = ms.length := by
  induction h with
  | nil => exact ⟨fun i h hi => (by cases hi), .nil, fun h hh => (by cases hh), rfl, rfl⟩
  | cons hx _ ih =>
    obtain ⟨h1, h2, h3, h4, h5⟩ := ih
    refine ⟨?_, .cons hx.err h2, ?_, ?_, ?_⟩
    · intro i h hi
      cases i with
      | zero => cases hi; exact hx.scan
      | succ i => exact h1 i h hi
    · intro h hh
      rcases List.mem_cons.1 hh with rfl | hh
      · exact hx.live
      · exact h3 h hh
    · rw [List.map_cons, List.map_cons, h4, hx.decl]
    · rw [List.length_cons, List.length_cons, h5]

/-- A new table. -/
theorem WorldOK.made (h : WorldOK lc a heap0 X w) {ms : List Maker} {maxerr : Int} (hs : ∀ m ∈ ms, Maker.Sound m)
    (hwf : WF (ms.map Maker.decl)) (hmax : 1 ≤ maxerr) (junk : ErrRec) (junkCount : Nat) :
    ∃ w' T, (∀ fuel, lifeStep lc a addr env fuel w (.make ms maxerr junk junkCount) = .ok w') ∧
      w'.tables = w.tables ++ [T] ∧ Unfreed T ∧ T.makers = ms ∧ T.maxerr = maxerr ∧
      List.Forall₂ (MadeBy lc a) ms T.t.entries ∧ argEnd maxerr junk junkCount = .ok T.t.fin ∧
      w'.g = w.g ∧ w'.out = w.out ∧ w'.ret = w.ret ∧ WorldOK lc a heap0 X w' := by
  obtain ⟨xs, heap1, e1, e2, e3⟩ := makeAll_ok (lc := lc) (a := a) (addr := addr) ms w.heap hs
  have e4 := grew_one heap1 (endBlock a 0 maxerr).size 0
  rw [List.replicate_zero, List.append_nil] at e4
  obtain ⟨fin, f1, f2⟩ : ∃ fin, argEnd maxerr junk junkCount = .ok fin ∧ EndOK maxerr.toNat fin := by
    refine ⟨_, by unfold argEnd; rw [arrayCells_ok (by omega)]; rfl, by omega, ?_, ?_⟩
    · show maxerr = _; omega
    · simp
  obtain ⟨s1, s2, s3, s4, s5⟩ := forall₂_madeBy_sim e2
  have hg := e3.append e4
  refine ⟨{ w with
    heap := heap1 ++ [some (List.replicate (endBlock a 0 maxerr).size none)]
    tables := w.tables ++ [{
      makers := ms, maxerr, ptrs := xs.map (fun x => some x.1) ++ [some heap1.length], t := ⟨xs.map (·.2), fin⟩,
      scan := List.zipWith (fun m h => m.scan h) ms (xs.map (·.2)),
      err := List.zipWith (fun m h => m.err lc h) ms (xs.map (·.2)) }] }, _, fun fuel => ?_, rfl, ?_, rfl, rfl, e2, f1, rfl, rfl, rfl, ?_⟩
  · unfold lifeStep heapMalloc
    dsimp only
    rw [e1, hbind_ok]
    dsimp only
    rw [f1]
    rfl
  · intro p hp
    dsimp only at hp
    rcases List.mem_append.1 hp with hp | hp
    · obtain ⟨x, -, rfl⟩ := List.mem_map.1 hp; simp
    · rw [List.mem_singleton.1 hp]; simp
  · obtain ⟨l, el⟩ := hg.ext
    have hptr : xs.map (fun x => some x.1) ++ [some heap1.length] = (xs.map (·.1) ++ [heap1.length]).map some := by simp
    have hh : ∀ T : LTable δ, T.ptrs = xs.map (fun x => some x.1) ++ [some heap1.length] →
        ∀ heap out g n, held (⟨heap, out, g, n, w.tables ++ [T]⟩ : World δ) = held w ++ (xs.map (·.1) ++ [heap1.length]) := by
      intro T hT heap out g n
      unfold held
      rw [List.flatMap_append, List.flatMap_singleton, hT, hptr, pointers_map]
    have hin : ∀ p ∈ held w ++ X, p < w.heap.length := fun p hp => by
      obtain ⟨b, hb⟩ := (h.live p (h.above p hp)).2 hp
      exact lt_of_getElem? hb
    refine ⟨?_, ?_, ?_, ?_, ?_, ?_⟩
    · show heap0.length ≤ List.length (heap1 ++ _)
      rw [el]; have := h.len; simp; omega
    · intro p hp
      show (heap1 ++ _)[p]? = _
      have := h.len
      rw [el, List.getElem?_append_left (by omega)]; exact h.old p hp
    · intro p hp
      rw [hh _ rfl, List.append_assoc, (List.perm_append_comm.append_left _).mem_iff, ← List.append_assoc, List.mem_append]
      by_cases hp1 : p < w.heap.length
      · have : Allocated (heap1 ++ [some (List.replicate (endBlock a 0 maxerr).size none)]) p ↔ Allocated w.heap p := by
          unfold Allocated; rw [el, List.getElem?_append_left hp1]
        refine this.trans ((h.live p hp).trans ⟨.inl, fun hc => hc.elim id fun hc => ?_⟩)
        have := hg.above p hc; omega
      · refine (hg.live p (by omega)).trans ⟨.inr, fun hc => hc.elim (fun hc => ?_) id⟩
        have := hin p hc; omega
    · rw [hh _ rfl, List.append_assoc, (List.perm_append_comm.append_left _).nodup_iff, ← List.append_assoc]
      refine List.nodup_append.2 ⟨h.nodup, hg.nodup, fun x hx y hy => ?_⟩
      have := hin x hx
      have := hg.above y hy
      omega
    · rw [hh _ rfl]
      intro p hp
      rw [List.append_assoc, (List.perm_append_comm.append_left _).mem_iff, ← List.append_assoc] at hp
      rcases List.mem_append.1 hp with hp | hp
      · exact h.above p hp
      · have := hg.above p hp
        have := h.len
        omega
    · intro T hT
      rcases List.mem_append.1 hT with hT | hT
      · show TabOK lc a (heap1 ++ _) T
        rw [el]; exact (h.tabs T hT).grown
      · rw [List.mem_singleton.1 hT]
        refine ⟨s3, ?_, f2, s1, s2, ?_, e2.imp fun _ _ hx => hx.cap, hs, hmax, .inr ⟨_, hptr, hg.size⟩⟩
        · show WF (List.map declOf (List.map _ xs)); rw [s4]; exact hwf
        · show List.length (_ ++ _) = _ + 1
          have : xs.length = ms.length := by rw [← s5]; simp
          simp [this]

theorem preset_live {es es' : List (Hdr (Obj δ))} (hp : List.Forall₂ (Preset lc) es es') : ∀ x ∈ es', Live lc AnyPat x := by
  intro x hx
  induction hp with
  | nil => cases hx
  | cons hy _ ih =>
    rcases List.mem_cons.1 hx with rfl | hx
    · exact hy.2
    · exact ih hx

theorem preset_wf {es es' : List (Hdr (Obj δ))} (hp : List.Forall₂ (Preset lc) es es') (hw : WF (es.map declOf)) :
    WF (es'.map declOf) := by
  intro d hd
  obtain ⟨x, hx, rfl⟩ := List.mem_map.1 hd
  clear hd
  induction hp with
  | nil => cases hx
  | @cons y y' l l' hy _ ih =>
    rcases List.mem_cons.1 hx with rfl | hx
    · have := hw (declOf y) (by simp)
      rw [hy.1]
      exact ⟨this.short, this.long⟩
    · exact ih (fun d hd => hw d (by simp at hd ⊢; exact .inr hd)) hx

theorem WorldOK.preset (h : WorldOK lc a heap0 X w) {i : Nat} {T : LTable δ} (hi : w.tables[i]? = some T) (hu : Unfreed T)
    {es : List (Hdr (Obj δ))} (hp : List.Forall₂ (Preset lc) T.t.entries es) :
    ∃ w', (∀ fuel, lifeStep lc a addr env fuel w (.preset i es) = .ok w') ∧ WorldOK lc a heap0 X w' ∧
      w' = { w with tables := w.tables.set i { T with t := { T.t with entries := es } } } := by
  have hT := h.tabs T (List.mem_of_getElem? hi)
  refine ⟨_, fun fuel => ?_, ?_, rfl⟩
  · unfold lifeStep
    dsimp only
    rw [World.table_eq hi, hbind_ok, unfreed_touch hT hu, hbind_ok]
  · have hT' : TabOK lc a w.heap { T with t := { T.t with entries := es } } := by
      refine ⟨preset_live hp, preset_wf hp hT.wf, hT.fin, ?_, ?_, hT.len, cap_frame (hp.imp fun _ _ hx => by rw [hx.1]) hT.cap, hT.sound, hT.more, hT.ptrs⟩
      · exact simFns_frame (hp.imp fun _ _ hx => by rw [hx.1]) hT.sim
      · exact errSim_frame (hp.imp fun _ _ hx => by rw [hx.1]) hT.err
    have := h.grown 0 w.out w.g w.ret hi (T' := { T with t := { T.t with entries := es } }) rfl hT'
    rw [List.replicate_zero, List.append_nil] at this
    exact this

/-- Parsing in the world is parsing. -/
theorem WorldOK.parse (h : WorldOK lc a heap0 X w) {i : Nat} {T : LTable δ} (hi : w.tables[i]? = some T) (hu : Unfreed T)
    {argv : List CStr} (hargs : CArgs argv.tail) :
    (∀ r, Returns env argv T.t w.g r → ∃ fuel w', lifeStep lc a addr env fuel w (.parse i argv) = .ok w') ∧
    (∀ fuel w', lifeStep lc a addr env fuel w (.parse i argv) = .ok w' → ∃ r heap, Returns env argv T.t w.g r ∧
      w' = { w with heap, g := r.2.2, ret := r.1, tables := w.tables.set i { T with t := r.2.1 } } ∧
      Unchanged w.heap heap ∧ WorldOK lc a heap0 X w') ∧
    ∀ fuel s, lifeStep lc a addr env fuel w (.parse i argv) = .error (.ub s) → Hazard (.ub s) := by
  have hT := h.tabs T (List.mem_of_getElem? hi)
  have hm := hT.fin
  have hstep : ∀ fuel, lifeStep lc a addr env fuel w (.parse i argv) =
      (do let ((n, t, g), heap) ← argParseMem T.scan env fuel argv T.t w.g w.heap
          .ok { w with heap, g, ret := n, tables := w.tables.set i { T with t } }) := by
    intro fuel
    conv => lhs; unfold lifeStep
    dsimp only
    rw [World.table_eq hi, hbind_ok, unfreed_touch hT hu, hbind_ok]
  have hl := fun fuel => lift_parse env fuel argv T.t w.g w.heap hT.sim
  refine ⟨?_, ?_, ?_⟩
  · rintro r ⟨fuel, hr⟩
    obtain ⟨heap', e1, -⟩ := (hl fuel).ok_of hr
    exact ⟨fuel, _, by rw [hstep, e1]; rfl⟩
  · intro fuel w' hw
    rw [hstep] at hw
    cases hp : argParse env fuel argv T.t w.g with
    | error e => rw [(hl fuel).error_of hp] at hw; cases hw
    | ok r =>
      obtain ⟨heap', e1, e2⟩ := (hl fuel).ok_of hp
      rw [e1] at hw
      cases hw
      refine ⟨r, heap', ⟨fuel, hp⟩, rfl, e2, ?_⟩
      obtain ⟨k, rfl⟩ := grown_of_unchanged e2
      obtain ⟨i1, i2, i3⟩ := C09_invariant hm hT.wf hT.live (.parse env argv w.g r .refl hargs ⟨fuel, hp⟩)
      obtain ⟨fr, -, -⟩ := C08_counts hm hT.wf hT.live argv hargs w.g r ⟨fuel, hp⟩
      exact h.grown k w.out r.2.2 r.1 hi (T' := { T with t := r.2.1 }) rfl
        ⟨i3, i2, i1, sim_parse hT.sim hp, errSim_frame (fr.imp fun _ _ hx => by rw [hx]) hT.err, hT.len,
          cap_frame (fr.imp fun _ _ hx => by rw [hx]) hT.cap, hT.sound, hT.more, hT.ptrs⟩
  · intro fuel s hs
    rw [hstep] at hs
    cases hp : argParse env fuel argv T.t w.g with
    | error e =>
      rw [(hl fuel).error_of hp] at hs
      cases hs
      exact C09_no_stray_write (env := env) hm hT.wf hT.live .refl argv hargs w.g s ⟨fuel, hp⟩
    | ok r =>
      obtain ⟨heap', e1, -⟩ := (hl fuel).ok_of hp
      rw [e1] at hs; cases hs

theorem printed (h : WorldOK lc a heap0 X w) {i : Nat} {T : LTable δ} (hi : w.tables[i]? = some T) (hu : Unfreed T)
    {pr : Heap → CStr → M (Heap × CStr)} {text : CStr} (hp : Prints pr text) :
    ∃ heap, (do
      let T ← w.table i
      touchAll T.ptrs w.heap
      let (heap, out) ← pr w.heap w.out
      (.ok { w with heap, out } : M (World δ))) = .ok { w with heap, out := w.out ++ text } ∧
      Unchanged w.heap heap ∧ WorldOK lc a heap0 X { w with heap, out := w.out ++ text } := by
  have hT := h.tabs T (List.mem_of_getElem? hi)
  obtain ⟨heap', e1, e2, e3⟩ := hp w.heap w.out
  obtain ⟨k, rfl⟩ := grown_of_unchanged ⟨e2, e3⟩
  refine ⟨_, ?_, ⟨e2, e3⟩, h.same k _⟩
  rw [World.table_eq hi, hbind_ok, unfreed_touch hT hu, hbind_ok, e1]
  rfl

theorem world_step (h : WorldOK lc a heap0 X w) {op : LifeOp δ} (hl : Permitted lc env w op) :
    (∃ fuel w', lifeStep lc a addr env fuel w op = .ok w') ∧
    ∀ fuel w', lifeStep lc a addr env fuel w op = .ok w' → WorldOK lc a heap0 X w' := by
  have key : (∃ w', (∀ fuel, lifeStep lc a addr env fuel w op = .ok w') ∧ WorldOK lc a heap0 X w') →
      (∃ fuel w', lifeStep lc a addr env fuel w op = .ok w') ∧
      ∀ fuel w', lifeStep lc a addr env fuel w op = .ok w' → WorldOK lc a heap0 X w' := by
    rintro ⟨w', h1, h2⟩
    refine ⟨⟨0, w', h1 0⟩, fun fuel w2 hw => ?_⟩
    rw [h1 fuel] at hw
    cases hw
    exact h2
  cases op with
  | make ms maxerr junk junkCount =>
    obtain ⟨h1, h2, h3⟩ := hl
    obtain ⟨w', T, e1, -, -, -, -, -, -, -, -, -, e2⟩ := h.made (addr := addr) (env := env) h1 h2 h3 junk junkCount
    exact key ⟨w', e1, e2⟩
  | preset i es =>
    obtain ⟨T, hi, hu, hp⟩ := hl
    obtain ⟨w', e1, e2, -⟩ := h.preset (addr := addr) (env := env) hi hu hp
    exact key ⟨w', e1, e2⟩
  | parse i argv =>
    obtain ⟨T, hi, hu, hargs, r, hr⟩ := hl
    obtain ⟨p1, p2, -⟩ := h.parse (addr := addr) (env := env) hi hu hargs
    exact ⟨p1 r hr, fun fuel w' hw => by obtain ⟨_, _, _, _, _, h⟩ := p2 fuel w' hw; exact h⟩
  | «syntax» i suffix =>
    obtain ⟨T, hi, hu, out, h1, h2, h3⟩ := hl
    obtain ⟨heap, e1, -, e2⟩ := printed h hi hu (prints_of (appends_syntax h1) h2 h3)
    refine key ⟨_, fun fuel => ?_, e2⟩
    rw [← e1, World.table_eq hi]; unfold lifeStep; dsimp only; rw [World.table_eq hi]; rfl
  | syntaxv i suffix =>
    obtain ⟨T, hi, hu, out, h1, h2, h3⟩ := hl
    obtain ⟨heap, e1, -, e2⟩ := printed h hi hu (prints_of (appends_syntaxv h1) h2 h3)
    refine key ⟨_, fun fuel => ?_, e2⟩
    rw [← e1, World.table_eq hi]; unfold lifeStep; dsimp only; rw [World.table_eq hi]; rfl
  | glossary i fmtlen fmt2 =>
    obtain ⟨T, hi, hu, h0, out, h1, h2, h3⟩ := hl
    obtain ⟨heap, e1, -, e2⟩ := printed h hi hu (prints_of (appends_glossary h0 fmt2 _ h1) h2 h3)
    refine key ⟨_, fun fuel => ?_, e2⟩
    rw [← e1, World.table_eq hi]; unfold lifeStep; dsimp only; rw [World.table_eq hi]; rfl
  | glossaryGnu i f =>
    obtain ⟨T, hi, hu, out, h1, h2, h3⟩ := hl
    obtain ⟨heap, e1, -, e2⟩ := printed h hi hu (prints_of (appends_glossaryGnu h1) h2 h3)
    refine key ⟨_, fun fuel => ?_, e2⟩
    rw [← e1, World.table_eq hi]; unfold lifeStep; dsimp only; rw [World.table_eq hi]; rfl
  | errors i prog =>
    obtain ⟨T, hi, hu, out, h1, h2, h3⟩ := hl
    have hT := h.tabs T (List.mem_of_getElem? hi)
    obtain ⟨heap, e1, -, e2⟩ := printed h hi hu (prints_of (appends_errors (fnsOf_errSim hT.err) h1) h2 h3)
    refine key ⟨_, fun fuel => ?_, e2⟩
    rw [← e1, World.table_eq hi]; unfold lifeStep; dsimp only; rw [World.table_eq hi]; rfl
  | freetable i =>
    obtain ⟨T, hi⟩ := hl
    obtain ⟨ptrs, heap, e1, -, e2, -⟩ := h.freed hi (.inl rfl)
    refine key ⟨_, fun fuel => ?_, e2⟩
    unfold lifeStep; dsimp only; rw [World.table_eq hi, hbind_ok, e1]; rfl
  | free i =>
    obtain ⟨T, hi⟩ := hl
    obtain ⟨ptrs, heap, e1, -, e2, -⟩ := h.freed hi (.inr rfl)
    refine key ⟨_, fun fuel => ?_, e2⟩
    unfold lifeStep; dsimp only; rw [World.table_eq hi, hbind_ok, e1]; rfl

theorem Spec.History.worldOK {w0 : World δ} (h0 : w0.tables = []) (h : History lc a addr env w0 w) :
    WorldOK lc a w0.heap [] w := by
  induction h with
  | start =>
    have hh : held w0 = [] := by unfold held; rw [h0]; rfl
    refine ⟨Nat.le_refl _, fun _ _ => rfl, fun p hp => ?_, by rw [hh]; exact .nil, by rw [hh]; simp, by rw [h0]; simp⟩
    rw [hh]
    exact ⟨fun ⟨b, hb⟩ => absurd (lt_of_getElem? hb) (by omega), fun hc => by cases hc⟩
  | step _ hl hs ih => exact (world_step ih hl).2 _ _ hs

/-- A step that prints adds the text to the stream and does nothing else. -/
theorem print_step {X : List Nat} (hW : WorldOK lc a heap0 X w) {op : LifeOp δ} (hl : Permitted lc env w op)
    {text : CStr} (ht : textOf w op = some (.ok text)) (fuel : Nat) :
    ∃ w', lifeStep lc a addr env fuel w op = .ok w' ∧ w'.out = w.out ++ text ∧ w'.tables = w.tables ∧ w'.g = w.g ∧
      w'.ret = w.ret ∧ Unchanged w.heap w'.heap := by
  cases op with
  | make => cases ht
  | preset => cases ht
  | parse => cases ht
  | freetable => cases ht
  | free => cases ht
  | «syntax» i suffix =>
    obtain ⟨T, hi, hu, out, h1, h2, h3⟩ := hl
    simp only [textOf, hi, Option.map_some, h1, Option.some.injEq, Except.ok.injEq] at ht
    subst ht
    obtain ⟨heap, e1, e2, -⟩ := printed hW hi hu (prints_of (appends_syntax h1) h2 h3)
    refine ⟨{ w with heap, out := w.out ++ out }, ?_, rfl, rfl, rfl, rfl, e2⟩
    rw [← e1, World.table_eq hi]; unfold lifeStep; dsimp only; rw [World.table_eq hi]; rfl
  | syntaxv i suffix =>
    obtain ⟨T, hi, hu, out, h1, h2, h3⟩ := hl
    simp only [textOf, hi, Option.map_some, h1, Option.some.injEq, Except.ok.injEq] at ht
    subst ht
    obtain ⟨heap, e1, e2, -⟩ := printed hW hi hu (prints_of (appends_syntaxv h1) h2 h3)
    refine ⟨{ w with heap, out := w.out ++ out }, ?_, rfl, rfl, rfl, rfl, e2⟩
    rw [← e1, World.table_eq hi]; unfold lifeStep; dsimp only; rw [World.table_eq hi]; rfl
  | glossary i fmtlen fmt2 =>
    obtain ⟨T, hi, hu, h0, out, h1, h2, h3⟩ := hl
    simp only [textOf, hi, Option.map_some, h1, Option.some.injEq, Except.ok.injEq] at ht
    subst ht
    obtain ⟨heap, e1, e2, -⟩ := printed hW hi hu (prints_of (appends_glossary h0 fmt2 _ h1) h2 h3)
    refine ⟨{ w with heap, out := w.out ++ out }, ?_, rfl, rfl, rfl, rfl, e2⟩
    rw [← e1, World.table_eq hi]; unfold lifeStep; dsimp only; rw [World.table_eq hi]; rfl
  | glossaryGnu i f =>
    obtain ⟨T, hi, hu, out, h1, h2, h3⟩ := hl
    simp only [textOf, hi, Option.map_some, h1, Option.some.injEq, Except.ok.injEq] at ht
    subst ht
    obtain ⟨heap, e1, e2, -⟩ := printed hW hi hu (prints_of (appends_glossaryGnu h1) h2 h3)
    refine ⟨{ w with heap, out := w.out ++ out }, ?_, rfl, rfl, rfl, rfl, e2⟩
    rw [← e1, World.table_eq hi]; unfold lifeStep; dsimp only; rw [World.table_eq hi]; rfl
  | errors i prog =>
    obtain ⟨T, hi, hu, out, h1, h2, h3⟩ := hl
    have hT := hW.tabs T (List.mem_of_getElem? hi)
    simp only [textOf, hi, Option.map_some, h1, Option.some.injEq, Except.ok.injEq] at ht
    subst ht
    obtain ⟨heap, e1, e2, -⟩ := printed hW hi hu (prints_of (appends_errors (fnsOf_errSim hT.err) h1) h2 h3)
    refine ⟨{ w with heap, out := w.out ++ out }, ?_, rfl, rfl, rfl, rfl, e2⟩
    rw [← e1, World.table_eq hi]; unfold lifeStep; dsimp only; rw [World.table_eq hi]; rfl

end Argtable
