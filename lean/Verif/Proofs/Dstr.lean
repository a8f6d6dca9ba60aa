import Verif.Spec.Dstr
import Verif.Proofs.Live
/-!
# The invariant of arg_dstr (C36-C38)
-/

namespace Argtable

open Spec

/-! ### strings in memory -/

theorem scanStr_str {s : CStr} (h : '\x00' ∉ s) (r : List Byte) : scanStr (bytesOf s ++ some '\x00' :: r) = .ok s := by
  induction s with
  | nil => rfl
  | cons c s ih =>
    have hc : c ≠ '\x00' := fun e => h (by simp [e])
    have hs : '\x00' ∉ s := fun e => h (by simp [e])
    show scanStr (some c :: (bytesOf s ++ some '\x00' :: r)) = _
    rw [scanStr, if_neg hc, ih hs]
    rfl

theorem strBytes_eq (s : CStr) : strBytes s = bytesOf s ++ [some '\x00'] := by
  unfold strBytes bytesOf; simp

theorem scanStr_strBytes {s : CStr} (h : '\x00' ∉ s) : scanStr (strBytes s) = .ok s := by
  rw [strBytes_eq]; exact scanStr_str h []

@[simp] theorem bytesOf_length (s : CStr) : (bytesOf s).length = s.length := by simp [bytesOf]

@[simp] theorem strBytes_length (s : CStr) : (strBytes s).length = s.length + 1 := by simp [strBytes]

theorem cstr_blk {st : DState} {a : Nat} {b : List Byte} (h : st.heap[a]? = some (some b)) :
    st.cstr ⟨.blk a, 0⟩ = scanStr b := by
  unfold DState.cstr DState.bytes
  dsimp only
  rw [h]
  dsimp only
  rw [bind_ok, if_pos (Nat.zero_le _), List.drop_zero]

theorem free_blk {st : DState} {a : Nat} {b : List Byte} (h : st.heap[a]? = some (some b)) :
    st.free ⟨.blk a, 0⟩ = .ok { st with heap := st.heap.set a none } := by
  unfold DState.free
  dsimp only
  rw [if_neg (by simp), h]

theorem write_blk {st : DState} {a o : Nat} {b src : List Byte} (h : st.heap[a]? = some (some b))
    (hl : o + src.length ≤ b.length) :
    st.write ⟨.blk a, o⟩ src =
      .ok { st with heap := st.heap.set a (some (b.take o ++ src ++ b.drop (o + src.length))) } := by
  unfold DState.write DState.bytes
  dsimp only
  rw [h]
  dsimp only
  rw [bind_ok, if_pos hl]
  rfl

theorem strcpy_blk {st : DState} {a : Nat} {b : List Byte} {src : Ptr} {s : CStr} (h : st.heap[a]? = some (some b))
    (hs : st.cstr src = .ok s) (hne : src.loc ≠ .blk a) (hl : s.length + 1 ≤ b.length) :
    st.strcpy ⟨.blk a, 0⟩ src =
      .ok { st with heap := st.heap.set a (some (strBytes s ++ b.drop (s.length + 1))) } := by
  unfold DState.strcpy
  rw [hs, bind_ok, if_neg (by unfold overlap; rintro ⟨e, -⟩; exact hne e.symm)]
  rw [write_blk h (by simpa using hl)]
  simp [strBytes, bytesOf]

theorem chkInt_ok {i : Int} (h1 : -2147483648 ≤ i) (h2 : i ≤ 2147483647) : chkInt i = .ok i := by
  unfold chkInt; rw [if_pos ⟨h1, h2⟩]

/-! ### the heap -/

/-- `O`: blocks that the object owns.  `S`: strings of the client. -/
structure HInv (base heap : Heap) (O : List Nat) (S : List (Nat × List Byte)) : Prop where
  len : base.length ≤ heap.length
  frame : ∀ a < base.length, heap[a]? = base[a]?
  user : ∀ e ∈ S, base.length ≤ e.1 ∧ heap[e.1]? = some (some e.2) ∧ e.1 ∉ O
  own : ∀ a ∈ O, base.length ≤ a ∧ ∃ b, heap[a]? = some (some b)
  nodup : O.Nodup
  live : ∀ a b, base.length ≤ a → heap[a]? = some (some b) → a ∈ O ∨ ∃ s, (a, s) ∈ S
  sorted : (S.map (·.1)).Pairwise (· < ·)

section
variable {base heap : Heap} {O : List Nat} {S : List (Nat × List Byte)}

theorem lt_of_live {heap : Heap} {a : Nat} {x : Option (List Byte)} (h : heap[a]? = some x) : a < heap.length :=
  (List.getElem?_eq_some_iff.1 h).1

theorem get_snoc (heap : Heap) (x : Option (List Byte)) (a : Nat) :
    (heap ++ [x])[a]? = if a = heap.length then some x else heap[a]? := by
  split
  · rename_i h; subst h; simp
  · rename_i h
    by_cases h2 : a < heap.length
    · rw [List.getElem?_append_left h2]
    · rw [List.getElem?_eq_none (by simp; omega), List.getElem?_eq_none (by omega)]

theorem HInv.malloc (h : HInv base heap O S) (b : List Byte) :
    HInv base (heap ++ [some b]) (heap.length :: O) S where
  len := by have := h.len; simp; omega
  frame a ha := by
    have := h.len
    rw [get_snoc, if_neg (by omega)]; exact h.frame a ha
  user e he := by
    obtain ⟨h1, h2, h3⟩ := h.user e he
    have := lt_of_live h2
    refine ⟨h1, by rw [get_snoc, if_neg (by omega)]; exact h2, ?_⟩
    simp only [List.mem_cons, not_or]
    exact ⟨by omega, h3⟩
  own a ha := by
    rcases List.mem_cons.1 ha with rfl | ha
    · exact ⟨h.len, b, by rw [get_snoc, if_pos rfl]⟩
    · obtain ⟨h1, b', h2⟩ := h.own a ha
      have := lt_of_live h2
      exact ⟨h1, b', by rw [get_snoc, if_neg (by omega)]; exact h2⟩
  nodup := by
    refine List.nodup_cons.2 ⟨fun hm => ?_, h.nodup⟩
    obtain ⟨_, b', h2⟩ := h.own _ hm
    have := lt_of_live h2
    omega
  live a b' ha hl := by
    rw [get_snoc] at hl
    split at hl
    · rename_i e; left; rw [e]; simp
    · rcases h.live a b' ha hl with h1 | h1
      · left; exact List.mem_cons_of_mem _ h1
      · exact Or.inr h1
  sorted := h.sorted

/-- Freeing an owned block. -/
theorem HInv.free {a : Nat} (h : HInv base heap (a :: O) S) : HInv base (heap.set a none) O S where
  len := by simpa using h.len
  frame a' ha := by
    have := (h.own a (by simp)).1
    rw [List.getElem?_set_ne (by omega)]; exact h.frame a' ha
  user e he := by
    obtain ⟨h1, h2, h3⟩ := h.user e he
    simp only [List.mem_cons, not_or] at h3
    exact ⟨h1, by rw [List.getElem?_set_ne (Ne.symm h3.1)]; exact h2, h3.2⟩
  own a' ha := by
    obtain ⟨h1, b', h2⟩ := h.own a' (List.mem_cons_of_mem _ ha)
    refine ⟨h1, b', ?_⟩
    rw [List.getElem?_set_ne]; · exact h2
    rintro rfl
    exact (List.nodup_cons.1 h.nodup).1 ha
  nodup := (List.nodup_cons.1 h.nodup).2
  live a' b' ha hl := by
    by_cases e : a = a'
    · subst e
      obtain ⟨-, b, hb⟩ := h.own a (by simp)
      rw [List.getElem?_set_self (lt_of_live hb)] at hl
      cases hl
    · rw [List.getElem?_set_ne e] at hl
      rcases h.live a' b' ha hl with h1 | h1
      · left
        rcases List.mem_cons.1 h1 with h1 | h1
        · exact absurd h1.symm e
        · exact h1
      · exact Or.inr h1
  sorted := h.sorted

/-- Writing to an owned block. -/
theorem HInv.write {a : Nat} (h : HInv base heap O S) (ha : a ∈ O) (b : List Byte) :
    HInv base (heap.set a (some b)) O S where
  len := by simpa using h.len
  frame a' ha' := by
    have := (h.own a ha).1
    rw [List.getElem?_set_ne (by omega)]; exact h.frame a' ha'
  user e he := by
    obtain ⟨h1, h2, h3⟩ := h.user e he
    refine ⟨h1, ?_, h3⟩
    rw [List.getElem?_set_ne]; · exact h2
    rintro rfl; exact h3 ha
  own a' ha' := by
    obtain ⟨h1, b', h2⟩ := h.own a' ha'
    by_cases e : a = a'
    · subst e; exact ⟨h1, b, List.getElem?_set_self (lt_of_live h2)⟩
    · exact ⟨h1, b', by rw [List.getElem?_set_ne e]; exact h2⟩
  nodup := h.nodup
  live a' b' ha' hl := by
    by_cases e : a = a'
    · subst e; exact Or.inl ha
    · rw [List.getElem?_set_ne e] at hl
      exact h.live a' b' ha' hl
  sorted := h.sorted

/-- The client allocates a string. -/
theorem HInv.lend (h : HInv base heap O S) (s : List Byte) :
    HInv base (heap ++ [some s]) O (S ++ [(heap.length, s)]) where
  len := by have := h.len; simp; omega
  frame a ha := by
    have := h.len
    rw [get_snoc, if_neg (by omega)]; exact h.frame a ha
  user e he := by
    rcases List.mem_append.1 he with he | he
    · obtain ⟨h1, h2, h3⟩ := h.user e he
      have := lt_of_live h2
      exact ⟨h1, by rw [get_snoc, if_neg (by omega)]; exact h2, h3⟩
    · obtain rfl := List.mem_singleton.1 he
      refine ⟨h.len, by rw [get_snoc, if_pos rfl], fun hm => ?_⟩
      obtain ⟨_, b', h2⟩ := h.own _ hm
      have := lt_of_live h2
      dsimp only at this; omega
  own a ha := by
    obtain ⟨h1, b', h2⟩ := h.own a ha
    have := lt_of_live h2
    exact ⟨h1, b', by rw [get_snoc, if_neg (by omega)]; exact h2⟩
  nodup := h.nodup
  live a b' ha hl := by
    rw [get_snoc] at hl
    split at hl
    · rename_i e; right; exact ⟨s, by rw [e]; simp⟩
    · rcases h.live a b' ha hl with h1 | ⟨s', h1⟩
      · exact Or.inl h1
      · exact Or.inr ⟨s', List.mem_append_left _ h1⟩
  sorted := by
    rw [List.map_append, List.pairwise_append]
    refine ⟨h.sorted, by simp, ?_⟩
    intro x hx y hy
    obtain ⟨e, he, rfl⟩ := List.mem_map.1 hx
    simp only [List.map_cons, List.map_nil, List.mem_singleton] at hy
    subst hy
    exact lt_of_live (h.user e he).2.1

/-- The client hands over its latest string. -/
theorem HInv.give {t : Nat} {s : List Byte} (h : HInv base heap O (S ++ [(t, s)])) : HInv base heap (t :: O) S where
  len := h.len
  frame := h.frame
  user e he := by
    obtain ⟨h1, h2, h3⟩ := h.user e (List.mem_append_left _ he)
    refine ⟨h1, h2, ?_⟩
    simp only [List.mem_cons, not_or]
    refine ⟨?_, h3⟩
    have := h.sorted
    rw [List.map_append, List.pairwise_append] at this
    have := this.2.2 e.1 (List.mem_map.2 ⟨e, he, rfl⟩) t (by simp)
    omega
  own a ha := by
    rcases List.mem_cons.1 ha with rfl | ha
    · obtain ⟨h1, h2, -⟩ := h.user (a, s) (by simp)
      exact ⟨h1, _, h2⟩
    · exact h.own a ha
  nodup := List.nodup_cons.2 ⟨(h.user (t, s) (by simp)).2.2, h.nodup⟩
  live a b ha hl := by
    rcases h.live a b ha hl with h1 | ⟨s', h1⟩
    · exact Or.inl (List.mem_cons_of_mem _ h1)
    · rcases List.mem_append.1 h1 with h1 | h1
      · exact Or.inr ⟨s', h1⟩
      · left
        obtain ⟨rfl, -⟩ := Prod.mk.inj (List.mem_singleton.1 h1)
        simp
  sorted := by
    have := h.sorted
    rw [List.map_append, List.pairwise_append] at this
    exact this.1

/-- The client takes a block for its own: the inverse of `give`. -/
theorem HInv.swap {a b : Nat} (h : HInv base heap (a :: b :: O) S) : HInv base heap (b :: a :: O) S where
  len := h.len
  frame := h.frame
  user e he := by
    obtain ⟨h1, h2, h3⟩ := h.user e he
    refine ⟨h1, h2, ?_⟩
    simp only [List.mem_cons, not_or] at h3 ⊢
    exact ⟨h3.2.1, h3.1, h3.2.2⟩
  own x hx := h.own x (by simp only [List.mem_cons] at hx ⊢; tauto)
  nodup := (List.Perm.swap b a O).nodup_iff.1 h.nodup
  live x y hx hy := by
    rcases h.live x y hx hy with h1 | h1
    · left; simp only [List.mem_cons] at h1 ⊢; tauto
    · exact Or.inr h1
  sorted := h.sorted

end

/-! ### the object -/

/-- The states of an object whose text is `text`; the last two arguments are the blocks that it owns and the
calls of the client's functions that are still to come. -/
inductive DMode (heap : Heap) (d : Dstr) (text : CStr) : List Nat → List (Nat × CStr) → Prop
  | inline : d.data = ⟨.sbuf, 0⟩ → d.freeProc = .static → d.appendData = none →
      d.appendSize = 0 → scanStr d.sbuf = .ok text → DMode heap d text [] []
  | const (a : Nat) : d.data = ⟨.blk a, 0⟩ → d.freeProc = .static →
      d.appendData = none → d.appendSize = 0 → heap[a]? = some (some (strBytes text)) → DMode heap d text [] []
  | dynamic (a : Nat) : d.data = ⟨.blk a, 0⟩ → d.freeProc = .dynamic →
      d.appendData = none → d.appendSize = 0 → heap[a]? = some (some (strBytes text)) → DMode heap d text [a] []
  | custom (a k : Nat) : d.data = ⟨.blk a, 0⟩ → d.freeProc = .custom k →
      d.appendData = none → d.appendSize = 0 → heap[a]? = some (some (strBytes text)) →
      DMode heap d text [a] [(k, text)]
  | append (a m : Nat) : d.data = ⟨.blk a, 0⟩ → d.freeProc = .static →
      d.appendData = some a → d.appendSize = text.length + (m + 1) → 0 ≤ d.appendUsed →
      d.appendUsed ≤ text.length →
      heap[a]? = some (some (bytesOf text ++ List.replicate (m + 1) (some '\x00'))) → DMode heap d text [a] []

/-- The invariant. -/
structure DInv (base : Heap) (st : DState) (text : CStr) (S : List (Nat × List Byte)) (cus : List (Nat × CStr)) :
    Prop where
  nn : '\x00' ∉ text
  sb : st.ds.sbuf.length = 201
  main : ∃ O pend, HInv base st.heap O S ∧ DMode st.heap st.ds text O pend ∧ st.log ++ pend = cus

/-- The value is not a string of the client's. -/
def Detached (st : DState) (S : List (Nat × List Byte)) : Prop := ∀ e ∈ S, st.ds.data ≠ ⟨.blk e.1, 0⟩

theorem DInv.create (base : Heap) : DInv base (dstrCreate base) [] [] [] where
  nn := by simp
  sb := by unfold dstrCreate; rw [List.length_replicate]; rfl
  main := by
    refine ⟨[], [], ⟨Nat.le_refl _, fun _ _ => rfl, by simp, by simp, by simp, ?_, by simp⟩,
      .inline rfl rfl rfl rfl ?_, rfl⟩
    · intro a b h1 h2
      have := lt_of_live h2
      simp [dstrCreate] at this; omega
    · rfl

theorem cstr_sbuf (st : DState) : st.cstr ⟨.sbuf, 0⟩ = scanStr st.ds.sbuf := by
  unfold DState.cstr DState.bytes
  dsimp only
  rw [bind_ok, if_pos (Nat.zero_le _), List.drop_zero]

/-- The text of the object. -/
theorem mode_cstr {st : DState} {text : CStr} {O : List Nat} {pend : List (Nat × CStr)} (nn : '\x00' ∉ text)
    (h : DMode st.heap st.ds text O pend) : st.cstr st.ds.data = .ok text := by
  cases h with
  | inline h1 h2 h3 h4 h5 => rw [h1, cstr_sbuf, h5]
  | const a h1 h2 h3 h4 h5 => rw [h1, cstr_blk h5, scanStr_strBytes nn]
  | dynamic a h1 h2 h3 h4 h5 => rw [h1, cstr_blk h5, scanStr_strBytes nn]
  | custom a k h1 h2 h3 h4 h5 => rw [h1, cstr_blk h5, scanStr_strBytes nn]
  | append a m h1 h2 h3 h4 h5 h6 h7 =>
    rw [h1, cstr_blk h7, List.replicate_succ, scanStr_str nn]

theorem DInv.cstr {base : Heap} {st : DState} {text : CStr} {S : List (Nat × List Byte)} {cus : List (Nat × CStr)}
    (h : DInv base st text S cus) : st.cstr (dstrCstr st) = .ok text := by
  obtain ⟨O, pend, -, hm, -⟩ := h.main
  exact mode_cstr h.nn hm

/-- Blocks killed. -/
def kill (heap : Heap) : List Nat → Heap
  | [] => heap
  | a :: O => kill (heap.set a none) O

theorem HInv.kill {base heap : Heap} {O P : List Nat} {S : List (Nat × List Byte)} (h : HInv base heap (O ++ P) S) :
    HInv base (kill heap O) P S := by
  induction O generalizing heap with
  | nil => exact h
  | cons a O ih => exact ih h.free

/-- The old value is dropped. -/
theorem drop_old {st st1 : DState} {text : CStr} {O : List Nat} {pend : List (Nat × CStr)} (nn : '\x00' ∉ text)
    (hm : DMode st.heap st.ds text O pend) (hheap : ∀ a ∈ O, st1.heap[a]? = st.heap[a]?)
    (h1 : st1.ds.appendData = st.ds.appendData) (h2 : st1.ds.appendSize = st.ds.appendSize) (h3 : st1.log = st.log)
    (hne : ∀ a ∈ O, st1.ds.data ≠ ⟨.blk a, 0⟩) :
    ((if st.ds.freeProc ≠ .static ∧ st.ds.data ≠ st1.ds.data then st1.release st.ds.freeProc st.ds.data else .ok st1)
      >>= dstrFreeAppend) =
      .ok ⟨kill st1.heap O, { st1.ds with appendData := none, appendSize := 0 }, st.log ++ pend⟩ := by
  obtain ⟨heap1, ds1, log1⟩ := st1
  obtain ⟨d1, f1, sb1, a1, z1, u1⟩ := ds1
  dsimp only at h1 h2 h3 hheap hne ⊢
  subst h1 h2 h3
  cases hm with
  | inline k1 k2 k3 k4 k5 =>
    rw [k2, if_neg (by simp), bind_ok]
    unfold dstrFreeAppend
    simp [k3, k4, kill]
  | const a k1 k2 k3 k4 k5 =>
    rw [k2, if_neg (by simp), bind_ok]
    unfold dstrFreeAppend
    simp [k3, k4, kill]
  | dynamic a k1 k2 k3 k4 k5 =>
    have e := (hheap a (by simp)).trans k5
    rw [k2, k1, if_pos ⟨by simp, (hne a (by simp)).symm⟩]
    unfold DState.release
    dsimp only
    rw [free_blk e, bind_ok]
    unfold dstrFreeAppend
    simp [k3, k4, kill]
  | custom a k k1 k2 k3 k4 k5 =>
    have e := (hheap a (by simp)).trans k5
    rw [k2, k1, if_pos ⟨by simp, (hne a (by simp)).symm⟩]
    unfold DState.release
    dsimp only
    rw [cstr_blk e, scanStr_strBytes nn, bind_ok, bind_ok]
    unfold dstrFreeAppend
    simp [k3, k4, kill]
  | append a m k1 k2 k3 k4 k5 k6 k7 =>
    have e := (hheap a (by simp)).trans k7
    rw [k2, if_neg (by simp), bind_ok]
    unfold dstrFreeAppend
    dsimp only
    rw [k3]
    dsimp only
    rw [if_pos (by omega), free_blk e, bind_ok]
    simp [kill]

theorem dstrSet_eq {st st1 : DState} {str : Option Ptr} {f : FreeFn} {text : CStr} {O : List Nat}
    {pend : List (Nat × CStr)} (he : dstrSetData st str f = .ok st1) (nn : '\x00' ∉ text)
    (hm : DMode st.heap st.ds text O pend) (hheap : ∀ a ∈ O, st1.heap[a]? = st.heap[a]?)
    (h1 : st1.ds.appendData = st.ds.appendData) (h2 : st1.ds.appendSize = st.ds.appendSize) (h3 : st1.log = st.log)
    (hne : ∀ a ∈ O, st1.ds.data ≠ ⟨.blk a, 0⟩) :
    dstrSet st str f =
      .ok ⟨kill st1.heap O, { st1.ds with appendData := none, appendSize := 0 }, st.log ++ pend⟩ := by
  rw [← drop_old nn hm hheap h1 h2 h3 hne]
  unfold dstrSet
  dsimp only
  rw [he, bind_ok]
  split <;> rfl

theorem HInv.get_kill {base heap : Heap} {O : List Nat} {S : List (Nat × List Byte)} (h : HInv base heap O S)
    {e : Nat × List Byte} (he : e ∈ S) : (Argtable.kill heap O)[e.1]? = some (some e.2) := by
  have := h
  rw [← List.append_nil O] at this
  exact (this.kill.user e he).2.1

section
variable {base : Heap} {st : DState} {text : CStr} {S : List (Nat × List Byte)} {cus : List (Nat × CStr)}

theorem write_sbuf {st : DState} {src : List Byte} (h : src.length ≤ st.ds.sbuf.length) :
    st.write ⟨.sbuf, 0⟩ src = .ok { st with ds := { st.ds with sbuf := src ++ st.ds.sbuf.drop src.length } } := by
  unfold DState.write DState.bytes
  dsimp only
  rw [bind_ok, if_pos (by omega)]
  simp [DState.setBytes]

theorem DInv.setNull (h : DInv base st text S cus) :
    ∃ st', dstrSet st none .static = .ok st' ∧ DInv base st' [] S cus := by
  obtain ⟨nn, sb, O, pend, hh, hm, hl⟩ := h
  have he : dstrSetData st none .static = .ok ⟨st.heap,
      { st.ds with data := ⟨.sbuf, 0⟩, freeProc := .static, sbuf := [some '\x00'] ++ st.ds.sbuf.drop 1 },
      st.log⟩ := by
    unfold dstrSetData
    dsimp only
    rw [write_sbuf (by rw [sb]; simp), bind_ok]
    rfl
  rw [dstrSet_eq he nn hm (fun _ _ => rfl) rfl rfl rfl (by simp)]
  refine ⟨_, rfl, by simp, ?_, ?_⟩
  · simp [sb]
  · rw [← List.append_nil O] at hh
    exact ⟨[], [], hh.kill, .inline rfl rfl rfl rfl rfl, by simpa using hl⟩

/-- The value becomes a string of the client's. -/
theorem DInv.setPtr (h : DInv base st text S cus) {t : Nat} {s : List Byte} (ht : (t, s) ∈ S) (f : FreeFn)
    (hf : f ≠ .volatile) : ∃ O pend, HInv base st.heap O S ∧ st.log ++ pend = cus ∧ dstrSet st (some ⟨.blk t, 0⟩) f =
      .ok ⟨kill st.heap O, { st.ds with data := ⟨.blk t, 0⟩, freeProc := f, appendData := none, appendSize := 0 },
        st.log ++ pend⟩ := by
  obtain ⟨nn, sb, O, pend, hh, hm, hl⟩ := h
  refine ⟨O, pend, hh, hl, ?_⟩
  have he : dstrSetData st (some ⟨.blk t, 0⟩) f =
      .ok ⟨st.heap, { st.ds with data := ⟨.blk t, 0⟩, freeProc := f }, st.log⟩ := by
    unfold dstrSetData
    dsimp only
    rw [if_neg hf]
  refine dstrSet_eq he nn hm (fun _ _ => rfl) rfl rfl rfl ?_
  intro a ha he
  cases he
  exact (hh.user _ ht).2.2 ha

theorem DInv.setStatic (h : DInv base st text S cus) {t : Nat} {s : CStr} (ht : (t, strBytes s) ∈ S) (hs : '\x00' ∉ s) :
    ∃ st', dstrSet st (some ⟨.blk t, 0⟩) .static = .ok st' ∧ DInv base st' s S cus := by
  obtain ⟨O, pend, hh, hl, e⟩ := h.setPtr ht .static (by simp)
  refine ⟨_, e, hs, h.sb, [], [], ?_, .const t rfl rfl rfl rfl (hh.get_kill ht), by simpa using hl⟩
  rw [← List.append_nil O] at hh
  exact hh.kill

theorem DInv.setDynamic {t : Nat} {s : CStr} (h : DInv base st text (S ++ [(t, strBytes s)]) cus) (hs : '\x00' ∉ s) :
    ∃ st', dstrSet st (some ⟨.blk t, 0⟩) .dynamic = .ok st' ∧ DInv base st' s S cus := by
  obtain ⟨O, pend, hh, hl, e⟩ := h.setPtr (t := t) (s := strBytes s) (by simp) .dynamic (by simp)
  refine ⟨_, e, hs, h.sb, [t], [], ?_, .dynamic t rfl rfl rfl rfl (hh.get_kill (e := (t, strBytes s)) (by simp)), by simpa using hl⟩
  rw [← List.append_nil O] at hh
  exact hh.kill.give

theorem DInv.setCustom {t : Nat} {s : CStr} (h : DInv base st text (S ++ [(t, strBytes s)]) cus) (hs : '\x00' ∉ s) (k : Nat) :
    ∃ st', dstrSet st (some ⟨.blk t, 0⟩) (.custom k) = .ok st' ∧ DInv base st' s S (cus ++ [(k, s)]) := by
  obtain ⟨O, pend, hh, hl, e⟩ := h.setPtr (t := t) (s := strBytes s) (by simp) (.custom k) (by simp)
  refine ⟨_, e, hs, h.sb, [t], [(k, s)], ?_, .custom t k rfl rfl rfl rfl (hh.get_kill (e := (t, strBytes s)) (by simp)), by simp [hl]⟩
  rw [← List.append_nil O] at hh
  exact hh.kill.give

theorem kill_snoc (heap : Heap) (x : Option (List Byte)) : ∀ O : List Nat, (∀ a ∈ O, a < heap.length) →
    kill (heap ++ [x]) O = kill heap O ++ [x] := by
  intro O
  induction O generalizing heap with
  | nil => intro _; rfl
  | cons a O ih =>
    intro h
    have ha := h a (by simp)
    show kill ((heap ++ [x]).set a none) O = _
    rw [List.set_append_left _ _ ha, ih _ (fun b hb => by rw [List.length_set]; exact h b (by simp [hb]))]
    rfl

theorem kill_length (heap : Heap) (O : List Nat) : (kill heap O).length = heap.length := by
  induction O generalizing heap with
  | nil => rfl
  | cons a O ih => show (kill (heap.set a none) O).length = _; rw [ih, List.length_set]

/-- A copy of a string, wherever it is. -/
theorem DInv.setCopy (h : DInv base st text S cus) {p : Ptr} {s : CStr} (hp : st.cstr p = .ok s)
    (hs : '\x00' ∉ s) (hl : s.length < 2147483647) (hq : p.loc = .sbuf → 200 < s.length) :
    ∃ st', dstrSet st (some p) .volatile = .ok st' ∧ DInv base st' s S cus ∧ Detached st' S := by
  obtain ⟨nn, sb, O, pend, hh, hm, hlog⟩ := h
  have hO : ∀ a ∈ O, a < st.heap.length := fun a ha => lt_of_live (hh.own a ha).2.choose_spec
  by_cases h200 : 200 < s.length
  · have hloc : p.loc ≠ .blk st.heap.length := by
      intro e
      unfold DState.cstr DState.bytes at hp
      rw [e] at hp
      dsimp only at hp
      rw [List.getElem?_eq_none (by omega)] at hp
      cases hp
    have hcs : (DState.mk (st.heap ++ [some (List.replicate (s.length + 1) none)])
        { st.ds with data := ⟨.blk st.heap.length, 0⟩, freeProc := .dynamic } st.log).cstr p = .ok s := by
      rw [← hp]
      unfold DState.cstr DState.bytes
      cases hpl : p.loc with
      | sbuf => rfl
      | blk a =>
        dsimp only
        rw [get_snoc, if_neg (by rintro rfl; exact hloc hpl)]
    have hset : (st.heap ++ [some (List.replicate (s.length + 1) none)]).set st.heap.length
        (some (strBytes s ++ (List.replicate (s.length + 1) none).drop (s.length + 1))) =
        st.heap ++ [some (strBytes s)] := by
      rw [List.set_append_right _ _ (Nat.le_refl _)]
      simp
    have he : dstrSetData st (some p) .volatile = .ok ⟨st.heap ++ [some (strBytes s)],
        { st.ds with data := ⟨.blk st.heap.length, 0⟩, freeProc := .dynamic }, st.log⟩ := by
      unfold dstrSetData
      dsimp only
      rw [if_pos rfl, hp, bind_ok, chkInt_ok (by omega) (by omega), bind_ok,
        if_pos (by unfold ARG_DSTR_SIZE; omega)]
      unfold DState.malloc
      dsimp only
      rw [strcpy_blk (b := List.replicate (s.length + 1) none) (s := s) (by dsimp only; rw [get_snoc, if_pos rfl])
        hcs hloc (by simp), ← hset]
    rw [dstrSet_eq he nn hm
      (fun a ha => by
        have := hO a ha
        dsimp only
        rw [get_snoc, if_neg (by omega)]) rfl rfl rfl
      (by rintro a ha he; cases he; exact absurd (hO _ ha) (by omega))]
    dsimp only
    rw [kill_snoc _ _ _ hO]
    refine ⟨_, rfl, ⟨hs, sb, [st.heap.length], [], ?_, .dynamic st.heap.length rfl rfl rfl rfl ?_, by simpa using hlog⟩,
      fun e he hc => ?_⟩
    · have := hh
      rw [← List.append_nil O] at this
      have := this.kill.malloc (strBytes s)
      rwa [kill_length] at this
    · dsimp only
      rw [get_snoc, if_pos (kill_length _ _).symm]
    · have hlt := lt_of_live (hh.user e he).2.1
      have : st.heap.length = e.1 := by injection hc with h1; injection h1
      omega
  · have hloc : p.loc ≠ .sbuf := fun e => h200 (hq e)
    have hcs : (DState.mk st.heap { st.ds with data := ⟨.sbuf, 0⟩, freeProc := .static } st.log).cstr p = .ok s := by
      rw [← hp]
      unfold DState.cstr DState.bytes
      cases hpl : p.loc with
      | sbuf => exact absurd hpl hloc
      | blk a => rfl
    have he : dstrSetData st (some p) .volatile = .ok ⟨st.heap,
        { st.ds with
          data := ⟨.sbuf, 0⟩
          freeProc := .static
          sbuf := bytesOf (s ++ ['\x00']) ++ st.ds.sbuf.drop (bytesOf (s ++ ['\x00'])).length }, st.log⟩ := by
      unfold dstrSetData
      dsimp only
      rw [if_pos rfl, hp, bind_ok, chkInt_ok (by omega) (by omega), bind_ok,
        if_neg (by unfold ARG_DSTR_SIZE; omega)]
      unfold DState.strcpy
      rw [hcs, bind_ok, if_neg (by unfold overlap; rintro ⟨e, -⟩; exact hloc e.symm)]
      rw [write_sbuf (by simp [bytesOf]; omega)]
    rw [dstrSet_eq he nn hm (fun _ _ => rfl) rfl rfl rfl (by simp)]
    refine ⟨_, rfl, ⟨hs, ?_, [], [], ?_, .inline rfl rfl rfl rfl ?_, by simpa using hlog⟩, fun e he hc => by cases hc⟩
    · simp [bytesOf]; omega
    · have := hh
      rw [← List.append_nil O] at this
      exact this.kill
    · dsimp only
      have e : bytesOf (s ++ ['\x00']) = bytesOf s ++ [some '\x00'] := by simp [bytesOf]
      rw [e, List.append_assoc]
      exact scanStr_str hs _

theorem DInv.reset (h : DInv base st text S cus) :
    ∃ st', dstrReset st = .ok st' ∧ DInv base st' [] S cus ∧ st'.log = cus ∧ HInv base st'.heap [] S := by
  obtain ⟨nn, sb, O, pend, hh, hm, hl⟩ := h
  have key : (dstrFree st >>= dstrFreeAppend) = .ok ⟨kill st.heap O,
      { st.ds with freeProc := .static, appendData := none, appendSize := 0 }, st.log ++ pend⟩ := by
    obtain ⟨heap1, ds1, log1⟩ := st
    obtain ⟨d1, f1, sb1, a1, z1, u1⟩ := ds1
    unfold dstrFree
    cases hm with
    | inline k1 k2 k3 k4 k5 =>
      dsimp only at k1 k2 k3 k4 k5 ⊢
      subst k2 k3 k4
      rw [if_neg (by simp), bind_ok]
      simp [dstrFreeAppend, kill]
    | const a k1 k2 k3 k4 k5 =>
      dsimp only at k1 k2 k3 k4 k5 ⊢
      subst k2 k3 k4
      rw [if_neg (by simp), bind_ok]
      simp [dstrFreeAppend, kill]
    | dynamic a k1 k2 k3 k4 k5 =>
      dsimp only at k1 k2 k3 k4 k5 ⊢
      subst k1 k2 k3 k4
      rw [if_pos (by simp)]
      unfold DState.release
      dsimp only
      rw [free_blk k5, bind_ok, bind_ok]
      simp [dstrFreeAppend, kill]
    | custom a k k1 k2 k3 k4 k5 =>
      dsimp only at k1 k2 k3 k4 k5 ⊢
      subst k1 k2 k3 k4
      rw [if_pos (by simp)]
      unfold DState.release
      dsimp only
      rw [cstr_blk k5, scanStr_strBytes nn, bind_ok, bind_ok, bind_ok]
      simp [dstrFreeAppend, kill]
    | append a m k1 k2 k3 k4 k5 k6 k7 =>
      dsimp only at k1 k2 k3 k4 k5 k6 k7 ⊢
      subst k1 k2 k3
      rw [if_neg (by simp), bind_ok]
      unfold dstrFreeAppend
      dsimp only
      rw [if_pos (by omega), free_blk k7, bind_ok]
      simp [kill]
  have hk : dstrReset st = (do
    let st ← (dstrFree st >>= dstrFreeAppend)
    let st := { st with ds := { st.ds with data := ⟨.sbuf, 0⟩ } }
    st.write ⟨.sbuf, 0⟩ [some '\x00']) := by
    unfold dstrReset
    cases dstrFree st <;> rfl
  rw [hk, key, bind_ok]
  dsimp only
  rw [write_sbuf (by rw [sb]; simp)]
  have h0 := hh
  rw [← List.append_nil O] at h0
  refine ⟨_, rfl, ⟨by simp, ?_, [], [], h0.kill, .inline rfl rfl rfl rfl rfl, by simpa using hl⟩, hl, h0.kill⟩
  simp [sb]

/-! ### appending -/

theorem dstrUsed_eq {O : List Nat} {pend : List (Nat × CStr)} (nn : '\x00' ∉ text) (hlen : text.length < 2147483647)
    (hm : DMode st.heap st.ds text O pend) :
    dstrUsed st = .ok { st with ds := { st.ds with appendUsed := text.length } } := by
  have hc := mode_cstr nn hm
  have easy : st.ds.appendData = none → st.ds.appendSize = 0 →
      dstrUsed st = .ok { st with ds := { st.ds with appendUsed := text.length } } := by
    intro h1 h2
    unfold dstrUsed Dstr.appendPtr
    rw [if_pos (by rw [h1]; simp), h2, if_neg (by omega)]
    simp only [bind_ok]
    rw [hc, bind_ok, chkInt_ok (by omega) (by omega), bind_ok]
  cases hm with
  | inline k1 k2 k3 k4 k5 => exact easy k3 k4
  | const a k1 k2 k3 k4 k5 => exact easy k3 k4
  | dynamic a k1 k2 k3 k4 k5 => exact easy k3 k4
  | custom a k k1 k2 k3 k4 k5 => exact easy k3 k4
  | append a m k1 k2 k3 k4 k5 k6 k7 =>
    unfold dstrUsed Dstr.appendPtr
    rw [if_neg (by rw [k3, k1]; simp)]
    have hb : st.bytes st.ds.data.loc = .ok (bytesOf text ++ List.replicate (m + 1) (some '\x00')) := by
      unfold DState.bytes
      rw [k1]
      dsimp only
      rw [k7]
    rw [hb, bind_ok, if_neg (by omega)]
    have hoff : st.ds.data.off + st.ds.appendUsed.toNat = st.ds.appendUsed.toNat := by rw [k1]; simp
    rw [hoff]
    obtain ⟨u, hu⟩ : ∃ u : Nat, st.ds.appendUsed = u := ⟨st.ds.appendUsed.toNat, by omega⟩
    rw [hu] at k6
    have hut : st.ds.appendUsed.toNat = u := by rw [hu]; rfl
    rw [hut]
    by_cases he : u < text.length
    · have hg : (bytesOf text ++ List.replicate (m + 1) (some '\x00'))[u]? = some (some text[u]) := by
        rw [List.getElem?_append_left (by simpa using he)]
        simp [bytesOf, he]
      rw [hg]
      dsimp only
      rw [if_pos (fun e => nn (by rw [← e]; exact List.getElem_mem he)), hc, bind_ok,
        chkInt_ok (by omega) (by omega), bind_ok]
    · have hul : u = text.length := by omega
      have hg : (bytesOf text ++ List.replicate (m + 1) (some '\x00'))[u]? = some (some '\x00') := by
        rw [List.getElem?_append_right (by simp; omega)]
        simp [hul]
      rw [hg]
      dsimp only
      rw [if_neg (by simp)]
      congr 1
      obtain ⟨hp, ds, lg⟩ := st
      obtain ⟨d1, f1, sb1, a1, z1, u1⟩ := ds
      dsimp only at hu ⊢
      rw [hu, hul]

/-- The state after `setup_append_buf`. -/
structure Ready (base : Heap) (st : DState) (text : CStr) (S : List (Nat × List Byte)) (cus : List (Nat × CStr)) (a m : Nat) : Prop where
  data : st.ds.data = ⟨.blk a, 0⟩
  free : st.ds.freeProc = .static
  app : st.ds.appendData = some a
  size : st.ds.appendSize = text.length + (m + 1)
  used : st.ds.appendUsed = text.length
  blk : st.heap[a]? = some (some (bytesOf text ++ List.replicate (m + 1) (some '\x00')))
  sb : st.ds.sbuf.length = 201
  heap : HInv base st.heap [a] S
  log : st.log = cus

theorem DState.free_live {st : DState} {a : Nat} (h : ∃ b, st.heap[a]? = some (some b)) :
    st.free ⟨.blk a, 0⟩ = .ok { st with heap := st.heap.set a none } := by
  obtain ⟨b, h⟩ := h
  exact free_blk h

theorem DInv.setup (h : DInv base st text S cus) {n : Nat} (hb : 2 * (text.length + n) ≤ 2147483647) (hn : 1 ≤ n) :
    ∃ st' a m, dstrSetup st n = .ok st' ∧ Ready base st' text S cus a m ∧ n ≤ m := by
  obtain ⟨nn, sb, O, pend, hh, hm, hlog⟩ := h
  have hO : ∀ a ∈ O, a < st.heap.length := fun a ha => lt_of_live (hh.own a ha).2.choose_spec
  have hused := dstrUsed_eq nn (by omega) hm
  -- the new buffer
  obtain ⟨T, hT, hT1, hT2⟩ : ∃ T : Nat, (if ((n : Int) + text.length) < 100 then (.ok 200 : M Int) else
      chkInt (((n : Int) + text.length) * 2)) = .ok (T : Int) ∧ text.length + n < T ∧ 1 ≤ T := by
    by_cases h100 : ((n : Int) + text.length) < 100
    · exact ⟨200, by rw [if_pos h100]; rfl, by omega, by omega⟩
    · exact ⟨(n + text.length) * 2, by rw [if_neg h100, chkInt_ok (by omega) (by omega)]; simp, by omega, by omega⟩
  obtain ⟨m, hm1⟩ : ∃ m, T = text.length + (m + 1) := ⟨T - text.length - 1, by omega⟩
  have hblk : strBytes text ++ (List.replicate T (some '\x00')).drop (text.length + 1) =
      bytesOf text ++ List.replicate (m + 1) (some '\x00') := by
    rw [strBytes_eq, List.drop_replicate, List.append_assoc]
    congr 1
    have : T - (text.length + 1) = m := by omega
    rw [this, List.replicate_succ]
    rfl
  have hcopy : ∀ u : Int, (DState.mk (st.heap ++ [some (List.replicate T (some '\x00'))])
      { st.ds with appendUsed := u } st.log).strcpy ⟨.blk st.heap.length, 0⟩ st.ds.data =
      .ok ⟨st.heap ++ [some (bytesOf text ++ List.replicate (m + 1) (some '\x00'))],
        { st.ds with appendUsed := u }, st.log⟩ := by
    intro u
    have hc := mode_cstr nn hm
    have hloc : st.ds.data.loc ≠ .blk st.heap.length := by
      intro e
      unfold DState.cstr DState.bytes at hc
      rw [e] at hc
      dsimp only at hc
      rw [List.getElem?_eq_none (by omega)] at hc
      cases hc
    have hcs : (DState.mk (st.heap ++ [some (List.replicate T (some '\x00'))])
        { st.ds with appendUsed := u } st.log).cstr st.ds.data = .ok text := by
      rw [← hc]
      unfold DState.cstr DState.bytes
      cases hpl : st.ds.data.loc with
      | sbuf => rfl
      | blk a =>
        dsimp only
        rw [get_snoc, if_neg (by rintro rfl; exact hloc hpl)]
    rw [strcpy_blk (b := List.replicate T (some '\x00')) (s := text) (by dsimp only; rw [get_snoc, if_pos rfl])
      hcs hloc (by simp; omega), hblk]
    dsimp only
    rw [List.set_append_right _ _ (Nat.le_refl _)]
    simp
  -- if a new buffer is made
  have fresh : (n : Int) + text.length ≥ st.ds.appendSize →
      ∃ st', dstrSetup st n = .ok st' ∧ Ready base st' text S cus st.heap.length m := by
    intro hge
    have hres : dstrSetup st n = .ok ⟨kill st.heap O ++ [some (bytesOf text ++ List.replicate (m + 1) (some '\x00'))],
        { st.ds with
          data := ⟨.blk st.heap.length, 0⟩
          freeProc := .static
          appendData := some st.heap.length
          appendSize := T
          appendUsed := text.length }, cus⟩ := by
      unfold dstrSetup
      rw [hused, bind_ok]
      unfold dstrGrow
      dsimp only
      rw [chkInt_ok (by omega) (by omega), bind_ok, if_pos hge]
      have hT' : ∀ f : Int → M DState, ((if ((n : Int) + text.length) < 100 then (.ok 200 : M Int) else
          chkInt (((n : Int) + text.length) * 2)) >>= f) = f T := by
        intro f; rw [hT, bind_ok]
      have hstep : ∀ (f : Int → M DState), (if ((n : Int) + text.length) < 100 then (do
            let total ← (.ok 200 : M Int)
            f total) else (do
            let total ← chkInt (((n : Int) + text.length) * 2)
            f total)) = f T := by
        intro f
        rw [← hT' f]
        split <;> rfl
      rw [hstep]
      unfold DState.malloc
      dsimp only
      rw [Int.toNat_natCast, hcopy, bind_ok]
      cases hm with
      | inline k1 k2 k3 k4 k5 =>
        dsimp only
        rw [k3]
        dsimp only
        rw [bind_ok, bind_ok]
        unfold dstrFree
        dsimp only
        rw [k2, if_neg (by simp), bind_ok]
        dsimp only
        rw [← hlog]
        simp [kill, k2]
      | const a k1 k2 k3 k4 k5 =>
        dsimp only
        rw [k3]
        dsimp only
        rw [bind_ok, bind_ok]
        unfold dstrFree
        dsimp only
        rw [k2, if_neg (by simp), bind_ok]
        dsimp only
        rw [← hlog]
        simp [kill, k2]
      | dynamic a k1 k2 k3 k4 k5 =>
        have hlt := hO a (by simp)
        dsimp only
        rw [k3]
        dsimp only
        rw [bind_ok, bind_ok]
        unfold dstrFree
        dsimp only
        rw [k2, if_pos (by simp)]
        unfold DState.release
        dsimp only
        rw [k1, free_blk (b := strBytes text) (by dsimp only; rw [get_snoc, if_neg (by omega)]; exact k5), bind_ok, bind_ok]
        dsimp only
        rw [List.set_append_left _ _ hlt, ← hlog]
        simp [kill]
      | custom a k k1 k2 k3 k4 k5 =>
        have hlt := hO a (by simp)
        dsimp only
        rw [k3]
        dsimp only
        rw [bind_ok, bind_ok]
        unfold dstrFree
        dsimp only
        rw [k2, if_pos (by simp)]
        unfold DState.release
        dsimp only
        rw [k1]
        dsimp only
        rw [cstr_blk (b := strBytes text) (by dsimp only; rw [get_snoc, if_neg (by omega)]; exact k5),
          scanStr_strBytes nn, bind_ok, bind_ok, bind_ok]
        dsimp only
        rw [List.set_append_left _ _ hlt, ← hlog]
        simp [kill]
      | append a m' k1 k2 k3 k4 k5 k6 k7 =>
        have hlt := hO a (by simp)
        dsimp only
        rw [k3]
        dsimp only
        rw [free_blk (b := _) (by dsimp only; rw [get_snoc, if_neg (by omega)]; exact k7), bind_ok, bind_ok]
        unfold dstrFree
        dsimp only
        rw [k2, if_neg (by simp), bind_ok]
        dsimp only
        rw [List.set_append_left _ _ hlt, ← hlog]
        simp [kill, k2]
    refine ⟨_, hres, ⟨rfl, rfl, rfl, by dsimp only; omega, rfl, ?_, sb, ?_, rfl⟩⟩
    · dsimp only
      rw [get_snoc, if_pos (kill_length _ _).symm]
    · have := hh
      rw [← List.append_nil O] at this
      have := this.kill.malloc (bytesOf text ++ List.replicate (m + 1) (some '\x00'))
      rwa [kill_length] at this
  by_cases hge : (n : Int) + text.length ≥ st.ds.appendSize
  · obtain ⟨st', h1, h2⟩ := fresh hge
    exact ⟨st', _, m, h1, h2, by omega⟩
  · cases hm with
    | inline k1 k2 k3 k4 k5 => rw [k4] at hge; omega
    | const a k1 k2 k3 k4 k5 => rw [k4] at hge; omega
    | dynamic a k1 k2 k3 k4 k5 => rw [k4] at hge; omega
    | custom a k k1 k2 k3 k4 k5 => rw [k4] at hge; omega
    | append a m' k1 k2 k3 k4 k5 k6 k7 =>
      have hres : dstrSetup st n = .ok ⟨st.heap, { st.ds with appendUsed := text.length }, st.log⟩ := by
        unfold dstrSetup
        rw [hused, bind_ok]
        unfold dstrGrow
        dsimp only
        rw [chkInt_ok (by omega) (by omega), bind_ok, if_neg hge, k3]
        dsimp only
        rw [if_neg (by simp [k1]), bind_ok]
        unfold dstrFree
        dsimp only
        rw [k2, if_neg (by simp), bind_ok]
        dsimp only
        rw [k1]
      refine ⟨_, a, m', hres, ⟨k1, k2, k3, k4, rfl, k7, sb, hh, by simpa using hlog⟩, by omega⟩

/-- Appending to a buffer that is ready. -/
theorem Ready.append {a m : Nat} (h : Ready base st text S cus a m) (nn : '\x00' ∉ text) {s : CStr}
    (hs : '\x00' ∉ s) (hl : s.length ≤ m) :
    ∃ st', st.write ⟨.blk a, text.length⟩ (bytesOf s) = .ok st' ∧ DInv base st' (text ++ s) S cus ∧
      st'.ds.data = st.ds.data := by
  have hw := write_blk (o := text.length) (src := bytesOf s) h.blk (by simp; omega)
  refine ⟨_, hw, ⟨by simp [nn, hs], h.sb, [a], [], h.heap.write (by simp) _, .append a (m - s.length) h.data h.free h.app
    ?_ ?_ ?_ ?_, by simpa using h.log⟩, rfl⟩
  · rw [h.size]; simp; omega
  · rw [h.used]; omega
  · rw [h.used]; simp
  · dsimp only
    rw [List.getElem?_set_self (lt_of_live h.blk)]
    congr 2
    rw [List.take_append_of_le_length (by simp), List.take_of_length_le (by simp), List.drop_append,
      List.drop_eq_nil_of_le (by simp), List.drop_replicate]
    have : m + 1 - (text.length + (bytesOf s).length - (bytesOf text).length) = m - s.length + 1 := by simp; omega
    rw [this]
    simp [bytesOf]

theorem Ready.cstr {a m : Nat} (h : Ready base st text S cus a m) (nn : '\x00' ∉ text) :
    st.cstr st.ds.data = .ok text := by
  rw [h.data, cstr_blk h.blk, List.replicate_succ, scanStr_str nn]

/-- `arg_dstr_cat`; afterwards the value is in a block that the object owns. -/
theorem DInv.cat_own (h : DInv base st text S cus) {t : Nat} {b : List Byte} {s : CStr} (ht : (t, b) ∈ S)
    (hbs : scanStr b = .ok s) (hs : '\x00' ∉ s) (hb : 2 * (text.length + s.length + 1) ≤ 2147483647) :
    ∃ st', dstrCat st ⟨.blk t, 0⟩ = .ok st' ∧ DInv base st' (text ++ s) S cus ∧ Detached st' S ∧
      ∃ a, base.length ≤ a ∧ st'.ds.data = ⟨.blk a, 0⟩ := by
  have nn := h.nn
  obtain ⟨O, pend, hh, -, -⟩ := h.main
  obtain ⟨st1, a, m, e1, hr, hm⟩ := h.setup (n := s.length + 1) (by omega) (by omega)
  unfold dstrCat
  rw [cstr_blk (hh.user _ ht).2.1, hbs, bind_ok, chkInt_ok (by omega) (by omega), bind_ok]
  have e1' : dstrSetup st (s.length + 1) = .ok st1 := e1
  rw [e1', bind_ok, hr.cstr nn, bind_ok]
  have hu := hr.heap.user _ ht
  rw [cstr_blk hu.2.1, hbs, bind_ok]
  dsimp only
  rw [hr.data]
  dsimp only
  rw [if_neg, Nat.zero_add]
  · obtain ⟨st', w1, w2, w3⟩ := hr.append nn hs (by omega)
    refine ⟨st', w1, w2, fun e he => ?_, a, (hr.heap.own a (by simp)).1, by rw [w3, hr.data]⟩
    rw [w3, hr.data]
    intro hc
    cases hc
    exact (hr.heap.user _ he).2.2 (by simp)
  · unfold overlap
    rintro ⟨e, -⟩
    cases e
    exact hu.2.2 (by simp)

theorem DInv.cat (h : DInv base st text S cus) {t : Nat} {b : List Byte} {s : CStr} (ht : (t, b) ∈ S)
    (hbs : scanStr b = .ok s) (hs : '\x00' ∉ s) (hb : 2 * (text.length + s.length + 1) ≤ 2147483647) :
    ∃ st', dstrCat st ⟨.blk t, 0⟩ = .ok st' ∧ DInv base st' (text ++ s) S cus ∧ Detached st' S := by
  obtain ⟨st', h1, h2, h3, _⟩ := h.cat_own ht hbs hs hb
  exact ⟨st', h1, h2, h3⟩

theorem DInv.catc (h : DInv base st text S cus) {c : Char} (hc : c ≠ '\x00')
    (hb : 2 * (text.length + 2) ≤ 2147483647) :
    ∃ st', dstrCatc st c = .ok st' ∧ DInv base st' (text ++ [c]) S cus := by
  have nn := h.nn
  obtain ⟨st1, a, m, e1, hr, hm⟩ := h.setup (n := 2) (by omega) (by omega)
  unfold dstrCatc
  have e1' : dstrSetup st 2 = .ok st1 := e1
  rw [e1', bind_ok, hr.cstr nn, bind_ok, hr.data]
  dsimp only
  rw [Nat.zero_add]
  obtain ⟨st', w1, w2, -⟩ := hr.append nn (s := [c]) (by simpa using fun h => hc h.symm) (by simp; omega)
  exact ⟨st', w1, w2⟩

/-! ### the client's strings -/

theorem DInv.lend (h : DInv base st text S cus) (s : List Byte) :
    DInv base { st with heap := st.heap ++ [some s] } text (S ++ [(st.heap.length, s)]) cus := by
  obtain ⟨nn, sb, O, pend, hh, hm, hl⟩ := h
  refine ⟨nn, sb, O, pend, hh.lend s, ?_, hl⟩
  have up : ∀ {a : Nat} {b : List Byte}, st.heap[a]? = some (some b) →
      (st.heap ++ [some s])[a]? = some (some b) := by
    intro a b h
    have := lt_of_live h
    rw [get_snoc, if_neg (by omega)]; exact h
  cases hm with
  | inline k1 k2 k3 k4 k5 => exact .inline k1 k2 k3 k4 k5
  | const a k1 k2 k3 k4 k5 => exact .const a k1 k2 k3 k4 (up k5)
  | dynamic a k1 k2 k3 k4 k5 => exact .dynamic a k1 k2 k3 k4 (up k5)
  | custom a k k1 k2 k3 k4 k5 => exact .custom a k k1 k2 k3 k4 (up k5)
  | append a m k1 k2 k3 k4 k5 k6 k7 => exact .append a m k1 k2 k3 k4 k5 k6 (up k7)

/-- The client frees its latest string. -/
theorem DInv.unlend {t : Nat} {s : List Byte} (h : DInv base st text (S ++ [(t, s)]) cus)
    (hd : st.ds.data ≠ ⟨.blk t, 0⟩) :
    ∃ st', st.free ⟨.blk t, 0⟩ = .ok st' ∧ DInv base st' text S cus ∧ st'.ds = st.ds := by
  obtain ⟨nn, sb, O, pend, hh, hm, hl⟩ := h
  have hu := hh.user (t, s) (by simp)
  have down : ∀ {a : Nat} {b : List Byte}, st.ds.data = ⟨.blk a, 0⟩ → st.heap[a]? = some (some b) →
      (st.heap.set t none)[a]? = some (some b) := by
    intro a b h1 h2
    rw [List.getElem?_set_ne]; · exact h2
    rintro rfl
    exact hd h1
  refine ⟨_, free_blk hu.2.1, ⟨nn, sb, O, pend, hh.give.free, ?_, hl⟩, rfl⟩
  cases hm with
  | inline k1 k2 k3 k4 k5 => exact .inline k1 k2 k3 k4 k5
  | const a k1 k2 k3 k4 k5 => exact .const a k1 k2 k3 k4 (down k1 k5)
  | dynamic a k1 k2 k3 k4 k5 => exact .dynamic a k1 k2 k3 k4 (down k1 k5)
  | custom a k k1 k2 k3 k4 k5 => exact .custom a k k1 k2 k3 k4 (down k1 k5)
  | append a m k1 k2 k3 k4 k5 k6 k7 => exact .append a m k1 k2 k3 k4 k5 k6 (down k1 k7)

/-! ### formatted text -/

/-- A scratch buffer that is filled. -/
theorem vsnprintf_eq (st : DState) (n : Nat) (text : CStr) :
    vsnprintf { st with heap := st.heap ++ [some (List.replicate (n + 2) (some '\x00'))] } st.heap.length n text =
      .ok { st with heap := st.heap ++ [some (strBytes (text.take n) ++
        List.replicate (n + 1 - (text.take n).length) (some '\x00'))] } := by
  unfold vsnprintf
  rw [write_blk (b := List.replicate (n + 2) (some '\x00')) (by dsimp only; rw [get_snoc, if_pos rfl])
    (by simp)]
  dsimp only
  rw [List.set_append_right _ _ (Nat.le_refl _), Nat.sub_self]
  simp [strBytes, bytesOf]

/-- One round of the loop, in a state `st` with the next size `n`. -/
theorem catfLoop_succ (st : DState) (text : CStr) (ht : '\x00' ∉ text) (n k : Nat) (hn : n + 2 ≤ 2147483647)
    (hl : text.length ≤ 1073741823) (hn2 : n ≤ 1073741823) :
    catfLoop text (k + 1) st n =
      if text.length < n then .ok (st.heap.length, { st with heap := st.heap ++
        [some (strBytes text ++ List.replicate (n + 1 - text.length) (some '\x00'))] })
      else catfLoop text k { st with heap := st.heap ++ [none] }
        (if text.length > n then (text.length : Int) else ((n + n : Nat) : Int)) := by
  rw [catfLoop, chkInt_ok (by omega) (by omega), bind_ok]
  unfold DState.malloc
  dsimp only
  have e : ((n : Int) + 2).toNat = n + 2 := by omega
  rw [e, Int.toNat_natCast, vsnprintf_eq, bind_ok, chkInt_ok (by omega) (by omega), bind_ok]
  have ht' : '\x00' ∉ text.take n := fun h => ht (List.mem_of_mem_take h)
  rw [cstr_blk (b := _) (by dsimp only; rw [get_snoc, if_pos rfl]), strBytes_eq, List.append_assoc]
  rw [List.singleton_append, scanStr_str ht', bind_ok]
  by_cases hlt : text.length < n
  · rw [if_pos hlt, if_pos (by rw [List.length_take]; omega)]
    rw [List.take_of_length_le (by omega), strBytes_eq, List.append_assoc]
    rfl
  · rw [if_neg hlt, if_neg (by rw [List.length_take]; omega)]
    have hfree : (DState.mk (st.heap ++ [some (bytesOf (text.take n) ++ some '\x00' ::
        List.replicate (n + 1 - (text.take n).length) (some '\x00'))]) st.ds st.log).free ⟨.blk st.heap.length, 0⟩ =
        .ok ⟨st.heap ++ [none], st.ds, st.log⟩ := by
      rw [free_blk (b := _) (by dsimp only; rw [get_snoc, if_pos rfl])]
      dsimp only
      rw [List.set_append_right _ _ (Nat.le_refl _), Nat.sub_self]
      rfl
    by_cases hgt : text.length > n
    · rw [if_pos (by omega), if_pos hgt, bind_ok, hfree, bind_ok]
    · rw [if_neg (by omega), if_neg hgt, chkInt_ok (by omega) (by omega), bind_ok, hfree, bind_ok]
      simp

theorem DInv.dead (h : DInv base st text S cus) : DInv base { st with heap := st.heap ++ [none] } text S cus := by
  have h1 := h.lend []
  have hd : st.ds.data ≠ ⟨.blk st.heap.length, 0⟩ := by
    intro e
    have := h.cstr
    unfold dstrCstr at this
    rw [e] at this
    unfold DState.cstr DState.bytes at this
    dsimp only at this
    rw [List.getElem?_eq_none (by omega)] at this
    cases this
  obtain ⟨st', e1, e2, e3⟩ := h1.unlend hd
  rw [free_blk (b := []) (by dsimp only; rw [get_snoc, if_pos rfl])] at e1
  cases e1
  dsimp only at e2
  rw [List.set_append_right _ _ (Nat.le_refl _), Nat.sub_self] at e2
  exact e2

/-- The loop ends with the whole text in a buffer. -/
theorem DInv.catfLoop (t : CStr) (ht : '\x00' ∉ t) (hl : t.length ≤ 500000000) (h : DInv base st text S cus) (n : Nat)
    (hn : n ≤ 1000000000) (h0 : 0 < n) :
    ∃ (st' : DState) (b : List Byte), Argtable.catfLoop t (t.length + 2) st n =
        .ok (st'.heap.length, { st' with heap := st'.heap ++ [some b] }) ∧
      DInv base st' text S cus ∧ scanStr b = .ok t := by
  have fin : ∀ (st1 : DState), DInv base st1 text S cus → ∀ (n k : Nat), n ≤ 1000000000 → t.length < n →
      ∃ (st' : DState) (b : List Byte), Argtable.catfLoop t (k + 1) st1 n =
        .ok (st'.heap.length, { st' with heap := st'.heap ++ [some b] }) ∧
      DInv base st' text S cus ∧ scanStr b = .ok t := by
    intro st1 hi n k hn hlt
    rw [catfLoop_succ st1 t ht n k (by omega) (by omega) (by omega), if_pos hlt]
    refine ⟨st1, _, rfl, hi, ?_⟩
    rw [strBytes_eq, List.append_assoc]
    exact scanStr_str ht _
  by_cases h1 : t.length < n
  · exact fin st h n _ hn h1
  · rw [show t.length + 2 = (t.length + 1) + 1 from rfl, catfLoop_succ st t ht n _ (by omega) (by omega) (by omega),
      if_neg h1]
    by_cases h2 : t.length > n
    · obtain ⟨j, hj⟩ : ∃ j, t.length = j + 1 := ⟨t.length - 1, by omega⟩
      rw [if_pos h2, show t.length + 1 = (j + 1) + 1 by omega,
        catfLoop_succ _ t ht t.length _ (by omega) (by omega) (by omega), if_neg (by omega), if_neg (by omega)]
      exact fin _ h.dead.dead _ j (by omega) (by omega)
    · rw [if_neg h2]
      exact fin _ h.dead _ _ (by omega) (by omega)

theorem DInv.catf (h : DInv base st text S cus) {l : Nat} {t : CStr} (ht : '\x00' ∉ t)
    (hb : text.length + t.length ≤ 500000000) (hl : l ≤ 500000000) :
    ∃ st', dstrCatf st (some l) t = .ok st' ∧ DInv base st' (text ++ t) S cus := by
  unfold dstrCatf
  dsimp only
  rw [chkInt_ok (by omega) (by omega), bind_ok]
  obtain ⟨n, hn, hn1, hn2⟩ : ∃ n : Nat, (if (2 * (l : Int)) < 16 then (16 : Int) else 2 * l) = n ∧ n ≤ 1000000000 ∧ 0 < n := by
    split
    · exact ⟨16, rfl, by omega, by omega⟩
    · exact ⟨2 * l, by omega, by omega, by omega⟩
  rw [hn]
  obtain ⟨st1, b, e1, h1, hb1⟩ := DInv.catfLoop t ht (by omega) h n hn1 hn2
  rw [e1, bind_ok]
  dsimp only
  obtain ⟨st2, e2, h2, hd⟩ := (h1.lend b).cat (t := st1.heap.length) (b := b) (by simp) hb1 ht (by omega)
  rw [e2, bind_ok]
  obtain ⟨st3, e3, h3, -⟩ := h2.unlend (hd (st1.heap.length, b) (by simp))
  exact ⟨st3, e3, h3⟩

end

/-! ### scripts -/

theorem live_drop : ∀ (L : Heap) (n : Nat) (S : List (Nat × List Byte)), (S.map (·.1)).Pairwise (· < ·) →
    (∀ e ∈ S, n ≤ e.1 ∧ L[e.1 - n]? = some (some e.2)) →
    (∀ i b, L[i]? = some (some b) → (n + i, b) ∈ S) → L.filterMap id = S.map (·.2) := by
  intro L
  induction L with
  | nil =>
    intro n S _ h1 _
    cases S with
    | nil => rfl
    | cons e S => have := (h1 e (by simp)).2; simp at this
  | cons x L ih =>
    intro n S hs h1 h2
    have tail : ∀ S' : List (Nat × List Byte), (S'.map (·.1)).Pairwise (· < ·) → (∀ e ∈ S', e ∈ S) → (∀ e ∈ S', n < e.1) →
        (∀ e ∈ S, n < e.1 → e ∈ S') → L.filterMap id = S'.map (·.2) := by
      intro S' hs' hsub hgt hall
      refine ih (n + 1) S' hs' (fun e he => ?_) (fun i b hi => ?_)
      · obtain ⟨_, h⟩ := h1 e (hsub e he)
        have := hgt e he
        rw [show e.1 - n = (e.1 - (n + 1)) + 1 by omega, List.getElem?_cons_succ] at h
        exact ⟨this, h⟩
      · have := h2 (i + 1) b (by simpa using hi)
        rw [show n + 1 + i = n + (i + 1) by omega]
        exact hall _ this (by dsimp only; omega)
    cases x with
    | none =>
      rw [List.filterMap_cons_none rfl]
      refine tail S hs (fun _ h => h) (fun e he => ?_) (fun _ h _ => h)
      obtain ⟨h3, h4⟩ := h1 e he
      by_cases hz : e.1 = n
      · rw [hz, Nat.sub_self] at h4; simp at h4
      · omega
    | some b =>
      rw [List.filterMap_cons_some (f := id) (b := b) rfl]
      have hm : (n, b) ∈ S := by simpa using h2 0 b (by simp)
      cases S with
      | nil => cases hm
      | cons e S =>
        rw [List.map_cons, List.pairwise_cons] at hs
        have he := (h1 e (by simp)).1
        have hnot : ∀ e' ∈ S, e.1 < e'.1 := fun e' he' => hs.1 _ (List.mem_map.2 ⟨e', he', rfl⟩)
        have hen : e = (n, b) := by
          rcases List.mem_cons.1 hm with h | h
          · exact h.symm
          · have := hnot _ h; dsimp only at this; omega
        subst hen
        rw [List.map_cons]
        congr 1
        refine tail S hs.2 (fun _ h => List.mem_cons_of_mem _ h) hnot (fun e' he' hlt => ?_)
        rcases List.mem_cons.1 he' with rfl | h
        · exact absurd hlt (Nat.lt_irrefl _)
        · exact h

theorem HInv.liveBlocks {base heap : Heap} {S : List (Nat × List Byte)} (h : HInv base heap [] S) :
    Spec.liveBlocks heap = Spec.liveBlocks base ++ S.map (·.2) := by
  have e : heap = base ++ heap.drop base.length := by
    have h1 : heap.take base.length = base := by
      apply List.ext_getElem?
      intro i
      rw [List.getElem?_take]
      split
      · rename_i hi; exact h.frame i hi
      · rw [List.getElem?_eq_none (by omega)]
    conv_lhs => rw [← List.take_append_drop base.length heap, h1]
  unfold Spec.liveBlocks
  rw [e, List.filterMap_append]
  congr 1
  refine live_drop _ base.length S h.sorted (fun e he => ?_) (fun i b hi => ?_)
  · obtain ⟨h1, h2, -⟩ := h.user e he
    rw [List.getElem?_drop]
    exact ⟨h1, by rw [show base.length + (e.1 - base.length) = e.1 by omega]; exact h2⟩
  · rw [List.getElem?_drop] at hi
    rcases h.live _ b (by omega) hi with h1 | ⟨s, h1⟩
    · cases h1
    · have := (h.user _ h1).2.1
      rw [hi] at this
      cases this
      exact h1

theorem DInv.exec {base : Heap} {st : DState} {text : CStr} {S : List (Nat × List Byte)} {cus : List (Nat × CStr)}
    (h : DInv base st text S cus) (c : DCmd) (hc : c.Proper) (hb : text.length + c.size ≤ 500000000) :
    ∃ st' S', c.exec st = .ok st' ∧ DInv base st' (c.after text) S' (cus ++ c.custom) ∧
      S'.map (·.2) = S.map (·.2) ++ c.static.map strBytes := by
  cases c with
  | setNull =>
    obtain ⟨st', e, h'⟩ := h.setNull
    exact ⟨st', S, e, by simpa [DCmd.custom, DCmd.after] using h', by simp [DCmd.static]⟩
  | setVolatile s =>
    simp only [DCmd.Proper, DCmd.size] at hc hb
    have h1 := h.lend (strBytes s)
    have hcs : (DState.mk (st.heap ++ [some (strBytes s)]) st.ds st.log).cstr ⟨.blk st.heap.length, 0⟩ = .ok s := by
      rw [cstr_blk (b := strBytes s) (by dsimp only; rw [get_snoc, if_pos rfl]), scanStr_strBytes hc]
    obtain ⟨st', e, h', hd⟩ := h1.setCopy hcs hc (by omega) (by simp)
    obtain ⟨st2, e2, h2, -⟩ := h'.unlend (hd (st.heap.length, strBytes s) (by simp))
    refine ⟨st2, S, ?_, by simpa [DCmd.custom, DCmd.after] using h2, by simp [DCmd.static]⟩
    unfold DCmd.exec DState.malloc
    dsimp only
    rw [e, bind_ok]
    exact e2
  | setStatic s =>
    simp only [DCmd.Proper, DCmd.size] at hc hb
    obtain ⟨st', e, h'⟩ := (h.lend (strBytes s)).setStatic (t := st.heap.length) (by simp) hc
    exact ⟨st', _, e, by simpa [DCmd.custom, DCmd.after] using h', by simp [DCmd.static]⟩
  | setDynamic s =>
    simp only [DCmd.Proper, DCmd.size] at hc hb
    obtain ⟨st', e, h'⟩ := (h.lend (strBytes s)).setDynamic hc
    exact ⟨st', S, e, by simpa [DCmd.custom, DCmd.after] using h', by simp [DCmd.static]⟩
  | setCustom k s =>
    simp only [DCmd.Proper, DCmd.size] at hc hb
    obtain ⟨st', e, h'⟩ := (h.lend (strBytes s)).setCustom hc k
    exact ⟨st', S, e, h', by simp [DCmd.static]⟩
  | cat s =>
    simp only [DCmd.Proper, DCmd.size] at hc hb
    obtain ⟨st', e, h', hd⟩ := (h.lend (strBytes s)).cat (t := st.heap.length) (b := strBytes s) (by simp)
      (scanStr_strBytes hc) hc (by omega)
    obtain ⟨st2, e2, h2, -⟩ := h'.unlend (hd (st.heap.length, strBytes s) (by simp))
    refine ⟨st2, S, ?_, by simpa [DCmd.custom, DCmd.after] using h2, by simp [DCmd.static]⟩
    unfold DCmd.exec DState.malloc
    dsimp only
    rw [e, bind_ok]
    exact e2
  | catc c =>
    simp only [DCmd.Proper, DCmd.size] at hc hb
    obtain ⟨st', e, h'⟩ := h.catc hc (by omega)
    exact ⟨st', S, e, by simpa [DCmd.custom, DCmd.after] using h', by simp [DCmd.static]⟩
  | catf l t =>
    simp only [DCmd.Proper, DCmd.size] at hc hb
    cases l with
    | none => exact ⟨st, S, rfl, by simpa [DCmd.custom, DCmd.after] using h, by simp [DCmd.static]⟩
    | some l =>
      simp only [Option.getD] at hb
      obtain ⟨st', e, h'⟩ := h.catf (l := l) hc (by omega) (by omega)
      exact ⟨st', S, e, by simpa [DCmd.custom, DCmd.after] using h', by simp [DCmd.static]⟩
  | reset =>
    obtain ⟨st', e, h', -, -⟩ := h.reset
    exact ⟨st', S, e, by simpa [DCmd.custom, DCmd.after] using h', by simp [DCmd.static]⟩

theorem after_length (text : CStr) (c : DCmd) : (c.after text).length ≤ text.length + c.size := by
  cases c with
  | catf l t => cases l <;> simp [DCmd.after, DCmd.size]
  | _ => simp [DCmd.after, DCmd.size]

theorem DInv.execAll {base : Heap} : ∀ (cmds : List DCmd) {st : DState} {text : CStr} {S : List (Nat × List Byte)}
    {cus : List (Nat × CStr)}, DInv base st text S cus → (∀ c ∈ cmds, c.Proper) →
    text.length + (cmds.map DCmd.size).sum ≤ 500000000 →
    ∃ st' S', Spec.execAll st cmds = .ok st' ∧
      DInv base st' (cmds.foldl DCmd.after text) S' (cus ++ cmds.flatMap DCmd.custom) ∧
      S'.map (·.2) = S.map (·.2) ++ (cmds.flatMap DCmd.static).map strBytes := by
  intro cmds
  induction cmds with
  | nil => intro st text S cus h _ _; exact ⟨st, S, rfl, by simpa using h, by simp⟩
  | cons c cmds ih =>
    intro st text S cus h hp hb
    simp only [List.map_cons, List.sum_cons] at hb
    obtain ⟨st1, S1, e1, h1, hs1⟩ := h.exec c (hp c (by simp)) (by omega)
    have := after_length text c
    obtain ⟨st2, S2, e2, h2, hs2⟩ := ih h1 (fun c hc => hp c (by simp [hc])) (by omega)
    refine ⟨st2, S2, ?_, ?_, ?_⟩
    · unfold Spec.execAll; rw [e1, bind_ok]; exact e2
    · simpa [List.flatMap_cons] using h2
    · rw [hs2, hs1]; simp [List.flatMap_cons]

theorem foldl_length (cmds : List DCmd) : ∀ text : CStr,
    (cmds.foldl DCmd.after text).length ≤ text.length + (cmds.map DCmd.size).sum := by
  induction cmds with
  | nil => intro text; simp
  | cons c cmds ih =>
    intro text
    have := ih (c.after text)
    have := after_length text c
    simp only [List.foldl_cons, List.map_cons, List.sum_cons]
    omega

theorem contents_length {cmds : List DCmd} {n : Nat} (h : (cmds.map DCmd.size).sum ≤ n) :
    (contents cmds).length ≤ n := by
  have := foldl_length cmds []
  unfold contents
  simp at this ⊢
  omega

theorem scanStr_drop : ∀ {b : List Byte} {s : CStr}, scanStr b = .ok s → ∀ k ≤ s.length,
    k ≤ b.length ∧ scanStr (b.drop k) = .ok (s.drop k) := by
  intro b
  induction b with
  | nil => intro s h; cases h
  | cons x b ih =>
    intro s h k hk
    cases k with
    | zero => exact ⟨Nat.zero_le _, h⟩
    | succ k =>
      cases x with
      | none => cases h
      | some c =>
        rw [scanStr] at h
        split at h
        · cases h; simp at hk
        · cases hb : scanStr b with
          | error e => rw [hb] at h; cases h
          | ok r =>
            rw [hb] at h
            cases h
            obtain ⟨h1, h2⟩ := ih hb k (by simpa using hk)
            exact ⟨by simpa using h1, h2⟩

theorem cstr_drop {st : DState} {p : Ptr} {s : CStr} (h : st.cstr p = .ok s) {k : Nat} (hk : k ≤ s.length) :
    st.cstr { p with off := p.off + k } = .ok (s.drop k) := by
  unfold DState.cstr at h ⊢
  dsimp only
  cases hb : st.bytes p.loc with
  | error e => rw [hb] at h; cases h
  | ok b =>
    rw [hb, bind_ok] at h
    rw [bind_ok]
    split at h
    · obtain ⟨h1, h2⟩ := scanStr_drop h k hk
      rw [List.length_drop] at h1
      rw [if_pos (by omega), ← h2, List.drop_drop]
    · cases h

end Argtable
