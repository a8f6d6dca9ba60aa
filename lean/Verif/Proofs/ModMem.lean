import Verif.Spec.Module
import Verif.Proofs.Help
import Verif.Proofs.Stream
/-!
# The module name and version and their memory: proofs
-/

namespace Argtable

open Spec

variable {base heap : Heap} {O : List Nat} {S : List (Nat × List Byte)}

theorem HInv.perm {O' : List Nat} (h : HInv base heap O S) (hp : O.Perm O') : HInv base heap O' S where
  len := h.len
  frame := h.frame
  user e he := by
    obtain ⟨h1, h2, h3⟩ := h.user e he
    exact ⟨h1, h2, fun hc => h3 (hp.mem_iff.mpr hc)⟩
  own a ha := h.own a (hp.mem_iff.mpr ha)
  nodup := hp.nodup_iff.mp h.nodup
  live a b ha hl := by
    rcases h.live a b ha hl with h1 | h1
    · exact Or.inl (hp.mem_iff.mp h1)
    · exact Or.inr h1
  sorted := h.sorted

/-- Two stages. -/
theorem HInv.comp {heap' : Heap} {O' : List Nat} (h : HInv base heap O []) (h' : HInv heap heap' O' S) :
    HInv base heap' (O' ++ (S.map (·.1) ++ O)) [] where
  len := Nat.le_trans h.len h'.len
  frame a ha := by
    rw [h'.frame a (Nat.lt_of_lt_of_le ha h.len)]
    exact h.frame a ha
  user e he := by cases he
  own a ha := by
    rcases List.mem_append.1 ha with ha | ha
    · obtain ⟨h1, h2⟩ := h'.own a ha
      exact ⟨Nat.le_trans h.len h1, h2⟩
    rcases List.mem_append.1 ha with ha | ha
    · obtain ⟨e, he, rfl⟩ := List.mem_map.1 ha
      obtain ⟨h1, h2, _⟩ := h'.user e he
      exact ⟨Nat.le_trans h.len h1, _, h2⟩
    · obtain ⟨h1, b, h2⟩ := h.own a ha
      exact ⟨h1, b, by rw [h'.frame a (lt_of_live h2)]; exact h2⟩
  nodup := by
    have hlow : ∀ a ∈ O, a < heap.length := by
      intro a ha
      obtain ⟨_, b, h2⟩ := h.own _ ha
      exact lt_of_live h2
    rw [List.nodup_append']
    refine ⟨h'.nodup, ?_, ?_⟩
    · rw [List.nodup_append']
      refine ⟨h'.sorted.imp (fun hlt => Nat.ne_of_lt hlt), h.nodup, ?_⟩
      intro a ha hb
      obtain ⟨e, he, rfl⟩ := List.mem_map.1 ha
      have := (h'.user e he).1
      have := hlow _ hb
      omega
    · intro a ha hb
      rcases List.mem_append.1 hb with hb | hb
      · obtain ⟨e, he, rfl⟩ := List.mem_map.1 hb
        exact (h'.user e he).2.2 ha
      · have := (h'.own a ha).1
        have := hlow _ hb
        omega
  live a b ha hl := by
    left
    by_cases hlt : a < heap.length
    · rw [h'.frame a hlt] at hl
      rcases h.live a b ha hl with h1 | ⟨s, h1⟩
      · exact List.mem_append_right _ (List.mem_append_right _ h1)
      · cases h1
    · rcases h'.live a b (by omega) hl with h1 | ⟨s, h1⟩
      · exact List.mem_append_left _ h1
      · exact List.mem_append_right _ (List.mem_append_left _ (List.mem_map.2 ⟨_, h1, rfl⟩))
  sorted := by simp

/-- A block of the base is released. -/
theorem HInv.unbase {a : Nat} (h : HInv base heap O S) (ha : a < base.length) :
    HInv (base.set a none) (heap.set a none) O S where
  len := by simpa using h.len
  frame x hx := by
    rw [List.length_set] at hx
    rw [List.getElem?_set, List.getElem?_set]
    have := h.len
    by_cases hax : a = x
    · rw [if_pos hax, if_pos hax, if_pos (by omega), if_pos (by omega)]
    · rw [if_neg hax, if_neg hax]; exact h.frame x hx
  user e he := by
    obtain ⟨h1, h2, h3⟩ := h.user e he
    refine ⟨by simpa using h1, ?_, h3⟩
    rw [List.getElem?_set_ne (by omega)]; exact h2
  own x hx := by
    obtain ⟨h1, b, h2⟩ := h.own x hx
    exact ⟨by simpa using h1, b, by rw [List.getElem?_set_ne (by omega)]; exact h2⟩
  nodup := h.nodup
  live x b hx hl := by
    rw [List.length_set] at hx
    rw [List.getElem?_set_ne (by omega)] at hl
    exact h.live x b hx hl
  sorted := h.sorted

theorem DInv.unbase {st : DState} {text : CStr} {cus : List (Nat × CStr)} {a : Nat} (h : DInv base st text S cus)
    (ha : a < base.length) (hd : st.ds.data ≠ ⟨.blk a, 0⟩) :
    DInv (base.set a none) { st with heap := st.heap.set a none } text S cus := by
  obtain ⟨nn, sb, O, pend, hh, hm, hl⟩ := h
  refine ⟨nn, sb, O, pend, hh.unbase ha, ?_, hl⟩
  have down : ∀ {x : Nat} {b : List Byte}, st.ds.data = ⟨.blk x, 0⟩ → st.heap[x]? = some (some b) →
      (st.heap.set a none)[x]? = some (some b) := by
    intro x b h1 h2
    rw [List.getElem?_set_ne]; · exact h2
    rintro rfl
    exact hd h1
  cases hm with
  | inline k1 k2 k3 k4 k5 => exact .inline k1 k2 k3 k4 k5
  | const a k1 k2 k3 k4 k5 => exact .const a k1 k2 k3 k4 (down k1 k5)
  | dynamic a k1 k2 k3 k4 k5 => exact .dynamic a k1 k2 k3 k4 (down k1 k5)
  | custom a k k1 k2 k3 k4 k5 => exact .custom a k k1 k2 k3 k4 (down k1 k5)
  | append a m k1 k2 k3 k4 k5 k6 k7 => exact .append a m k1 k2 k3 k4 k5 k6 (down k1 k7)

theorem live_set {heap : Heap} : ∀ {a : Nat} {b : List Byte}, heap[a]? = some (some b) →
    (liveBlocks heap).length = (liveBlocks (heap.set a none)).length + 1 := by
  unfold liveBlocks
  induction heap with
  | nil => intro a b h; simp at h
  | cons x heap ih =>
    intro a b h
    cases a with
    | zero =>
      simp only [List.getElem?_cons_zero, Option.some.injEq] at h
      subst h
      simp
    | succ a =>
      simp only [List.getElem?_cons_succ] at h
      have := ih h
      rw [List.set_cons_succ, List.filterMap_cons, List.filterMap_cons]
      cases x with
      | none => exact this
      | some y => simpa using this

theorem HInv.count : ∀ {O : List Nat} {heap : Heap}, HInv base heap O [] →
    (Spec.liveBlocks heap).length = (Spec.liveBlocks base).length + O.length := by
  intro O
  induction O with
  | nil => intro heap h; rw [h.liveBlocks]; simp
  | cons a O ih =>
    intro heap h
    obtain ⟨_, b, hb⟩ := h.own a (by simp)
    rw [live_set hb, ih h.free]
    simp; omega

theorem heapFree_own {a : Nat} (h : HInv base heap (a :: O) S) : heapFree a heap = .ok (heap.set a none) := by
  obtain ⟨_, b, hb⟩ := h.own a (by simp)
  unfold heapFree
  rw [hb]

theorem heapCopyStr_ok (s : CStr) (heap : Heap) :
    heapCopyStr s heap = .ok (heap.length, heap ++ [some (strBytes s)]) := by
  unfold heapCopyStr heapMalloc
  dsimp only
  have h1 : heapStore heap.length 0 (List.replicate (s.length + 1) (some '\x00'))
      (heap ++ [some (List.replicate (s.length + 1) none)]) =
      .ok (heap ++ [some (List.replicate (s.length + 1) (some '\x00'))]) := by
    unfold heapStore
    rw [List.getElem?_append_right (Nat.le_refl _), Nat.sub_self]
    simp
  rw [h1, bind_ok]
  have h2 : heapStore heap.length 0 (bytesOf s) (heap ++ [some (List.replicate (s.length + 1) (some '\x00'))]) =
      .ok (heap ++ [some (strBytes s)]) := by
    unfold heapStore
    rw [List.getElem?_append_right (Nat.le_refl _), Nat.sub_self]
    simp [bytesOf, strBytes]
  rw [h2, bind_ok]

theorem decText_nul (n : Int) : '\x00' ∉ decText n := by
  have hd : ∀ m : Nat, '\x00' ∉ Nat.toDigits 10 m := by
    intro m hm
    have := Nat.isDigit_of_mem_toDigits (by decide) (by decide) hm
    exact absurd this (by decide)
  unfold decText
  split
  · simp only [List.mem_cons, not_or]
    exact ⟨by decide, hd _⟩
  · exact hd _

theorem decText_length {n : Int} (h : -2147483648 ≤ n ∧ n ≤ 2147483647) : (decText n).length ≤ 11 := by
  have hl : (Nat.toDigits 10 n.natAbs).length ≤ 10 :=
    (Nat.length_toDigits_le_iff (by decide) (by decide)).2 (by omega)
  unfold decText
  split
  · simp; omega
  · omega

/-- Memory and the two strings agree; `L` are blocks that have been lost (by calls that ran out of memory). -/
structure ModInv (base : Heap) (m : ModMem) (i : ModInfo) (L : List Nat) : Prop where
  inv : HInv base m.heap (m.name.toList ++ m.tag.toList ++ m.ver.toList ++ L) []
  name : m.name.map (fun a => m.heap[a]?) = i.name.map (fun s => some (some (strBytes s)))
  ver : m.ver.map (fun a => m.heap[a]?) = i.ver.map (fun s => some (some (strBytes s)))
  nulName : ∀ s, i.name = some s → '\x00' ∉ s
  nulVer : ∀ s, i.ver = some s → '\x00' ∉ s

theorem ModInv.init (base : Heap) : ModInv base (modMemInit base) modInit [] where
  inv := ⟨Nat.le_refl _, fun _ _ => rfl, by simp, by simp [modMemInit], by simp [modMemInit], fun a b h1 h2 => by
    have := lt_of_live h2
    simp [modMemInit] at this; omega, by simp⟩
  name := rfl
  ver := rfl
  nulName := by simp [modInit]
  nulVer := by simp [modInit]

/-- Freeing what a variable points to. -/
theorem freeOpt_ok {p : Option Nat} (h : HInv base heap (p.toList ++ O) []) :
    ∃ heap', heapFreeOpt p heap = .ok heap' ∧ HInv base heap' O [] ∧
      (∀ a ∈ O, heap'[a]? = heap[a]?) ∧ heap' = p.elim heap (fun a => heap.set a none) := by
  cases p with
  | none => exact ⟨heap, rfl, h, fun _ _ => rfl, rfl⟩
  | some a =>
    have h' : HInv base heap (a :: O) [] := h
    refine ⟨_, heapFree_own h', h'.free, ?_, rfl⟩
    intro x hx
    rw [List.getElem?_set_ne]
    rintro rfl
    exact (List.nodup_cons.1 h'.nodup).1 hx

theorem perm_tag (N T V L : List Nat) : (N ++ T ++ V ++ L).Perm (T ++ (N ++ V ++ L)) := by
  rw [List.append_assoc, List.append_assoc N V, ← List.append_assoc T]
  exact List.perm_append_comm.append_right _

theorem mbind_inv {α β : Type} {x : M α} {k : α → M β} {b : β} (h : (x >>= k) = .ok b) : ∃ a, x = .ok a ∧ k a = .ok b := by
  cases x with
  | error e => cases h
  | ok a => exact ⟨a, rfl, h⟩

/-- The calls that return allocate tag and version together. -/
theorem both_run : ∀ (evs : List ModEvent) {m m' : ModMem}, m.tag.isSome = m.ver.isSome → runModsMem m evs = .ok m' →
    m'.tag.isSome = m'.ver.isSome := by
  intro evs
  induction evs with
  | nil => intro m m' h e; cases e; exact h
  | cons e evs ih =>
    intro m m' h he
    unfold runModsMem at he
    obtain ⟨m1, h1, h2⟩ := mbind_inv he
    refine ih ?_ h2
    cases e with
    | name n =>
      change setModuleNameMem n m = _ at h1
      unfold setModuleNameMem at h1
      obtain ⟨x, -, h1⟩ := mbind_inv h1
      obtain ⟨y, -, h1⟩ := mbind_inv h1
      cases h1
      exact h
    | version a b c t =>
      change setModuleVersionMem a b c t m = _ at h1
      unfold setModuleVersionMem at h1
      obtain ⟨_, -, h1⟩ := mbind_inv h1
      obtain ⟨_, -, h1⟩ := mbind_inv h1
      obtain ⟨_, -, h1⟩ := mbind_inv h1
      obtain ⟨_, -, h1⟩ := mbind_inv h1
      obtain ⟨_, -, h1⟩ := mbind_inv h1
      obtain ⟨_, -, h1⟩ := mbind_inv h1
      obtain ⟨_, -, h1⟩ := mbind_inv h1
      obtain ⟨_, -, h1⟩ := mbind_inv h1
      obtain ⟨_, -, h1⟩ := mbind_inv h1
      obtain ⟨_, -, h1⟩ := mbind_inv h1
      cases h1
      rfl

theorem ModInv.setName {m : ModMem} {i : ModInfo} (h : ModInv base m i L) {n : CStr} (hn : '\x00' ∉ n) :
    ∃ m', setModuleNameMem n m = .ok m' ∧ ModInv base m' (setModuleName i n) L ∧ ∀ y ∈ L, m'.heap[y]? = m.heap[y]? := by
  have hi : HInv base m.heap (m.name.toList ++ (m.tag.toList ++ m.ver.toList ++ L)) [] := by
    simpa [List.append_assoc] using h.inv
  obtain ⟨heap1, e1, h1, h2, _⟩ := freeOpt_ok hi
  refine ⟨{ m with heap := heap1 ++ [some (strBytes n)], name := some heap1.length }, ?_, ?_, ?_⟩
  · unfold setModuleNameMem
    rw [e1, bind_ok, heapCopyStr_ok, bind_ok]
  · refine ⟨?_, ?_, ?_, ?_, h.nulVer⟩
    · have := h1.malloc (strBytes n)
      simpa [List.append_assoc] using this
    · simp [setModuleName]
    · show m.ver.map (fun a => (heap1 ++ [some (strBytes n)])[a]?) = i.ver.map _
      rw [← h.ver]
      cases hv : m.ver with
      | none => rfl
      | some v =>
        rw [Option.map_some, Option.map_some]
        congr 1
        have hm : v ∈ m.tag.toList ++ m.ver.toList ++ L := by rw [hv]; simp
        obtain ⟨_, b, hb⟩ := h1.own v hm
        rw [get_snoc, if_neg (by have := lt_of_live hb; omega), h2 v hm]
    · intro s hs
      cases hs
      exact hn
  · intro y hy
    have hm : y ∈ m.tag.toList ++ m.ver.toList ++ L := List.mem_append_right _ hy
    obtain ⟨_, b, hb⟩ := h1.own y hm
    dsimp only
    rw [get_snoc, if_neg (by have := lt_of_live hb; omega), h2 y hm]

theorem ModInv.setVersion {m : ModMem} {i : ModInfo} (h : ModInv base m i L) {a b c : Int} {tag : CStr}
    (ht : '\x00' ∉ tag) (hl : tag.length ≤ 499000000) (ha : -2147483648 ≤ a ∧ a ≤ 2147483647)
    (hb : -2147483648 ≤ b ∧ b ≤ 2147483647) (hc : -2147483648 ≤ c ∧ c ≤ 2147483647) :
    ∃ m', setModuleVersionMem a b c tag m = .ok m' ∧ ModInv base m' (setModuleVersion i a b c tag) L ∧
      ∀ y ∈ L, m'.heap[y]? = m.heap[y]? := by
  have hi : HInv base m.heap (m.tag.toList ++ (m.name.toList ++ m.ver.toList ++ L)) [] := h.inv.perm (perm_tag _ _ _ _)
  obtain ⟨heap1, e1, h1, h2, _⟩ := freeOpt_ok hi
  have hda := decText_length ha
  have hdb := decText_length hb
  have hdc := decText_length hc
  have hcs : ∀ x : Int, '\x00' ∉ decText x ++ cs "." := by
    intro x
    simp only [List.mem_append, not_or]
    exact ⟨decText_nul x, by decide⟩
  have hcl : (cs ".").length = 1 := by decide
  -- the object, with the tag as a string of the client
  have hd0 : DInv heap1 (dstrCreate (heap1 ++ [some (strBytes tag)])) [] [(heap1.length, strBytes tag)] [] := by
    exact (DInv.create heap1).lend (strBytes tag)
  obtain ⟨st1, c1, d1⟩ := (appends_catf 3 (by decide) (decText a ++ cs ".")).run (hcs a) _ _ _ _ _ hd0
    (by simp only [List.length_append, List.length_nil]; omega)
  obtain ⟨st2, c2, d2⟩ := (appends_catf 3 (by decide) (decText b ++ cs ".")).run (hcs b) _ _ _ _ _ d1
    (by simp only [List.length_append, List.length_nil]; omega)
  obtain ⟨st3, c3, d3⟩ := (appends_catf 3 (by decide) (decText c ++ cs ".")).run (hcs c) _ _ _ _ _ d2
    (by simp only [List.length_append, List.length_nil]; omega)
  obtain ⟨st4, c4, d4, hdet, x, hx1, hx2⟩ := d3.cat_own (t := heap1.length) (b := strBytes tag) (by simp)
    (scanStr_strBytes ht) ht (by simp only [List.length_append, List.length_nil]; omega)
  let text := [] ++ (decText a ++ cs ".") ++ (decText b ++ cs ".") ++ (decText c ++ cs ".") ++ tag
  -- the old version goes
  have hver : ∃ heap2 st5, heapFreeOpt m.ver st4.heap = .ok st5 ∧
      DInv heap2 { st4 with heap := st5 } text [(heap1.length, strBytes tag)] [] ∧ HInv base heap2 (m.name.toList ++ L) [] ∧
      heap2.length = heap1.length ∧ (∀ y ∈ m.name.toList ++ L, heap2[y]? = heap1[y]?) := by
    cases hv : m.ver with
    | none =>
      rw [hv] at h1
      exact ⟨heap1, st4.heap, rfl, d4, by simpa using h1, rfl, fun _ _ => rfl⟩
    | some v =>
      rw [hv] at h1
      have h1' : HInv base heap1 (v :: (m.name.toList ++ L)) [] := h1.perm (by
        simpa [List.append_assoc] using (List.perm_append_comm (l₁ := m.name.toList) (l₂ := [v])).append_right L)
      obtain ⟨_, bb, hvb⟩ := h1'.own v (by simp)
      have hlt := lt_of_live hvb
      have d4' := d4
      obtain ⟨_, _, _, pend, hh, _, _⟩ := d4'
      have hv4 : st4.heap[v]? = some (some bb) := by rw [hh.frame v hlt]; exact hvb
      refine ⟨heap1.set v none, st4.heap.set v none, ?_, ?_, h1'.free, by simp, ?_⟩
      · show heapFree v st4.heap = _
        unfold heapFree
        rw [hv4]
      · refine DInv.unbase d4 hlt ?_
        rw [hx2]
        intro he
        cases he
        omega
      · intro y hy
        rw [List.getElem?_set_ne]
        rintro rfl
        exact (List.nodup_cons.1 h1'.nodup).1 hy
  obtain ⟨heap2, heap5, e2, d5, h3, hlen, hname⟩ := hver
  have d6 := d5.lend (strBytes text)
  obtain ⟨st7, r1, _, r2, r3⟩ := d6.reset
  have hh := h3.comp r3
  refine ⟨{ heap := st7.heap, name := m.name, tag := some heap1.length, ver := some heap5.length }, ?_, ?_, ?_⟩
  · unfold setModuleVersionMem
    rw [e1, bind_ok, heapCopyStr_ok, bind_ok]
    dsimp only
    rw [c1, bind_ok, c2, bind_ok, c3, bind_ok, c4, bind_ok, e2, bind_ok, d5.cstr, bind_ok, heapCopyStr_ok, bind_ok]
    dsimp only
    unfold dstrDestroy
    rw [r1, bind_ok, bind_ok]
  · have hu1 := r3.user (heap1.length, strBytes tag) (by simp)
    have hu2 := r3.user (heap5.length, strBytes text) (by simp)
    refine ⟨?_, ?_, ?_, h.nulName, ?_⟩
    · refine hh.perm ?_
      simp only [List.map_append, List.map_cons, List.map_nil, Option.toList_some, List.nil_append]
      rw [← List.append_assoc, List.append_assoc m.name.toList]
      exact List.perm_append_comm.append_right L
    · show m.name.map (fun y => st7.heap[y]?) = i.name.map _
      rw [← h.name]
      cases hn : m.name with
      | none => rfl
      | some y =>
        rw [Option.map_some, Option.map_some]
        congr 1
        have hm : y ∈ m.name.toList := by rw [hn]; simp
        obtain ⟨_, bb, hyb⟩ := h3.own y (List.mem_append_left _ hm)
        rw [r3.frame y (lt_of_live hyb), hname y (List.mem_append_left _ hm),
          h2 y (List.mem_append_left _ (List.mem_append_left _ hm))]
    · show (some (st7.heap[heap5.length]?) : Option _) = some (some (some (strBytes text)))
      rw [hu2.2.1]
    · intro s hs
      cases hs
      exact d5.nn
  · intro y hy
    obtain ⟨_, bb, hyb⟩ := h3.own y (List.mem_append_right _ hy)
    dsimp only
    rw [r3.frame y (lt_of_live hyb), hname y (List.mem_append_right _ hy), h2 y (List.mem_append_right _ hy)]

/-- One call. -/
theorem ModInv.event {m : ModMem} {i : ModInfo} (h : ModInv base m i L) {e : ModEvent} (he : e.Sane) :
    ∃ m', runModMem m e = .ok m' ∧ ModInv base m' (runMod i e) L ∧ ∀ y ∈ L, m'.heap[y]? = m.heap[y]? := by
  cases e with
  | name n => exact h.setName he
  | version a b c tag =>
    obtain ⟨h1, h2, h3⟩ := he
    exact h.setVersion h1 h2 (h3 a (by simp)) (h3 b (by simp)) (h3 c (by simp))

/-- A history. -/
theorem ModInv.run : ∀ (evs : List ModEvent) {m : ModMem} {i : ModInfo} {L : List Nat}, ModInv base m i L → (∀ e ∈ evs, e.Sane) →
    ∃ m', runModsMem m evs = .ok m' ∧ ModInv base m' (evs.foldl runMod i) L := by
  intro evs
  induction evs with
  | nil => intro m i L h _; exact ⟨m, rfl, h⟩
  | cons e evs ih =>
    intro m i L h hs
    obtain ⟨m1, e1, h1, -⟩ := h.event (hs e (by simp))
    obtain ⟨m2, e2, h2⟩ := ih h1 (fun e' he' => hs e' (by simp [he']))
    exact ⟨m2, by rw [runModsMem, e1, bind_ok, e2], h2⟩

theorem ModInv.moduleName {m : ModMem} {i : ModInfo} (h : ModInv base m i L) : moduleNameMem m = .ok (moduleName i) := by
  have hn := h.name
  unfold moduleNameMem Argtable.moduleName
  cases hm : m.name with
  | none =>
    cases hi : i.name with
    | none => rfl
    | some s => rw [hm, hi] at hn; simp at hn
  | some a =>
    cases hi : i.name with
    | none => rw [hm, hi] at hn; simp at hn
    | some s =>
      rw [hm, hi] at hn
      simp only [Option.map_some, Option.some.injEq] at hn
      dsimp only
      unfold heapStr
      rw [hn]
      dsimp only
      rw [scanStr_strBytes (h.nulName s hi), bind_ok]
      split <;> rfl

theorem ModInv.moduleVersion {m : ModMem} {i : ModInfo} (h : ModInv base m i L) :
    moduleVersionMem m = .ok (moduleVersion i) := by
  have hn := h.ver
  unfold moduleVersionMem Argtable.moduleVersion
  cases hm : m.ver with
  | none =>
    cases hi : i.ver with
    | none => rfl
    | some s => rw [hm, hi] at hn; simp at hn
  | some a =>
    cases hi : i.ver with
    | none => rw [hm, hi] at hn; simp at hn
    | some s =>
      rw [hm, hi] at hn
      simp only [Option.map_some, Option.some.injEq] at hn
      dsimp only
      unfold heapStr
      rw [hn]
      dsimp only
      rw [scanStr_strBytes (h.nulVer s hi), bind_ok]
      split <;> rfl

theorem foldl_isSome (evs : List ModEvent) :
    (evs.foldl runMod modInit).name.isSome = named evs ∧ (evs.foldl runMod modInit).ver.isSome = versioned evs := by
  induction evs using List.reverseRecOn with
  | nil => exact ⟨rfl, rfl⟩
  | append_singleton evs e ih =>
    rw [List.foldl_append]
    unfold named versioned at *
    rw [List.any_append, List.any_append]
    cases e with
    | name n =>
      refine ⟨?_, ?_⟩
      · show (some n).isSome = _
        simp
      · show (evs.foldl runMod modInit).ver.isSome = _
        rw [ih.2]; simp
    | version a b c t =>
      refine ⟨?_, ?_⟩
      · show (evs.foldl runMod modInit).name.isSome = _
        rw [ih.1]; simp
      · show (some _ : Option CStr).isSome = _
        simp

end Argtable
