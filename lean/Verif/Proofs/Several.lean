import Verif.Spec.Several
import Verif.Proofs.ModMem
/-!
# Several arg_dstr objects in one heap
-/

namespace Argtable
open Spec

/-- The value is not in one of these blocks, nor in one from before. -/
def Apart (base : Heap) (S : List (Nat × List Byte)) (d : Dstr) : Prop :=
  ∀ a, d.data.loc = .blk a → base.length ≤ a ∧ ∀ e ∈ S, e.1 ≠ a

section
variable {base : Heap} {st : DState} {text : CStr} {S : List (Nat × List Byte)} {cus : List (Nat × CStr)}

theorem free_ds {st st' : DState} {p : Ptr} (h : st.free p = .ok st') : st'.ds = st.ds := by
  unfold DState.free at h
  split at h
  · cases h
  · split at h
    · cases h
    · split at h
      · cases h; rfl
      · cases h

theorem release_ds {st st' : DState} {f : FreeFn} {p : Ptr} (h : st.release f p = .ok st') : st'.ds = st.ds := by
  unfold DState.release at h
  split at h
  · cases h; rfl
  · cases h
  · exact free_ds h
  · split at h
    · cases h
    · obtain ⟨s, -, h⟩ := mbind_inv h
      cases h; rfl

theorem freeAppend_data {st st' : DState} (h : dstrFreeAppend st = .ok st') : st'.ds.data = st.ds.data := by
  unfold dstrFreeAppend at h
  split at h
  · split at h
    · obtain ⟨s, h1, h⟩ := mbind_inv h
      cases h
      dsimp only
      rw [free_ds h1]
    · cases h; rfl
  · cases h; rfl

theorem write_data {st st' : DState} {p : Ptr} {src : List Byte} (h : st.write p src = .ok st') : st'.ds.data = st.ds.data := by
  unfold DState.write at h
  obtain ⟨b, -, h⟩ := mbind_inv h
  split at h
  · cases h
    unfold DState.setBytes
    split <;> rfl
  · cases h

/-- Where the value is after `arg_dstr_set`. -/
theorem dstrSet_data {st st' : DState} {str : Option Ptr} {f : FreeFn} (h : dstrSet st str f = .ok st') :
    st'.ds.data = ⟨.sbuf, 0⟩ ∨ st'.ds.data = ⟨.blk st.heap.length, 0⟩ ∨ f ≠ .volatile ∧ str = some st'.ds.data := by
  unfold dstrSet at h
  dsimp only at h
  obtain ⟨s1, h1, h⟩ := mbind_inv h
  have hd : st'.ds.data = s1.ds.data := by
    split at h
    · obtain ⟨s2, h2, h⟩ := mbind_inv h
      rw [freeAppend_data h, release_ds h2]
    · exact freeAppend_data h
  rw [hd]
  unfold dstrSetData at h1
  split at h1
  · obtain ⟨s2, h2, h1⟩ := mbind_inv h1
    cases h1
    exact Or.inl rfl
  · split at h1
    · obtain ⟨s, h2, h1⟩ := mbind_inv h1
      obtain ⟨n, h3, h1⟩ := mbind_inv h1
      split at h1
      · unfold DState.malloc DState.strcpy at h1
        dsimp only at h1
        obtain ⟨u, h4, h1⟩ := mbind_inv h1
        split at h1
        · cases h1
        · right; left
          rw [write_data h1]
      · unfold DState.strcpy at h1
        dsimp only at h1
        obtain ⟨u, h4, h1⟩ := mbind_inv h1
        split at h1
        · cases h1
        · left
          rw [write_data h1]
    · rename_i p hf
      cases h1
      exact Or.inr (Or.inr ⟨hf, rfl⟩)

theorem dstrReset_data {st st' : DState} (h : dstrReset st = .ok st') : st'.ds.data = ⟨.sbuf, 0⟩ := by
  unfold dstrReset at h
  obtain ⟨s1, h1, h⟩ := mbind_inv h
  obtain ⟨s2, h2, h⟩ := mbind_inv h
  dsimp only at h
  rw [write_data h]

theorem Apart.sbuf {d : Dstr} (h : d.data = ⟨.sbuf, 0⟩) : Apart base S d := by
  intro a ha
  rw [h] at ha
  cases ha

theorem Apart.fresh {heap : Heap} {O : List Nat} (hh : HInv base heap O S) {n : Nat} (hn : heap.length ≤ n) {d : Dstr}
    (h : d.data = ⟨.blk n, 0⟩) : Apart base S d := by
  intro a ha
  rw [h] at ha
  cases ha
  have := hh.len
  refine ⟨by omega, fun e he => ?_⟩
  have := lt_of_live (hh.user e he).2.1
  omega

theorem Apart.own {heap : Heap} {O : List Nat} (hh : HInv base heap O S) {n : Nat} (hn : n ∈ O) {d : Dstr}
    (h : d.data = ⟨.blk n, 0⟩) : Apart base S d := by
  intro a ha
  rw [h] at ha
  cases ha
  exact ⟨(hh.own _ hn).1, fun e he hea => (hh.user e he).2.2 (hea ▸ hn)⟩

theorem Apart.mono {S' : List (Nat × List Byte)} {d : Dstr} (h : Apart base S d) (hs : ∀ e ∈ S', e ∈ S) : Apart base S' d :=
  fun a ha => ⟨(h a ha).1, fun e he => (h a ha).2 e (hs e he)⟩

theorem DInv.catc_apart (h : DInv base st text S cus) {c : Char} (hc : c ≠ '\x00')
    (hb : 2 * (text.length + 2) ≤ 2147483647) :
    ∃ st', dstrCatc st c = .ok st' ∧ DInv base st' (text ++ [c]) S cus ∧ Apart base S st'.ds := by
  have nn := h.nn
  obtain ⟨st1, a, m, e1, hr, hm⟩ := h.setup (n := 2) (by omega) (by omega)
  unfold dstrCatc
  have e1' : dstrSetup st 2 = .ok st1 := e1
  rw [e1', bind_ok, hr.cstr nn, bind_ok, hr.data]
  dsimp only
  rw [Nat.zero_add]
  obtain ⟨st', w1, w2, w3⟩ := hr.append nn (s := [c]) (by simpa using fun h => hc h.symm) (by simp; omega)
  exact ⟨st', w1, w2, Apart.own hr.heap (n := a) (by simp) (by rw [w3, hr.data])⟩

theorem DInv.cat_apart (h : DInv base st text S cus) {t : Nat} {b : List Byte} {s : CStr} (ht : (t, b) ∈ S)
    (hbs : scanStr b = .ok s) (hs : '\x00' ∉ s) (hb : 2 * (text.length + s.length + 1) ≤ 2147483647) :
    ∃ st', dstrCat st ⟨.blk t, 0⟩ = .ok st' ∧ DInv base st' (text ++ s) S cus ∧ Detached st' S ∧ Apart base S st'.ds := by
  obtain ⟨st', h1, h2, h3, a, h4, h5⟩ := h.cat_own ht hbs hs hb
  refine ⟨st', h1, h2, h3, fun x hx => ?_⟩
  rw [h5] at hx
  cases hx
  exact ⟨h4, fun e he hea => h3 e he (by rw [hea, h5])⟩

theorem DInv.catf_apart (h : DInv base st text S cus) {l : Nat} {t : CStr} (ht : '\x00' ∉ t)
    (hb : text.length + t.length ≤ 500000000) (hl : l ≤ 500000000) :
    ∃ st', dstrCatf st (some l) t = .ok st' ∧ DInv base st' (text ++ t) S cus ∧ Apart base S st'.ds := by
  unfold dstrCatf
  dsimp only
  rw [chkInt_ok (by omega) (by omega), bind_ok]
  obtain ⟨n, hn, hn1, hn2⟩ : ∃ n : Nat, (if (2 * (l : Int)) < 16 then (16 : Int) else 2 * l) = n ∧ n ≤ 1000000000 ∧ 0 < n := by
    split
    · exact ⟨16, rfl, by omega, by omega⟩
    · exact ⟨2 * l, by omega, by omega, by omega⟩
  rw [hn]
  obtain ⟨st1, b, e1, h1, hb1⟩ := DInv.catfLoop t ht (by omega) h n hn1 hn2
  rw [e1, bind_ok]
  dsimp only
  obtain ⟨st2, e2, h2, hd, ha⟩ := (h1.lend b).cat_apart (t := st1.heap.length) (b := b) (by simp) hb1 ht (by omega)
  rw [e2, bind_ok]
  obtain ⟨st3, e3, h3, hds⟩ := h2.unlend (hd (st1.heap.length, b) (by simp))
  exact ⟨st3, e3, h3, by rw [hds]; exact ha.mono fun e he => List.mem_append_left _ he⟩

/-- One call: the blocks of others are kept, and the value moves only to blocks of its own. -/
theorem DInv.exec_apart (h : DInv base st text S cus) (c : DCmd) (hc : c.Proper) (hb : text.length + c.size ≤ 500000000) :
    ∃ st' X, c.exec st = .ok st' ∧ DInv base st' (c.after text) (S ++ X) (cus ++ c.custom) ∧
      X.map (·.2) = c.static.map strBytes ∧ (st'.ds.data = st.ds.data ∨ Apart base S st'.ds) := by
  obtain ⟨O, pend, hh, -, -⟩ := h.main
  cases c with
  | setNull =>
    obtain ⟨st', e, h'⟩ := h.setNull
    refine ⟨st', [], e, by simpa [DCmd.custom, DCmd.after] using h', by simp [DCmd.static], Or.inr ?_⟩
    rcases dstrSet_data e with h1 | h1 | h1
    · exact .sbuf h1
    · exact .fresh hh (Nat.le_refl _) h1
    · cases h1.2
  | setVolatile s =>
    simp only [DCmd.Proper, DCmd.size] at hc hb
    have h1 := h.lend (strBytes s)
    have hcs : (DState.mk (st.heap ++ [some (strBytes s)]) st.ds st.log).cstr ⟨.blk st.heap.length, 0⟩ = .ok s := by
      rw [cstr_blk (b := strBytes s) (by dsimp only; rw [get_snoc, if_pos rfl]), scanStr_strBytes hc]
    obtain ⟨st', e, h', hd⟩ := h1.setCopy hcs hc (by omega) (by simp)
    obtain ⟨st2, e2, h2, hds⟩ := h'.unlend (hd (st.heap.length, strBytes s) (by simp))
    refine ⟨st2, [], ?_, by simpa [DCmd.custom, DCmd.after] using h2, by simp [DCmd.static], Or.inr ?_⟩
    · unfold DCmd.exec DState.malloc
      dsimp only
      rw [e, bind_ok]
      exact e2
    · rw [hds]
      rcases dstrSet_data e with h1 | h1 | h1
      · exact .sbuf h1
      · exact .fresh hh (by simp) h1
      · exact absurd rfl h1.1
  | setStatic s =>
    simp only [DCmd.Proper, DCmd.size] at hc hb
    obtain ⟨st', e, h'⟩ := (h.lend (strBytes s)).setStatic (t := st.heap.length) (by simp) hc
    refine ⟨st', _, e, by simpa [DCmd.custom, DCmd.after] using h', by simp [DCmd.static], Or.inr ?_⟩
    rcases dstrSet_data e with h1 | h1 | h1
    · exact .sbuf h1
    · exact .fresh hh (by simp) h1
    · exact .fresh hh (Nat.le_refl _) (Option.some.inj h1.2).symm
  | setDynamic s =>
    simp only [DCmd.Proper, DCmd.size] at hc hb
    obtain ⟨st', e, h'⟩ := (h.lend (strBytes s)).setDynamic hc
    refine ⟨st', [], e, by simpa [DCmd.custom, DCmd.after] using h', by simp [DCmd.static], Or.inr ?_⟩
    rcases dstrSet_data e with h1 | h1 | h1
    · exact .sbuf h1
    · exact .fresh hh (by simp) h1
    · exact .fresh hh (Nat.le_refl _) (Option.some.inj h1.2).symm
  | setCustom k s =>
    simp only [DCmd.Proper, DCmd.size] at hc hb
    obtain ⟨st', e, h'⟩ := (h.lend (strBytes s)).setCustom hc k
    refine ⟨st', [], e, by simpa [DCmd.custom, DCmd.after] using h', by simp [DCmd.static], Or.inr ?_⟩
    rcases dstrSet_data e with h1 | h1 | h1
    · exact .sbuf h1
    · exact .fresh hh (by simp) h1
    · exact .fresh hh (Nat.le_refl _) (Option.some.inj h1.2).symm
  | cat s =>
    simp only [DCmd.Proper, DCmd.size] at hc hb
    obtain ⟨st', e, h', hd, ha⟩ := (h.lend (strBytes s)).cat_apart (t := st.heap.length) (b := strBytes s) (by simp)
      (scanStr_strBytes hc) hc (by omega)
    obtain ⟨st2, e2, h2, hds⟩ := h'.unlend (hd (st.heap.length, strBytes s) (by simp))
    refine ⟨st2, [], ?_, by simpa [DCmd.custom, DCmd.after] using h2, by simp [DCmd.static],
      Or.inr (by rw [hds]; exact ha.mono fun e he => List.mem_append_left _ he)⟩
    unfold DCmd.exec DState.malloc
    dsimp only
    rw [e, bind_ok]
    exact e2
  | catc c =>
    simp only [DCmd.Proper, DCmd.size] at hc hb
    obtain ⟨st', e, h', ha⟩ := h.catc_apart hc (by omega)
    exact ⟨st', [], e, by simpa [DCmd.custom, DCmd.after] using h', by simp [DCmd.static], Or.inr ha⟩
  | catf l t =>
    simp only [DCmd.Proper, DCmd.size] at hc hb
    cases l with
    | none => exact ⟨st, [], rfl, by simpa [DCmd.custom, DCmd.after] using h, by simp [DCmd.static], Or.inl rfl⟩
    | some l =>
      simp only [Option.getD] at hb
      obtain ⟨st', e, h', ha⟩ := h.catf_apart (l := l) hc (by omega) (by omega)
      exact ⟨st', [], e, by simpa [DCmd.custom, DCmd.after] using h', by simp [DCmd.static], Or.inr ha⟩
  | reset =>
    obtain ⟨st', e, h', -, -⟩ := h.reset
    exact ⟨st', [], e, by simpa [DCmd.custom, DCmd.after] using h', by simp [DCmd.static], Or.inr (.sbuf (dstrReset_data e))⟩

end

/-! ### all objects together -/

/-- The blocks allocated since `base`, except for those of one object. -/
def otherBlocks (base heap : Heap) (O : List Nat) : List (Nat × List Byte) := (List.range heap.length).filterMap fun a =>
  if base.length ≤ a ∧ a ∉ O then (heap[a]?.getD none).map fun b => (a, b) else none

theorem mem_otherBlocks {base heap : Heap} {O : List Nat} {a : Nat} {b : List Byte} :
    (a, b) ∈ otherBlocks base heap O ↔ base.length ≤ a ∧ a ∉ O ∧ heap[a]? = some (some b) := by
  unfold otherBlocks
  rw [List.mem_filterMap]
  constructor
  · rintro ⟨x, hx, h⟩
    split at h
    · rename_i hc
      rw [Option.map_eq_some_iff] at h
      obtain ⟨y, h1, h2⟩ := h
      cases h2
      refine ⟨hc.1, hc.2, ?_⟩
      rw [List.mem_range] at hx
      rw [List.getElem?_eq_getElem hx] at h1 ⊢
      exact congrArg some h1
    · cases h
  · rintro ⟨h1, h2, h3⟩
    exact ⟨a, List.mem_range.2 (lt_of_live h3), by rw [if_pos ⟨h1, h2⟩, h3]; rfl⟩

theorem otherBlocks_sorted (base heap : Heap) (O : List Nat) : ((otherBlocks base heap O).map (·.1)).Pairwise (· < ·) := by
  unfold otherBlocks
  rw [List.pairwise_map]
  refine List.Pairwise.filterMap (R := (· < ·)) _ ?_ List.pairwise_lt_range
  intro a a' haa' b hb b' hb'
  split at hb
  · split at hb'
    · rw [Option.map_eq_some_iff] at hb hb'
      obtain ⟨_, _, rfl⟩ := hb
      obtain ⟨_, _, rfl⟩ := hb'
      exact haa'
    · cases hb'
  · cases hb

/-- The invariant: `Os i` are the blocks of object `i`, `ps i` the calls of client functions that are still to come, `K` blocks
that have nothing to do with the objects. -/
structure SInv (base : Heap) (K : List Nat) (w : Shelf) (ts : List (Option CStr)) (S : List (Nat × List Byte)) (cus : Nat → List (Nat × CStr))
    (Os : Nat → List Nat) (ps : Nat → List (Nat × CStr)) : Prop where
  len : w.objs.length = ts.length
  gone : ∀ i, ¬ Present ts i → Os i = [] ∧ ps i = []
  obj : ∀ i s, ts[i]? = some (some s) → ∃ d, w.objs[i]? = some (some d) ∧ '\x00' ∉ s ∧ d.sbuf.length = 201 ∧
    s.length ≤ 500000000 ∧ DMode w.heap d s (Os i) (ps i) ∧
    ∀ a, d.data.loc = .blk a → base.length ≤ a ∧ (∀ j, j ≠ i → a ∉ Os j) ∧ a ∉ K
  hlen : base.length ≤ w.heap.length
  frame : ∀ a < base.length, w.heap[a]? = base[a]?
  user : ∀ e ∈ S, base.length ≤ e.1 ∧ w.heap[e.1]? = some (some e.2) ∧ ∀ i, e.1 ∉ Os i
  own : ∀ i, ∀ a ∈ Os i, base.length ≤ a ∧ ∃ b, w.heap[a]? = some (some b)
  nodup : ∀ i, (Os i).Nodup
  apart : ∀ i j a, i ≠ j → a ∈ Os i → a ∉ Os j
  live : ∀ a b, base.length ≤ a → w.heap[a]? = some (some b) → (∃ i, a ∈ Os i) ∨ ∃ s, (a, s) ∈ S
  sorted : (S.map (·.1)).Pairwise (· < ·)
  log : ∀ i, (w.log.filter (fun e => e.1 = i)).map (·.2) ++ ps i = cus i
  kept : ∀ a ∈ K, ∃ b, (a, b) ∈ S
  void : ∀ i : Nat, ts[i]? = some none → w.objs[i]? = some none

/-- One of several, and what the others have. -/
def put {α : Type} (f : Nat → α) (i : Nat) (x : α) : Nat → α := fun j => if j = i then x else f j

theorem put_self {α : Type} (f : Nat → α) (i : Nat) (x : α) : put f i x i = x := if_pos rfl
theorem put_ne {α : Type} (f : Nat → α) {i j : Nat} (x : α) (h : j ≠ i) : put f i x j = f j := if_neg h

theorem DMode.mono {heap heap' : Heap} {d : Dstr} {text : CStr} {O : List Nat} {p : List (Nat × CStr)} (hm : DMode heap d text O p)
    (up : ∀ a b, d.data = ⟨.blk a, 0⟩ → heap[a]? = some (some b) → heap'[a]? = some (some b)) : DMode heap' d text O p := by
  cases hm with
  | inline k1 k2 k3 k4 k5 => exact .inline k1 k2 k3 k4 k5
  | const a k1 k2 k3 k4 k5 => exact .const a k1 k2 k3 k4 (up _ _ k1 k5)
  | dynamic a k1 k2 k3 k4 k5 => exact .dynamic a k1 k2 k3 k4 (up _ _ k1 k5)
  | custom a k k1 k2 k3 k4 k5 => exact .custom a k k1 k2 k3 k4 (up _ _ k1 k5)
  | append a m k1 k2 k3 k4 k5 k6 k7 => exact .append a m k1 k2 k3 k4 k5 k6 (up _ _ k1 k7)

section
variable {base : Heap} {K : List Nat} {w : Shelf} {ts : List (Option CStr)} {S : List (Nat × List Byte)} {cus : Nat → List (Nat × CStr)}
  {Os : Nat → List Nat} {ps : Nat → List (Nat × CStr)}

theorem SInv.hinv (h : SInv base K w ts S cus Os ps) (i : Nat) : HInv base w.heap (Os i) (otherBlocks base w.heap (Os i)) where
  len := h.hlen
  frame := h.frame
  user := by
    rintro ⟨a, b⟩ he
    obtain ⟨h1, h2, h3⟩ := mem_otherBlocks.1 he
    exact ⟨h1, h3, h2⟩
  own := h.own i
  nodup := h.nodup i
  live a b ha hb := by
    by_cases hi : a ∈ Os i
    · exact Or.inl hi
    · exact Or.inr ⟨b, mem_otherBlocks.2 ⟨ha, hi, hb⟩⟩
  sorted := otherBlocks_sorted _ _ _

/-- An object, seen for itself. -/
theorem SInv.focus (h : SInv base K w ts S cus Os ps) {i : Nat} {s : CStr} (hs : ts[i]? = some (some s)) :
    ∃ d, w.objs[i]? = some (some d) ∧ DInv base ⟨w.heap, d, []⟩ s (otherBlocks base w.heap (Os i)) (ps i) := by
  obtain ⟨d, h1, h2, h3, h4, h5, h6⟩ := h.obj i s hs
  exact ⟨d, h1, h2, h3, Os i, ps i, h.hinv i, h5, by simp⟩

theorem filter_log (log : List (Nat × Nat × CStr)) (lg : List (Nat × CStr)) (i j : Nat) :
    ((log ++ lg.map fun e => (i, e)).filter (fun e => e.1 = j)).map (·.2) =
      (log.filter (fun e => e.1 = j)).map (·.2) ++ if j = i then lg else [] := by
  rw [List.filter_append, List.map_append]
  congr 1
  by_cases hj : j = i
  · subst hj
    rw [if_pos rfl, List.filter_eq_self.2 ?_]
    · simp
    · intro e he
      obtain ⟨x, _, rfl⟩ := List.mem_map.1 he
      simp
  · rw [if_neg hj, List.filter_eq_nil_iff.2 ?_]
    · rfl
    · intro e he
      obtain ⟨x, _, rfl⟩ := List.mem_map.1 he
      simpa using fun h => hj h.symm

/-- A step of one object. -/
theorem SInv.step (h : SInv base K w ts S cus Os ps) {i : Nat} {d : Dstr} {s : CStr} (hs : ts[i]? = some (some s))
    (hd : w.objs[i]? = some (some d)) {heap' : Heap} {od : Option Dstr} {os : Option CStr} {O' : List Nat}
    {p' lg cu : List (Nat × CStr)} {X : List (Nat × List Byte)} (hh : HInv base heap' O' (otherBlocks base w.heap (Os i) ++ X))
    (hgone : os = none → O' = [] ∧ p' = []) (hvoid : os = none → od = none)
    (hobj : ∀ s', os = some s' → ∃ d', od = some d' ∧ '\x00' ∉ s' ∧ d'.sbuf.length = 201 ∧ s'.length ≤ 500000000 ∧
      DMode heap' d' s' O' p' ∧ (d'.data = d.data ∨ Apart base (otherBlocks base w.heap (Os i)) d'))
    (hlog : lg ++ p' = ps i ++ cu) :
    SInv base K ⟨heap', w.objs.set i od, w.log ++ lg.map fun e => (i, e)⟩ (ts.set i os) (S ++ X) (put cus i (cus i ++ cu))
      (put Os i O') (put ps i p') := by
  have hit : i < ts.length := (List.getElem?_eq_some_iff.1 hs).1
  have hio : i < w.objs.length := by rw [h.len]; exact hit
  -- the blocks of others are kept
  have keep : ∀ a b, base.length ≤ a → a ∉ Os i → w.heap[a]? = some (some b) → heap'[a]? = some (some b) ∧ a ∉ O' := by
    intro a b h1 h2 h3
    have := hh.user (a, b) (List.mem_append_left _ (mem_otherBlocks.2 ⟨h1, h2, h3⟩))
    exact this.2
  have ownj : ∀ j a, j ≠ i → a ∈ Os j → ∃ b, (a, b) ∈ otherBlocks base w.heap (Os i) := by
    intro j a hj ha
    obtain ⟨h1, b, h2⟩ := h.own j a ha
    exact ⟨b, mem_otherBlocks.2 ⟨h1, h.apart j i a hj ha, h2⟩⟩
  have sub : ∀ e ∈ S, e ∈ otherBlocks base w.heap (Os i) := by
    rintro ⟨a, b⟩ he
    obtain ⟨h1, h2, h3⟩ := h.user _ he
    exact mem_otherBlocks.2 ⟨h1, h3 i, h2⟩
  have hsort := hh.sorted
  rw [List.map_append, List.pairwise_append] at hsort
  constructor
  · simp [h.len]
  · intro j hj
    by_cases hji : j = i
    · subst hji
      rw [put_self, put_self]
      refine hgone ?_
      cases os with
      | none => rfl
      | some s' => exact absurd ⟨s', by rw [List.getElem?_set_self hit]⟩ hj
    · rw [put_ne _ _ hji, put_ne _ _ hji]
      refine h.gone j fun ⟨s', hs'⟩ => hj ⟨s', ?_⟩
      rw [List.getElem?_set_ne (fun e => hji e.symm)]; exact hs'
  · intro j s' hj
    by_cases hji : j = i
    · subst hji
      rw [List.getElem?_set_self hit] at hj
      obtain ⟨d', k1, k2, k3, k4, k5, k6⟩ := hobj s' (Option.some.inj hj)
      refine ⟨d', by dsimp only; rw [List.getElem?_set_self hio, k1], k2, k3, k4, by rw [put_self, put_self]; exact k5, ?_⟩
      intro a ha
      rcases k6 with k6 | k6
      · obtain ⟨d0, e0, -, -, -, -, e6⟩ := h.obj j s hs
        rw [hd] at e0
        cases e0
        rw [k6] at ha
        refine ⟨(e6 a ha).1, fun m hm => ?_, (e6 a ha).2.2⟩
        rw [put_ne _ _ hm]
        exact (e6 a ha).2.1 m hm
      · refine ⟨(k6 a ha).1, fun m hm => ?_, fun hc => ?_⟩
        · rw [put_ne _ _ hm]
          intro hc
          obtain ⟨b, hb⟩ := ownj m a hm hc
          exact (k6 a ha).2 _ hb rfl
        · obtain ⟨b, hb⟩ := h.kept a hc
          exact (k6 a ha).2 _ (sub _ hb) rfl
    · rw [List.getElem?_set_ne (fun e => hji e.symm)] at hj
      obtain ⟨d', k1, k2, k3, k4, k5, k6⟩ := h.obj j s' hj
      refine ⟨d', by dsimp only; rw [List.getElem?_set_ne (fun e => hji e.symm)]; exact k1, k2, k3, k4, ?_, ?_⟩
      · rw [put_ne _ _ hji, put_ne _ _ hji]
        refine k5.mono fun a b ha hb => ?_
        obtain ⟨e1, e2, -⟩ := k6 a (by rw [ha])
        exact (keep a b e1 (e2 i (fun e => hji e.symm)) hb).1
      · intro a ha
        obtain ⟨e1, e2, e3⟩ := k6 a ha
        refine ⟨e1, fun m hm => ?_, e3⟩
        by_cases hmi : m = i
        · subst hmi
          rw [put_self]
          intro hc
          have hne := e2 m hm
          -- the block is live
          obtain ⟨b, hb⟩ : ∃ b, w.heap[a]? = some (some b) := by
            generalize Os j = Oj, ps j = pj at k5
            cases k5 with
            | inline l1 => rw [l1] at ha; cases ha
            | const x l1 l2 l3 l4 l5 => rw [l1] at ha; cases ha; exact ⟨_, l5⟩
            | dynamic x l1 l2 l3 l4 l5 => rw [l1] at ha; cases ha; exact ⟨_, l5⟩
            | custom x k l1 l2 l3 l4 l5 => rw [l1] at ha; cases ha; exact ⟨_, l5⟩
            | append x k l1 l2 l3 l4 l5 l6 l7 => rw [l1] at ha; cases ha; exact ⟨_, l7⟩
          exact (keep a b e1 hne hb).2 hc
        · rw [put_ne _ _ hmi]; exact e2 m hm
  · exact hh.len
  · exact hh.frame
  · intro e he
    have hall : e ∈ otherBlocks base w.heap (Os i) ++ X := by
      rcases List.mem_append.1 he with he | he
      · exact List.mem_append_left _ (sub e he)
      · exact List.mem_append_right _ he
    obtain ⟨h1, h2, h3⟩ := hh.user e hall
    refine ⟨h1, h2, fun j => ?_⟩
    by_cases hji : j = i
    · subst hji; rw [put_self]; exact h3
    · rw [put_ne _ _ hji]
      rcases List.mem_append.1 he with he | he
      · exact (h.user e he).2.2 j
      · intro hc
        obtain ⟨b, hb⟩ := ownj j e.1 hji hc
        have := hsort.2.2 e.1 (List.mem_map.2 ⟨_, hb, rfl⟩) e.1 (List.mem_map.2 ⟨e, he, rfl⟩)
        omega
  · intro j a ha
    by_cases hji : j = i
    · subst hji; rw [put_self] at ha; exact hh.own a ha
    · rw [put_ne _ _ hji] at ha
      obtain ⟨b, hb⟩ := ownj j a hji ha
      have := hh.user _ (List.mem_append_left _ hb)
      exact ⟨this.1, b, this.2.1⟩
  · intro j
    by_cases hji : j = i
    · subst hji; rw [put_self]; exact hh.nodup
    · rw [put_ne _ _ hji]; exact h.nodup j
  · intro j m a hjm ha
    have cross : ∀ k, k ≠ i → a ∈ Os k → a ∉ O' := by
      intro k hk ha
      obtain ⟨b, hb⟩ := ownj k a hk ha
      exact (hh.user _ (List.mem_append_left _ hb)).2.2
    by_cases hji : j = i
    · subst hji
      have hm : m ≠ j := fun e => hjm e.symm
      rw [put_self] at ha
      rw [put_ne _ _ hm]
      exact fun hc => cross m hm hc ha
    · rw [put_ne _ _ hji] at ha
      by_cases hmi : m = i
      · subst hmi; rw [put_self]; exact cross j hji ha
      · rw [put_ne _ _ hmi]; exact h.apart j m a hjm ha
  · intro a b ha hb
    rcases hh.live a b ha hb with h1 | ⟨t, h1⟩
    · exact Or.inl ⟨i, by rw [put_self]; exact h1⟩
    · rcases List.mem_append.1 h1 with h1 | h1
      · obtain ⟨k1, k2, k3⟩ := mem_otherBlocks.1 h1
        rcases h.live a t k1 k3 with ⟨j, hj⟩ | ⟨u, hu⟩
        · refine Or.inl ⟨j, ?_⟩
          rw [put_ne _ _ (by rintro rfl; exact k2 hj)]; exact hj
        · exact Or.inr ⟨u, List.mem_append_left _ hu⟩
      · exact Or.inr ⟨t, List.mem_append_right _ h1⟩
  · rw [List.map_append, List.pairwise_append]
    refine ⟨h.sorted, hsort.2.1, fun a ha b hb => ?_⟩
    obtain ⟨e, he, rfl⟩ := List.mem_map.1 ha
    exact hsort.2.2 e.1 (List.mem_map.2 ⟨e, sub e he, rfl⟩) b hb
  · intro j
    rw [filter_log]
    by_cases hji : j = i
    · subst hji
      rw [if_pos rfl, put_self, put_self, List.append_assoc, hlog, ← List.append_assoc, h.log]
    · rw [if_neg hji, put_ne _ _ hji, put_ne _ _ hji, List.append_nil, h.log]
  · intro a ha
    obtain ⟨b, hb⟩ := h.kept a ha
    exact ⟨b, List.mem_append_left _ hb⟩
  · intro j hj
    dsimp only
    by_cases hji : j = i
    · subst hji
      rw [List.getElem?_set_self hit] at hj
      rw [List.getElem?_set_self hio, hvoid (Option.some.inj hj)]
    · rw [List.getElem?_set_ne (fun e => hji e.symm)] at hj ⊢
      exact h.void j hj

theorem set_get {α : Type} {l : List α} {i : Nat} {x : α} (h : l[i]? = some x) : l.set i x = l := by
  obtain ⟨h1, h2⟩ := List.getElem?_eq_some_iff.1 h
  rw [← h2, List.set_getElem_self]

/-- A call on one object. -/
theorem SInv.on (h : SInv base K w ts S cus Os ps) {i : Nat} {s s' : CStr} (hs : ts[i]? = some (some s)) {f : DState → M DState}
    {sx : List (List Byte)} {cu : List (Nat × CStr)} (hl : s'.length ≤ 500000000)
    (hf : ∀ d, DInv base ⟨w.heap, d, []⟩ s (otherBlocks base w.heap (Os i)) (ps i) →
      ∃ st' X, f ⟨w.heap, d, []⟩ = .ok st' ∧ DInv base st' s' (otherBlocks base w.heap (Os i) ++ X) (ps i ++ cu) ∧
        X.map (·.2) = sx ∧ (st'.ds.data = d.data ∨ Apart base (otherBlocks base w.heap (Os i)) st'.ds)) :
    ∃ w' X Os' ps', w.on i f = .ok w' ∧ SInv base K w' (ts.set i (some s')) (S ++ X) (put cus i (cus i ++ cu)) Os' ps' ∧
      X.map (·.2) = sx := by
  obtain ⟨d, hd, hi⟩ := h.focus hs
  obtain ⟨st', X, e, ⟨nn, sb, O', p', hh, hm, hlg⟩, hx, ha⟩ := hf d hi
  refine ⟨_, X, put Os i O', put ps i p', ?_, h.step (od := some st'.ds) (os := some s') (lg := st'.log) hs hd hh (by simp) (by simp) ?_ hlg, hx⟩
  · unfold Spec.Shelf.on
    rw [hd]
    dsimp only
    rw [e, bind_ok]
  · rintro _ ⟨⟩
    exact ⟨_, rfl, nn, sb, hl, hm, ha⟩

theorem mode_blk {heap : Heap} {d : Dstr} {s : CStr} {O : List Nat} {p : List (Nat × CStr)} (nn : '\x00' ∉ s) (h : DMode heap d s O p)
    {a : Nat} (ha : d.data.loc = .blk a) : d.data = ⟨.blk a, 0⟩ ∧ ∃ b, heap[a]? = some (some b) ∧ scanStr b = .ok s := by
  cases h with
  | inline l1 => rw [l1] at ha; cases ha
  | const x l1 l2 l3 l4 l5 => rw [l1] at ha ⊢; cases ha; exact ⟨rfl, _, l5, scanStr_strBytes nn⟩
  | dynamic x l1 l2 l3 l4 l5 => rw [l1] at ha ⊢; cases ha; exact ⟨rfl, _, l5, scanStr_strBytes nn⟩
  | custom x k l1 l2 l3 l4 l5 => rw [l1] at ha ⊢; cases ha; exact ⟨rfl, _, l5, scanStr_strBytes nn⟩
  | append x k l1 l2 l3 l4 l5 l6 l7 =>
    rw [l1] at ha ⊢; cases ha
    exact ⟨rfl, _, l7, by rw [List.replicate_succ, scanStr_str nn]⟩

theorem mode_sbuf {heap : Heap} {d : Dstr} {s : CStr} {O : List Nat} {p : List (Nat × CStr)} (h : DMode heap d s O p)
    (ha : d.data.loc = .sbuf) : d.data = ⟨.sbuf, 0⟩ ∧ scanStr d.sbuf = .ok s := by
  cases h with
  | inline l1 l2 l3 l4 l5 => exact ⟨l1, l5⟩
  | const x l1 => rw [l1] at ha; cases ha
  | dynamic x l1 => rw [l1] at ha; cases ha
  | custom x k l1 => rw [l1] at ha; cases ha
  | append x k l1 => rw [l1] at ha; cases ha

/-- The string of an object is given to another one. -/
theorem SInv.lend (h : SInv base K w ts S cus Os ps) {i j : Nat} {s sj s' : CStr} (hij : i ≠ j) (hj : ts[j]? = some (some sj))
    {f : Ptr → DState → M DState}
    (hf : ∀ st S0 t b, DInv base st s S0 (ps i) → (t, b) ∈ S0 → scanStr b = .ok sj →
      ∃ st', f ⟨.blk t, 0⟩ st = .ok st' ∧ DInv base st' s' S0 (ps i) ∧ Apart base S0 st'.ds) {d : Dstr}
    (hd : DInv base ⟨w.heap, d, []⟩ s (otherBlocks base w.heap (Os i)) (ps i)) :
    ∃ st' X, w.lend j f ⟨w.heap, d, []⟩ = .ok st' ∧ DInv base st' s' (otherBlocks base w.heap (Os i) ++ X) (ps i ++ []) ∧
        X.map (·.2) = ([] : List (List Byte)) ∧ (st'.ds.data = d.data ∨ Apart base (otherBlocks base w.heap (Os i)) st'.ds) := by
  obtain ⟨e, k1, k2, k3, k4, k5, k6⟩ := h.obj j sj hj
  unfold Spec.Shelf.lend
  rw [k1]
  dsimp only
  cases hloc : e.data.loc with
  | blk a =>
    obtain ⟨m1, b, m2, m3⟩ := mode_blk k2 k5 hloc
    obtain ⟨st', f1, f2, f3⟩ := hf _ _ a b hd (mem_otherBlocks.2 ⟨(k6 a hloc).1, (k6 a hloc).2.1 i hij, m2⟩) m3
    dsimp only
    rw [m1]
    exact ⟨st', [], f1, by simpa using f2, rfl, Or.inr f3⟩
  | sbuf =>
    obtain ⟨m1, m3⟩ := mode_sbuf k5 hloc
    obtain ⟨st', f1, f2, f3⟩ := hf _ _ w.heap.length e.sbuf (hd.lend e.sbuf) (by simp) m3
    obtain ⟨st2, g1, g2, g3⟩ := f2.unlend (t := w.heap.length) (s := e.sbuf)
      (fun hc => (f3 w.heap.length (by rw [hc])).2 (w.heap.length, e.sbuf) (by simp) rfl)
    refine ⟨st2, [], ?_, by simpa using g2, rfl, Or.inr ?_⟩
    · unfold DState.malloc
      dsimp only
      rw [m1]
      dsimp only
      rw [f1, bind_ok, g1]
    · rw [g3]
      exact f3.mono fun x hx => List.mem_append_left _ hx

theorem DInv.copy_apart {base : Heap} {st : DState} {s : CStr} {S0 : List (Nat × List Byte)} {q : List (Nat × CStr)} {t : Nat}
    {b : List Byte} {sj : CStr} (h : DInv base st s S0 q) (ht : (t, b) ∈ S0) (hb : scanStr b = .ok sj) (nn : '\x00' ∉ sj)
    (hl : sj.length ≤ 500000000) :
    ∃ st', dstrSet st (some ⟨.blk t, 0⟩) .volatile = .ok st' ∧ DInv base st' sj S0 q ∧ Apart base S0 st'.ds := by
  obtain ⟨O, pend, hh, -, -⟩ := h.main
  obtain ⟨st', h1, h2, h3⟩ := h.setCopy (p := ⟨.blk t, 0⟩) (s := sj) (by rw [cstr_blk (hh.user _ ht).2.1, hb]) nn (by omega) (by simp)
  refine ⟨st', h1, h2, ?_⟩
  rcases dstrSet_data h1 with e | e | e
  · exact .sbuf e
  · exact .fresh hh (Nat.le_refl _) e
  · exact absurd rfl e.1

theorem stringOf_eq {i : Nat} {s : CStr} (h : ts[i]? = some (some s)) : stringOf ts i = s := by
  unfold stringOf; rw [h]; rfl

theorem callsOn_call (i k : Nat) (c : DCmd) : callsOn i [SCmd.call k c] = if k = i then [c] else [] := rfl

/-- One call, on any of the objects. -/
theorem SInv.exec (h : SInv base K w ts S cus Os ps) (c : SCmd) (hc : c.Sensible ts) :
    ∃ w' X cus' Os' ps', c.exec w = .ok w' ∧ SInv base K w' (c.after ts) (S ++ X) cus' Os' ps' ∧
      X.map (·.2) = c.static.map strBytes ∧ ∀ i, cus' i = cus i ++ (callsOn i [c]).flatMap DCmd.custom := by
  cases c with
  | create =>
    refine ⟨_, [], cus, Os, ps, rfl, ?_, rfl, by simp [callsOn]⟩
    have hnot : ¬ Present ts ts.length := fun ⟨s, hs⟩ => by simp at hs
    have hmem : ∀ i, Present ts i → Present (ts ++ [some []]) i := by
      rintro i ⟨s, hs⟩
      exact ⟨s, by rw [List.getElem?_append_left (List.getElem?_eq_some_iff.1 hs).1]; exact hs⟩
    constructor
    · simp [h.len, SCmd.after]
    · exact fun i hi => h.gone i fun hp => hi (hmem i hp)
    · intro i s hi
      simp only [SCmd.after] at hi
      rcases Nat.lt_or_ge i ts.length with hlt | hge
      · rw [List.getElem?_append_left hlt] at hi
        obtain ⟨d, k1, k⟩ := h.obj i s hi
        exact ⟨d, by dsimp only; rw [List.getElem?_append_left (by rw [h.len]; exact hlt)]; exact k1, k⟩
      · have hi2 : i = ts.length := by
          have := (List.getElem?_eq_some_iff.1 hi).1
          simp at this; omega
        subst hi2
        simp at hi
        subst hi
        have hcr := DInv.create w.heap
        obtain ⟨g1, g2⟩ := h.gone _ hnot
        refine ⟨(dstrCreate w.heap).ds, by simp [← h.len], hcr.nn, hcr.sb, by simp, ?_, ?_⟩
        · rw [g1, g2]
          exact .inline rfl rfl rfl rfl rfl
        · intro a ha; cases ha
    · exact h.hlen
    · exact h.frame
    · simpa using h.user
    · exact h.own
    · exact h.nodup
    · exact h.apart
    · simpa using h.live
    · simpa using h.sorted
    · exact h.log
    · simpa using h.kept
    · intro i hi
      simp only [SCmd.after] at hi
      rcases Nat.lt_or_ge i ts.length with hlt | hge
      · rw [List.getElem?_append_left hlt] at hi
        dsimp only
        rw [List.getElem?_append_left (by rw [h.len]; exact hlt)]
        exact h.void i hi
      · rw [List.getElem?_append_right hge] at hi
        rcases Nat.eq_zero_or_pos (i - ts.length) with h0 | h0
        · rw [h0] at hi; cases hi
        · rw [List.getElem?_eq_none (by simp; omega)] at hi; cases hi
  | call i c =>
    obtain ⟨⟨s, hs⟩, hp, hb⟩ := hc
    rw [stringOf_eq hs] at hb
    have hal := after_length s c
    obtain ⟨w', X, Os', ps', e, hi, hx⟩ := h.on hs (f := fun st => c.exec st) (s' := c.after s) (sx := c.static.map strBytes)
      (cu := c.custom) (by omega) (fun d hd => hd.exec_apart c hp hb)
    refine ⟨w', X, put cus i (cus i ++ c.custom), Os', ps', e, ?_, hx, ?_⟩
    · simpa only [SCmd.after, stringOf_eq hs] using hi
    · intro k
      rw [callsOn_call]
      by_cases hk : i = k
      · subst hk; rw [if_pos rfl, put_self]; simp
      · rw [if_neg hk, put_ne _ _ (fun e => hk e.symm)]; simp
  | cat i j =>
    obtain ⟨⟨s, hs⟩, ⟨sj, hj⟩, hij, hb⟩ := hc
    rw [stringOf_eq hs, stringOf_eq hj] at hb
    obtain ⟨-, -, nn, -⟩ := h.obj j sj hj
    obtain ⟨w', X, Os', ps', e, hi, hx⟩ := h.on hs (f := w.lend j fun p st => dstrCat st p) (s' := s ++ sj) (sx := []) (cu := [])
      (by simpa using hb) (fun d hd => h.lend hij hj (fun st S0 t b k1 k2 k3 => by
        obtain ⟨st', e1, e2, -, e3⟩ := k1.cat_apart k2 k3 nn (by omega)
        exact ⟨st', e1, e2, e3⟩) hd)
    refine ⟨w', X, put cus i (cus i ++ []), Os', ps', e, ?_, hx, ?_⟩
    · simpa only [SCmd.after, stringOf_eq hs, stringOf_eq hj] using hi
    · intro k
      by_cases hk : k = i
      · subst hk; rw [put_self]; simp [callsOn]
      · rw [put_ne _ _ hk]; simp [callsOn]
  | copy i j =>
    obtain ⟨⟨s, hs⟩, ⟨sj, hj⟩, hij⟩ := hc
    obtain ⟨-, -, nn, -, hl, -⟩ := h.obj j sj hj
    obtain ⟨w', X, Os', ps', e, hi, hx⟩ := h.on hs (f := w.lend j fun p st => dstrSet st (some p) .volatile) (s' := sj) (sx := [])
      (cu := []) hl (fun d hd => h.lend hij hj (fun st S0 t b k1 k2 k3 => k1.copy_apart k2 k3 nn hl) hd)
    refine ⟨w', X, put cus i (cus i ++ []), Os', ps', e, ?_, hx, ?_⟩
    · simpa only [SCmd.after, stringOf_eq hs, stringOf_eq hj] using hi
    · intro k
      by_cases hk : k = i
      · subst hk; rw [put_self]; simp [callsOn]
      · rw [put_ne _ _ hk]; simp [callsOn]
  | destroy i =>
    obtain ⟨s, hs⟩ := hc
    obtain ⟨d, hd, hi⟩ := h.focus hs
    obtain ⟨st', e, -, hlog, hh⟩ := hi.reset
    refine ⟨_, [], _, _, _, ?_, h.step (od := none) (os := none) (O' := []) (p' := []) (X := []) (cu := []) (lg := st'.log) hs hd
      (by simpa using hh) (fun _ => ⟨rfl, rfl⟩) (fun _ => rfl) (by simp) (by simpa using hlog), rfl, ?_⟩
    · unfold SCmd.exec
      dsimp only
      rw [hd]
      dsimp only
      unfold dstrDestroy
      rw [e, bind_ok, bind_ok]
    · intro k
      by_cases hk : k = i
      · subst hk; rw [put_self]; simp [callsOn]
      · rw [put_ne _ _ hk]; simp [callsOn]

theorem callsOn_cons (i : Nat) (c : SCmd) (cmds : List SCmd) : callsOn i (c :: cmds) = callsOn i [c] ++ callsOn i cmds := by
  cases c with
  | call k c => by_cases h : k = i <;> simp [callsOn, h]
  | _ => rfl

/-- All calls. -/
theorem SInv.execAll : ∀ (cmds : List SCmd) {w : Shelf} {ts : List (Option CStr)} {S : List (Nat × List Byte)}
    {cus : Nat → List (Nat × CStr)} {Os : Nat → List Nat} {ps : Nat → List (Nat × CStr)}, SInv base K w ts S cus Os ps →
    AllSensible ts cmds →
    ∃ w' S' cus' Os' ps', runAll w cmds = .ok w' ∧ SInv base K w' (cmds.foldl SCmd.after ts) S' cus' Os' ps' ∧
      S'.map (·.2) = S.map (·.2) ++ (cmds.flatMap SCmd.static).map strBytes ∧
      ∀ i, cus' i = cus i ++ (callsOn i cmds).flatMap DCmd.custom
  | [], w, ts, S, cus, Os, ps, h, _ => ⟨w, S, cus, Os, ps, rfl, h, by simp, by simp [callsOn]⟩
  | c :: cmds, w, ts, S, cus, Os, ps, h, hc => by
    obtain ⟨w1, X, cus1, Os1, ps1, e1, h1, x1, c1⟩ := h.exec c hc.1
    obtain ⟨w2, S2, cus2, Os2, ps2, e2, h2, x2, c2⟩ := SInv.execAll cmds h1 hc.2
    refine ⟨w2, S2, cus2, Os2, ps2, ?_, h2, ?_, ?_⟩
    · unfold runAll; rw [e1, bind_ok]; exact e2
    · rw [x2, List.map_append, x1]; simp
    · intro i; rw [c2, c1, callsOn_cons i c cmds]; simp

theorem SInv.start (heap : Heap) : SInv heap [] ⟨heap, [], []⟩ [] [] (fun _ => []) (fun _ => []) (fun _ => []) where
  len := rfl
  gone _ _ := ⟨rfl, rfl⟩
  obj i s h := by simp at h
  hlen := Nat.le_refl _
  frame _ _ := rfl
  user := by simp
  own := by simp
  nodup := by simp
  apart := by simp
  live a b h1 h2 := by have := lt_of_live h2; dsimp only at this; omega
  sorted := by simp
  log := by simp
  kept := by simp
  void := by simp

/-- The string of an object. -/
theorem SInv.cstr (h : SInv base K w ts S cus Os ps) {i : Nat} {s : CStr} (hs : ts[i]? = some (some s)) :
    ∃ d, w.objs[i]? = some (some d) ∧ DState.cstr ⟨w.heap, d, []⟩ (dstrCstr ⟨w.heap, d, []⟩) = .ok s := by
  obtain ⟨d, h1, h2⟩ := h.focus hs
  exact ⟨d, h1, h2.cstr⟩

/-- When all objects are destroyed. -/
theorem SInv.over (h : SInv base K w ts S cus Os ps) (hn : ∀ i, ¬ Present ts i) :
    Spec.liveBlocks w.heap = Spec.liveBlocks base ++ S.map (·.2) ∧
      ∀ i, (w.log.filter (fun e => e.1 = i)).map (·.2) = cus i := by
  have hO : ∀ i, Os i = [] := fun i => (h.gone i (hn i)).1
  constructor
  · refine HInv.liveBlocks ⟨h.hlen, h.frame, fun e he => ⟨(h.user e he).1, (h.user e he).2.1, by simp⟩, by simp, by simp, ?_, h.sorted⟩
    intro a b h1 h2
    rcases h.live a b h1 h2 with ⟨i, hi⟩ | hi
    · rw [hO i] at hi; cases hi
    · exact Or.inr hi
  · intro i
    have := h.log i
    rwa [(h.gone i (hn i)).2, List.append_nil] at this

end

/-! ### objects that are left alone -/

/-- The text of an object that gets no text of others. -/
theorem texts_alone (i : Nat) : ∀ (cmds : List SCmd) (ts : List (Option CStr)), AllSensible ts cmds →
    (∀ c ∈ cmds, ¬ c.Touches i) → ∀ s, ts[i]? = some (some s) →
    (cmds.foldl SCmd.after ts)[i]? = some (some ((callsOn i cmds).foldl DCmd.after s))
  | [], ts, _, _, s, h => h
  | c :: cmds, ts, hs, ht, s, h => by
    have hi := (List.getElem?_eq_some_iff.1 h).1
    have ih := texts_alone i cmds (c.after ts) hs.2 fun c hc => ht c (by simp [hc])
    have ht0 := ht c (by simp)
    rw [List.foldl_cons]
    cases c with
    | create => exact ih s (by simp only [SCmd.after]; rw [List.getElem?_append_left hi]; exact h)
    | call k c =>
      by_cases hk : k = i
      · subst hk
        simp only [callsOn, if_true, List.foldl_cons]
        exact ih _ (by simp only [SCmd.after]; rw [List.getElem?_set_self hi, stringOf_eq h])
      · simp only [callsOn, if_neg hk]
        exact ih _ (by simp only [SCmd.after]; rw [List.getElem?_set_ne hk]; exact h)
    | cat k l => exact ih s (by simp only [SCmd.after]; rw [List.getElem?_set_ne ht0]; exact h)
    | copy k l => exact ih s (by simp only [SCmd.after]; rw [List.getElem?_set_ne ht0]; exact h)
    | destroy k => exact ih s (by simp only [SCmd.after]; rw [List.getElem?_set_ne ht0]; exact h)

/-- The same, from the beginning. -/
theorem texts_created (i : Nat) : ∀ (cmds : List SCmd) (ts : List (Option CStr)), AllSensible ts cmds →
    (∀ c ∈ cmds, ¬ c.Touches i) → ts.length ≤ i → i < (cmds.foldl SCmd.after ts).length →
    (cmds.foldl SCmd.after ts)[i]? = some (some (contents (callsOn i cmds)))
  | [], ts, _, _, h1, h2 => by simp at h2; omega
  | c :: cmds, ts, hs, ht, h1, h2 => by
    have ih := texts_created i cmds (c.after ts) hs.2 fun c hc => ht c (by simp [hc])
    rw [List.foldl_cons] at h2 ⊢
    cases c with
    | create =>
      by_cases hi : i = ts.length
      · subst hi
        exact texts_alone _ cmds _ hs.2 (fun c hc => ht c (by simp [hc])) [] (by simp [SCmd.after])
      · exact ih (by simp [SCmd.after]; omega) h2
    | call k c =>
      obtain ⟨⟨s, hks⟩, _⟩ := hs.1
      have hk := (List.getElem?_eq_some_iff.1 hks).1
      simp only [callsOn, if_neg (show k ≠ i by omega)]
      exact ih (by simpa [SCmd.after] using h1) h2
    | cat k l => exact ih (by simpa [SCmd.after] using h1) h2
    | copy k l => exact ih (by simpa [SCmd.after] using h1) h2
    | destroy k => exact ih (by simpa [SCmd.after] using h1) h2

end Argtable
