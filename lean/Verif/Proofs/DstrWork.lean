import Verif.Spec.DstrWork
import Verif.Proofs.DstrOom
import Verif.Proofs.Decode
import Verif.Proofs.RexWork
/-!
# Helper lemmas: what an arg_dstr costs
-/

namespace Argtable
open Spec

/-! ### the size of the buffer -/

/-- Nothing that matters for the size of the append buffer has changed. -/
def SizeKept (st st' : DState) : Prop :=
  st'.heap.length = st.heap.length ∧ st'.ds.appendSize = st.ds.appendSize ∧ st'.ds.appendData = st.ds.appendData

theorem SizeKept.refl (st : DState) : SizeKept st st := ⟨rfl, rfl, rfl⟩

theorem SizeKept.trans {a b c : DState} (h : SizeKept a b) (h' : SizeKept b c) : SizeKept a c :=
  ⟨h'.1.trans h.1, h'.2.1.trans h.2.1, h'.2.2.trans h.2.2⟩

theorem write_kept {st st' : DState} {p : Ptr} {src : List Byte} (h : st.write p src = .ok st') : SizeKept st st' := by
  unfold DState.write at h
  obtain ⟨b, -, h⟩ := mbind_ok_inv h
  split at h
  · cases h
    unfold DState.setBytes
    cases p.loc with
    | sbuf => exact SizeKept.refl _
    | blk a => exact ⟨by simp, rfl, rfl⟩
  · cases h

theorem strcpy_kept {st st' : DState} {p q : Ptr} (h : st.strcpy p q = .ok st') : SizeKept st st' := by
  unfold DState.strcpy at h
  obtain ⟨b, -, h⟩ := mbind_ok_inv h
  split at h
  · cases h
  · exact write_kept h

theorem free_kept {st st' : DState} {p : Ptr} (h : st.free p = .ok st') : SizeKept st st' := by
  unfold DState.free at h
  cases hl : p.loc with
  | sbuf => rw [hl] at h; cases h
  | blk a =>
    rw [hl] at h
    dsimp only at h
    split at h
    · cases h
    · split at h
      · cases h; exact ⟨by simp, rfl, rfl⟩
      · cases h

theorem release_kept {st st' : DState} {f : FreeFn} {p : Ptr} (h : st.release f p = .ok st') : SizeKept st st' := by
  unfold DState.release at h
  cases f with
  | static => cases h; exact SizeKept.refl _
  | volatile => cases h
  | dynamic => exact free_kept h
  | custom k =>
    dsimp only at h
    cases hl : p.loc with
    | sbuf => rw [hl] at h; cases h
    | blk a =>
      rw [hl] at h
      dsimp only at h
      obtain ⟨s, -, h⟩ := mbind_ok_inv h
      cases h
      exact ⟨by simp, rfl, rfl⟩

theorem dstrFree_kept {st st' : DState} (h : dstrFree st = .ok st') : SizeKept st st' := by
  unfold dstrFree at h
  split at h
  · obtain ⟨s, h1, h⟩ := mbind_ok_inv h
    have hk := release_kept h1
    cases h
    exact hk
  · cases h; exact SizeKept.refl _

/-- What making room for `L` bytes (with the NUL) does. -/
def GrownTo (L : Int) (st st' : DState) : Prop :=
  (L ≥ st.ds.appendSize ∧ st'.ds.appendSize = (if L < 100 then 200 else L * 2) ∧ st'.heap.length = st.heap.length + 1) ∨
  (L < st.ds.appendSize ∧ st'.ds.appendSize = st.ds.appendSize ∧ st'.heap.length = st.heap.length)

theorem GrownTo.kept {L : Int} {a b c : DState} (h : GrownTo L a b) (h' : SizeKept b c) : GrownTo L a c := by
  obtain ⟨h1, h2, h3⟩ := h'
  unfold GrownTo
  rw [h1, h2]
  exact h

theorem chkInt_inv {i j : Int} (h : chkInt i = .ok j) : j = i := by
  unfold chkInt at h
  split at h
  · cases h; rfl
  · cases h

theorem dstrGrow_size {st st' : DState} {n : Int} (h : dstrGrow st n = .ok st') : GrownTo (n + st.ds.appendUsed) st st' := by
  unfold dstrGrow at h
  obtain ⟨t, ht, h⟩ := mbind_ok_inv h
  have ht := chkInt_inv ht
  subst ht
  split at h
  · rename_i hge
    have fin : ∀ T : Int, (do
        let (a, st) := st.malloc (List.replicate T.toNat (some '\x00'))
        let st ← st.strcpy ⟨.blk a, 0⟩ st.ds.data
        let st ← match st.ds.appendData with
          | some o => st.free ⟨.blk o, 0⟩
          | none => .ok st
        (.ok { st with ds := { st.ds with appendData := some a, appendSize := T } } : M DState)) = .ok st' →
        st'.ds.appendSize = T ∧ st'.heap.length = st.heap.length + 1 := by
      intro T h
      unfold DState.malloc at h
      dsimp only at h
      obtain ⟨s1, h1, h⟩ := mbind_ok_inv h
      have k1 := (strcpy_kept h1).1
      rw [List.length_append] at k1
      cases hd : s1.ds.appendData with
      | none =>
        rw [hd] at h
        cases h
        exact ⟨rfl, k1⟩
      | some o =>
        rw [hd] at h
        dsimp only at h
        obtain ⟨s2, h2, h⟩ := mbind_ok_inv h
        have k2 := (free_kept h2).1
        cases h
        exact ⟨rfl, k2.trans k1⟩
    refine Or.inl ⟨hge, ?_⟩
    dsimp only at h
    split at h
    · rename_i hs
      rw [if_pos hs]
      exact fin 200 h
    · rename_i hs
      rw [if_neg hs]
      obtain ⟨T, hT, h⟩ := mbind_ok_inv h
      have hT := chkInt_inv hT
      subst hT
      exact fin _ h
  · rename_i hlt
    have hlt : n + st.ds.appendUsed < st.ds.appendSize := by omega
    split at h
    · cases h
    · split at h
      · exact Or.inr ⟨hlt, (strcpy_kept h).2.1, (strcpy_kept h).1⟩
      · cases h; exact Or.inr ⟨hlt, rfl, rfl⟩

section
variable {base : Heap} {st : DState} {text : CStr} {S : List (Nat × List Byte)} {cus : List (Nat × CStr)}

theorem DInv.setup_size (h : DInv base st text S cus) (hlen : text.length < 2147483647) {n : Int} {st' : DState}
    (hs : dstrSetup st n = .ok st') : GrownTo (n + text.length) st st' := by
  obtain ⟨nn, sb, O, pend, hh, hm, hlog⟩ := h
  unfold dstrSetup at hs
  rw [dstrUsed_eq nn hlen hm, bind_ok] at hs
  obtain ⟨s1, h1, hs⟩ := mbind_ok_inv hs
  obtain ⟨s2, h2, hs⟩ := mbind_ok_inv hs
  have hg := (dstrGrow_size h1).kept (dstrFree_kept h2)
  split at hs
  · cases hs
    exact hg
  · cases hs

theorem DInv.cat_size (h : DInv base st text S cus) (hlen : text.length < 2147483647) {p : Ptr} {s : CStr}
    (hp : st.cstr p = .ok s) {st' : DState} (hs : dstrCat st p = .ok st') : GrownTo (text.length + s.length + 1) st st' := by
  unfold dstrCat at hs
  rw [hp, bind_ok] at hs
  obtain ⟨n, hn, hs⟩ := mbind_ok_inv hs
  have hn := chkInt_inv hn
  subst hn
  obtain ⟨s1, h1, hs⟩ := mbind_ok_inv hs
  obtain ⟨d, h2, hs⟩ := mbind_ok_inv hs
  obtain ⟨s', h3, hs⟩ := mbind_ok_inv hs
  have hg := h.setup_size hlen h1
  have : (s.length + 1 + text.length : Int) = text.length + s.length + 1 := by omega
  rw [this] at hg
  dsimp only at hs
  split at hs
  · cases hs
  · exact hg.kept (write_kept hs)

theorem DInv.catc_size (h : DInv base st text S cus) (hlen : text.length < 2147483647) {c : Char}
    {st' : DState} (hs : dstrCatc st c = .ok st') : GrownTo (text.length + 2) st st' := by
  unfold dstrCatc at hs
  obtain ⟨s1, h1, hs⟩ := mbind_ok_inv hs
  obtain ⟨d, h2, hs⟩ := mbind_ok_inv hs
  have hg := h.setup_size hlen h1
  have : (2 + text.length : Int) = text.length + 2 := by omega
  rw [this] at hg
  exact hg.kept (write_kept hs)

/-! ### the size of the buffer along a history -/

/-- The buffer is at most twice as long as the text with its NUL, or 200 bytes long. -/
def SizeOK (st : DState) (text : CStr) : Prop := st.ds.appendSize ≤ max 200 (2 * ((text.length : Int) + 1))

theorem SizeOK.grown {st' : DState} {text' : CStr} (h : SizeOK st text) (hg : GrownTo (text'.length + 1) st st')
    (hl : text.length ≤ text'.length) : SizeOK st' text' := by
  unfold SizeOK at h ⊢
  rcases hg with ⟨-, h1, -⟩ | ⟨-, h1, -⟩
  · rw [h1]
    split <;> omega
  · rw [h1]
    omega

theorem freeAppend_size {st' : DState} (h : dstrFreeAppend st = .ok st') : st'.ds.appendData = none ∨ st'.ds.appendSize ≤ 0 := by
  unfold dstrFreeAppend at h
  split at h
  · split at h
    · obtain ⟨s, -, h⟩ := mbind_ok_inv h
      cases h
      exact Or.inl rfl
    · cases h
      right; omega
  · cases h
    left; assumption

theorem DInv.no_buffer (h : DInv base st text S cus) (hn : st.ds.appendData = none ∨ st.ds.appendSize ≤ 0) : st.ds.appendSize ≤ 0 := by
  rcases hn with hn | hn
  · obtain ⟨-, -, O, pend, -, hm, -⟩ := h
    cases hm with
    | inline k1 k2 k3 k4 k5 => omega
    | const a k1 k2 k3 k4 k5 => omega
    | dynamic a k1 k2 k3 k4 k5 => omega
    | custom a k k1 k2 k3 k4 k5 => omega
    | append a m k1 k2 k3 k4 k5 k6 k7 => rw [hn] at k3; cases k3
  · exact hn

theorem dstrSet_size {p : Option Ptr} {f : FreeFn} {st' : DState} (h : dstrSet st p f = .ok st') :
    st'.ds.appendData = none ∨ st'.ds.appendSize ≤ 0 := by
  unfold dstrSet at h
  obtain ⟨s1, -, h⟩ := mbind_ok_inv h
  dsimp only at h
  split at h
  · obtain ⟨s2, -, h⟩ := mbind_ok_inv h
    exact freeAppend_size h
  · exact freeAppend_size h

theorem dstrReset_size {st' : DState} (h : dstrReset st = .ok st') : st'.ds.appendData = none ∨ st'.ds.appendSize ≤ 0 := by
  unfold dstrReset at h
  obtain ⟨s1, -, h⟩ := mbind_ok_inv h
  obtain ⟨s2, h2, h⟩ := mbind_ok_inv h
  have := freeAppend_size h2
  obtain ⟨k1, k2, k3⟩ := write_kept h
  rw [k2, k3]
  exact this

theorem catfLoop_ds (t : CStr) : ∀ (k : Nat) (st : DState) (n : Int) {a : Nat} {st' : DState}, catfLoop t k st n = .ok (a, st') →
    st'.ds.appendSize = st.ds.appendSize := by
  intro k
  induction k with
  | zero => intro st n a st' h; cases h
  | succ k ih =>
    intro st n a st' h
    unfold catfLoop at h
    obtain ⟨m, -, h⟩ := mbind_ok_inv h
    dsimp only [DState.malloc] at h
    obtain ⟨s1, h1, h⟩ := mbind_ok_inv h
    obtain ⟨r, -, h⟩ := mbind_ok_inv h
    obtain ⟨b, -, h⟩ := mbind_ok_inv h
    have k1 := (write_kept h1).2.1
    dsimp only at k1
    split at h
    · cases h; exact k1
    · have fin : ∀ n, (do
          let st ← s1.free ⟨.blk st.heap.length, 0⟩
          catfLoop t k st n) = .ok (a, st') → st'.ds.appendSize = st.ds.appendSize := by
        intro n h
        obtain ⟨s2, h2, h⟩ := mbind_ok_inv h
        rw [ih _ _ h, (free_kept h2).2.1, k1]
      split at h
      · exact fin _ h
      · obtain ⟨n', -, h⟩ := mbind_ok_inv h
        exact fin _ h

theorem DInv.catf_size (h : DInv base st text S cus) {l : Nat} {t : CStr} (ht : '\x00' ∉ t)
    (hb : text.length + t.length ≤ 500000000) (hl : l ≤ 500000000) (hz : SizeOK st text) {st' : DState}
    (hs : dstrCatf st (some l) t = .ok st') : SizeOK st' (text ++ t) := by
  unfold dstrCatf at hs
  dsimp only at hs
  rw [chkInt_ok (by omega) (by omega), bind_ok] at hs
  obtain ⟨n, hn, hn1, hn2⟩ : ∃ n : Nat, (if (2 * (l : Int)) < 16 then (16 : Int) else 2 * l) = n ∧ n ≤ 1000000000 ∧ 0 < n := by
    split
    · exact ⟨16, rfl, by omega, by omega⟩
    · exact ⟨2 * l, by omega, by omega, by omega⟩
  rw [hn] at hs
  obtain ⟨st1, b, e1, h1, hb1⟩ := DInv.catfLoop t ht (by omega) h n hn1 hn2
  have hsz := catfLoop_ds _ _ _ _ e1
  rw [e1, bind_ok] at hs
  dsimp only at hs
  obtain ⟨s2, h2, hs⟩ := mbind_ok_inv hs
  have hp : (DState.mk (st1.heap ++ [some b]) st1.ds st1.log).cstr ⟨.blk st1.heap.length, 0⟩ = .ok t := by
    rw [cstr_blk (b := b) (by dsimp only; rw [get_snoc, if_pos rfl]), hb1]
  have hg := (h1.lend b).cat_size (by omega) hp h2
  have hz1 : SizeOK (DState.mk (st1.heap ++ [some b]) st1.ds st1.log) text := by
    unfold SizeOK at hz ⊢
    dsimp only at hsz ⊢
    omega
  refine hz1.grown (text' := text ++ t) ?_ (by simp)
  have hl : (((text ++ t).length : Nat) : Int) + 1 = text.length + t.length + 1 := by simp
  rw [hl]
  exact hg.kept (free_kept hs)

theorem SizeOK.of_none {st' : DState} {text' : CStr} (h : st'.ds.appendSize ≤ 0) : SizeOK st' text' := by
  unfold SizeOK; omega

/-- One call keeps the bound on the size of the buffer. -/
theorem DInv.exec_size (h : DInv base st text S cus) (c : DCmd) (hc : c.Proper) (hb : text.length + c.size ≤ 500000000)
    (hz : SizeOK st text) {st' : DState} (hs : c.exec st = .ok st') : SizeOK st' (c.after text) := by
  obtain ⟨st1, S', e, h', -⟩ := h.exec c hc hb
  cases hs.symm.trans e
  cases c with
  | setNull => exact SizeOK.of_none (h'.no_buffer (dstrSet_size hs))
  | setVolatile s =>
    unfold DCmd.exec DState.malloc at hs
    dsimp only at hs
    obtain ⟨s1, h1, hs⟩ := mbind_ok_inv hs
    obtain ⟨k1, k2, k3⟩ := free_kept hs
    refine SizeOK.of_none (h'.no_buffer ?_)
    rw [k2, k3]
    exact dstrSet_size h1
  | setStatic s =>
    unfold DCmd.exec DState.malloc at hs
    exact SizeOK.of_none (h'.no_buffer (dstrSet_size hs))
  | setDynamic s =>
    unfold DCmd.exec DState.malloc at hs
    exact SizeOK.of_none (h'.no_buffer (dstrSet_size hs))
  | setCustom k s =>
    unfold DCmd.exec DState.malloc at hs
    exact SizeOK.of_none (h'.no_buffer (dstrSet_size hs))
  | cat s =>
    simp only [DCmd.Proper, DCmd.size] at hc hb
    unfold DCmd.exec DState.malloc at hs
    dsimp only at hs
    obtain ⟨s1, h1, hs⟩ := mbind_ok_inv hs
    have hp : (DState.mk (st.heap ++ [some (strBytes s)]) st.ds st.log).cstr ⟨.blk st.heap.length, 0⟩ = .ok s := by
      rw [cstr_blk (b := strBytes s) (by dsimp only; rw [get_snoc, if_pos rfl]), scanStr_strBytes hc]
    have hg := (h.lend (strBytes s)).cat_size (by omega) hp h1
    have hz1 : SizeOK (DState.mk (st.heap ++ [some (strBytes s)]) st.ds st.log) text := hz
    refine hz1.grown (text' := text ++ s) ?_ (by simp)
    have hl : (((text ++ s).length : Nat) : Int) + 1 = text.length + s.length + 1 := by simp
    rw [hl]
    exact hg.kept (free_kept hs)
  | catc c =>
    simp only [DCmd.size] at hb
    refine hz.grown (text' := text ++ [c]) ?_ (by simp)
    have hl : (((text ++ [c]).length : Nat) : Int) + 1 = text.length + 2 := by simp; omega
    rw [hl]
    exact h.catc_size (by omega) hs
  | catf l t =>
    simp only [DCmd.Proper, DCmd.size] at hc hb
    cases l with
    | none =>
      cases hs
      exact hz
    | some l =>
      simp only [Option.getD] at hb
      exact h.catf_size hc (by omega) (by omega) hz hs
  | reset => exact SizeOK.of_none (h'.no_buffer (dstrReset_size hs))

end

theorem DInv.execAll_size {base : Heap} : ∀ (cmds : List DCmd) {st : DState} {text : CStr} {S : List (Nat × List Byte)}
    {cus : List (Nat × CStr)}, DInv base st text S cus → (∀ c ∈ cmds, c.Proper) →
    text.length + (cmds.map DCmd.size).sum ≤ 500000000 → SizeOK st text →
    ∀ {st'}, Spec.execAll st cmds = .ok st' → SizeOK st' (cmds.foldl DCmd.after text) := by
  intro cmds
  induction cmds with
  | nil => intro st text S cus h _ _ hz st' hs; cases hs; exact hz
  | cons c cmds ih =>
    intro st text S cus h hp hb hz st' hs
    simp only [List.map_cons, List.sum_cons] at hb
    obtain ⟨st1, S1, e1, h1, -⟩ := h.exec c (hp c (by simp)) (by omega)
    have hz1 := h.exec_size c (hp c (by simp)) (by omega) hz e1
    have := after_length text c
    unfold Spec.execAll at hs
    rw [e1, bind_ok] at hs
    exact ih h1 (fun c hc => hp c (by simp [hc])) (by omega) hz1 hs

/-! ### the bytes allocated -/

theorem allocatedBytes_set {heap : Heap} {a : Nat} {b : List Byte} (h : heap[a]? = some (some b)) :
    allocatedBytes heap = allocatedBytes (heap.set a none) + b.length := by
  unfold allocatedBytes liveBlocks
  induction heap generalizing a with
  | nil => simp at h
  | cons x heap ih =>
    cases a with
    | zero =>
      simp only [List.getElem?_cons_zero, Option.some.injEq] at h
      subst h
      rw [List.set_cons_zero]
      simp [Nat.add_comm]
    | succ a =>
      rw [List.getElem?_cons_succ] at h
      have := ih h
      rw [List.set_cons_succ]
      cases x with
      | none => simpa using this
      | some y => simp at this ⊢; omega

/-- What the object itself holds is at most one block, of at most twice the text's size, or of 200 bytes. -/
theorem DInv.bytes_le {base : Heap} {st : DState} {text : CStr} {S : List (Nat × List Byte)} {cus : List (Nat × CStr)}
    (h : DInv base st text S cus) (hz : SizeOK st text) :
    allocatedBytes st.heap ≤ allocatedBytes base + ((S.map (·.2)).map List.length).sum + max 200 (2 * (text.length + 1)) := by
  obtain ⟨-, -, O, pend, hh, hm, -⟩ := h
  have h1 := hh
  rw [← List.append_nil O] at h1
  have h2 : allocatedBytes (kill st.heap O) = allocatedBytes base + ((S.map (·.2)).map List.length).sum := by
    unfold allocatedBytes
    rw [h1.kill.liveBlocks, List.map_append, List.sum_append]
  have one : ∀ {a : Nat} {b : List Byte}, O = [a] → st.heap[a]? = some (some b) → b.length ≤ max 200 (2 * (text.length + 1)) →
      allocatedBytes st.heap ≤ allocatedBytes base + ((S.map (·.2)).map List.length).sum + max 200 (2 * (text.length + 1)) := by
    intro a b hO hb hl
    rw [hO] at h2
    unfold kill at h2
    have := allocatedBytes_set hb
    simp only [kill] at h2
    omega
  have hstr : (strBytes text).length = text.length + 1 := by simp [strBytes_eq, bytesOf]
  unfold SizeOK at hz
  cases hm with
  | inline k1 k2 k3 k4 k5 => simp only [kill] at h2; omega
  | const a k1 k2 k3 k4 k5 => simp only [kill] at h2; omega
  | dynamic a k1 k2 k3 k4 k5 => exact one rfl k5 (by omega)
  | custom a k k1 k2 k3 k4 k5 => exact one rfl k5 (by omega)
  | append a m k1 k2 k3 k4 k5 k6 k7 =>
    refine one rfl k7 ?_
    rw [k4] at hz
    simp [bytesOf]
    omega

/-! ### how often the buffer grows -/

/-- After `g` growths in a history that only appends. -/
structure GrowInv (st : DState) (text : CStr) (g : Nat) : Prop where
  none : g = 0 → st.ds.appendSize = 0
  some : 1 ≤ g → (100 : Int) * 2 ^ g ≤ st.ds.appendSize
  ok : SizeOK st text

theorem GrowInv.grown {st st' : DState} {text text' : CStr} {g : Nat} (h : GrowInv st text g)
    (hg : GrownTo (text'.length + 1) st st') (hl : text.length ≤ text'.length) :
    ∃ g', GrowInv st' text' g' ∧ st'.heap.length + g = st.heap.length + g' := by
  have hok := h.ok.grown hg hl
  rcases hg with ⟨h0, h1, h2⟩ | ⟨h0, h1, h2⟩
  · refine ⟨g + 1, ⟨by omega, fun _ => ?_, hok⟩, by omega⟩
    rw [h1, pow_succ]
    rcases Nat.eq_zero_or_pos g with rfl | hpos
    · simp; split <;> omega
    · have := h.some hpos
      have h2 : (2 : Int) ≤ 2 ^ g := by
        calc (2 : Int) = 2 ^ 1 := by norm_num
          _ ≤ 2 ^ g := pow_le_pow_right₀ (by norm_num) hpos
      rw [if_neg (by omega)]
      omega
  · refine ⟨g, ⟨fun e => by rw [h1]; exact h.none e, fun e => by rw [h1]; exact h.some e, hok⟩, by omega⟩

theorem DInv.execAll_grow {base : Heap} : ∀ (cmds : List DCmd) {st : DState} {text : CStr} {S : List (Nat × List Byte)}
    {cus : List (Nat × CStr)} {g : Nat}, DInv base st text S cus → (∀ c ∈ cmds, c.Proper) → (∀ c ∈ cmds, c.appends = true) →
    text.length + (cmds.map DCmd.size).sum ≤ 500000000 → GrowInv st text g →
    ∀ {st'}, Spec.execAll st cmds = .ok st' → ∃ g', GrowInv st' (cmds.foldl DCmd.after text) g' ∧
      st'.heap.length + g = st.heap.length + (cmds.map DCmd.lends).sum + g' := by
  intro cmds
  induction cmds with
  | nil => intro st text S cus g h _ _ _ hz st' hs; cases hs; exact ⟨g, hz, by simp⟩
  | cons c cmds ih =>
    intro st text S cus g h hp ha hb hz st' hs
    simp only [List.map_cons, List.sum_cons] at hb
    obtain ⟨st1, S1, e1, h1, -⟩ := h.exec c (hp c (by simp)) (by omega)
    have := after_length text c
    unfold Spec.execAll at hs
    rw [e1, bind_ok] at hs
    have hc := hp c (by simp)
    have hap := ha c (by simp)
    obtain ⟨g1, hg1, hl1⟩ : ∃ g1, GrowInv st1 (c.after text) g1 ∧ st1.heap.length + g = st.heap.length + c.lends + g1 := by
      cases c with
      | cat s =>
        simp only [DCmd.Proper, DCmd.size] at hc hb
        unfold DCmd.exec DState.malloc at e1
        dsimp only at e1
        obtain ⟨s1, e2, e3⟩ := mbind_ok_inv e1
        have hps : (DState.mk (st.heap ++ [some (strBytes s)]) st.ds st.log).cstr ⟨.blk st.heap.length, 0⟩ = .ok s := by
          rw [cstr_blk (b := strBytes s) (by dsimp only; rw [get_snoc, if_pos rfl]), scanStr_strBytes hc]
        have hg := ((h.lend (strBytes s)).cat_size (by omega) hps e2).kept (free_kept e3)
        have hz1 : GrowInv (DState.mk (st.heap ++ [some (strBytes s)]) st.ds st.log) text g := ⟨hz.none, hz.some, hz.ok⟩
        have hl : (((text ++ s).length : Nat) : Int) + 1 = text.length + s.length + 1 := by simp
        rw [← hl] at hg
        obtain ⟨g1, k1, k2⟩ := hz1.grown hg (by simp)
        refine ⟨g1, k1, ?_⟩
        simp only [List.length_append, List.length_singleton] at k2
        simp only [DCmd.lends]
        omega
      | catc c =>
        simp only [DCmd.size] at hb
        have hg := h.catc_size (by omega) e1
        have hl : (((text ++ [c]).length : Nat) : Int) + 1 = text.length + 2 := by simp; omega
        rw [← hl] at hg
        obtain ⟨g1, k1, k2⟩ := hz.grown hg (by simp)
        exact ⟨g1, k1, by simp only [DCmd.lends]; omega⟩
      | _ => cases hap
    obtain ⟨g2, k1, k2⟩ := ih h1 (fun c hc => hp c (by simp [hc])) (fun c hc => ha c (by simp [hc])) (by omega) hg1 hs
    refine ⟨g2, k1, ?_⟩
    simp only [List.map_cons, List.sum_cons]
    omega

/-! ### the counter changes nothing -/

theorem spend_out (n : Nat) : (spend n).out = .ok () := rfl
theorem spend_calls (n : Nat) : (spend n).calls = n := rfl

theorem strlenN_out (st : DState) (p : Ptr) : (strlenN st p).out = st.cstr p := by
  unfold strlenN
  rw [Counted.bind_out, free_out]
  cases st.cstr p <;> rfl

theorem strcpyN_out (st : DState) (p q : Ptr) : (strcpyN st p q).out = st.strcpy p q := by
  unfold strcpyN DState.strcpy
  rw [Counted.bind_out, free_out]
  cases st.cstr q <;> rfl

theorem dstrUsedN_out (st : DState) : (dstrUsedN st).out = dstrUsed st := by
  unfold dstrUsedN dstrUsed
  by_cases h : some st.ds.data ≠ st.ds.appendPtr
  · rw [if_pos h, if_pos h]
    simp only [Counted.bind_out, free_out, strlenN_out, pure_out]
    by_cases h2 : st.ds.appendSize > 500
    · rw [if_pos h2, if_pos h2]
      cases st.ds.appendData with
      | none => rfl
      | some a =>
        dsimp only
        cases st.free ⟨.blk a, 0⟩ <;> rfl
    · rw [if_neg h2, if_neg h2]
  · rw [if_neg h, if_neg h, Counted.bind_out, free_out]
    congr 1
    funext b
    by_cases h2 : st.ds.appendUsed < 0
    · rw [if_pos h2, if_pos h2, free_out]
    · rw [if_neg h2, if_neg h2]
      rcases b[st.ds.data.off + st.ds.appendUsed.toNat]? with _ | _ | c
      · rfl
      · rfl
      · dsimp only
        rw [Counted.bind_out, spend_out, bind_ok]
        by_cases h3 : c ≠ '\x00'
        · rw [if_pos h3, if_pos h3]
          simp only [Counted.bind_out, free_out, strlenN_out, pure_out]
        · rw [if_neg h3, if_neg h3, pure_out]

/-- The part of `dstrGrow` that makes a new buffer of `T` bytes. -/
def newBuffer (st : DState) (T : Int) : M DState := do
  let st' ← (DState.mk (st.heap ++ [some (List.replicate T.toNat (some '\x00'))]) st.ds st.log).strcpy ⟨.blk st.heap.length, 0⟩ st.ds.data
  let st'' ← match st'.ds.appendData with
    | some o => st'.free ⟨.blk o, 0⟩
    | none => .ok st'
  .ok { st'' with ds := { st''.ds with appendData := some st.heap.length, appendSize := T } }

/-- The same, with the counter. -/
def newBufferN (st : DState) (T : Int) : Counted DState := do
  spend T.toNat
  let st' ← strcpyN (DState.mk (st.heap ++ [some (List.replicate T.toNat (some '\x00'))]) st.ds st.log) ⟨.blk st.heap.length, 0⟩ st.ds.data
  let st'' ← free (match st'.ds.appendData with
    | some o => st'.free ⟨.blk o, 0⟩
    | none => .ok st')
  pure { st'' with ds := { st''.ds with appendData := some st.heap.length, appendSize := T } }

theorem newBufferN_out (st : DState) (T : Int) : (newBufferN st T).out = newBuffer st T := by
  unfold newBufferN newBuffer
  simp only [Counted.bind_out, free_out, strcpyN_out, pure_out, spend_out, bind_ok]
  congr 1
  funext st'
  cases st'.ds.appendData with
  | none => rfl
  | some o => dsimp only

theorem dstrGrow_eq (st : DState) (n : Int) : dstrGrow st n = (do
    let t ← chkInt (n + st.ds.appendUsed)
    if t ≥ st.ds.appendSize then do
      let T ← (if t < 100 then .ok 200 else chkInt (t * 2) : M Int)
      newBuffer st T
    else match st.ds.appendData with
      | none => .error (.ub "setup_append_buf: NULL append buffer")
      | some a => if st.ds.data ≠ ⟨.blk a, 0⟩ then st.strcpy ⟨.blk a, 0⟩ st.ds.data else .ok st) := by
  unfold dstrGrow
  congr 1
  funext t
  by_cases h : t ≥ st.ds.appendSize
  · rw [if_pos h, if_pos h]
    by_cases h2 : t < 100
    · rw [if_pos h2, if_pos h2]
      rfl
    · rw [if_neg h2, if_neg h2]
      rfl
  · rw [if_neg h, if_neg h]
    cases st.ds.appendData <;> rfl

theorem dstrGrowN_eq (st : DState) (n : Int) : dstrGrowN st n = (do
    let t ← free (chkInt (n + st.ds.appendUsed))
    if t ≥ st.ds.appendSize then do
      let T ← free (if t < 100 then .ok 200 else chkInt (t * 2) : M Int)
      newBufferN st T
    else match st.ds.appendData with
      | none => free (.error (.ub "setup_append_buf: NULL append buffer"))
      | some a => if st.ds.data ≠ ⟨.blk a, 0⟩ then strcpyN st ⟨.blk a, 0⟩ st.ds.data else pure st) := rfl

theorem dstrGrowN_out (st : DState) (n : Int) : (dstrGrowN st n).out = dstrGrow st n := by
  rw [dstrGrow_eq, dstrGrowN_eq, Counted.bind_out, free_out]
  congr 1
  funext t
  by_cases h : t ≥ st.ds.appendSize
  · rw [if_pos h, if_pos h, Counted.bind_out, free_out]
    congr 1
    funext T
    exact newBufferN_out st T
  · rw [if_neg h, if_neg h]
    cases st.ds.appendData with
    | none => rfl
    | some a =>
      dsimp only
      split
      · rw [strcpyN_out]
      · rfl

theorem dstrSetupN_out (st : DState) (n : Int) : (dstrSetupN st n).out = dstrSetup st n := by
  unfold dstrSetupN dstrSetup
  rw [Counted.bind_out, dstrUsedN_out]
  refine bind_congr fun s => ?_
  rw [Counted.bind_out, dstrGrowN_out]
  refine bind_congr fun s => ?_
  rw [Counted.bind_out, free_out]
  refine bind_congr fun s => ?_
  cases s.ds.appendData <;> rfl

theorem dstrCatN_out (st : DState) (p : Ptr) : (dstrCatN st p).out = dstrCat st p := by
  unfold dstrCatN dstrCat
  rw [Counted.bind_out, strlenN_out]
  refine bind_congr fun s => ?_
  rw [Counted.bind_out, free_out]
  refine bind_congr fun n => ?_
  rw [Counted.bind_out, dstrSetupN_out]
  refine bind_congr fun st1 => ?_
  rw [Counted.bind_out, strlenN_out]
  refine bind_congr fun d => ?_
  rw [Counted.bind_out, strlenN_out]
  refine bind_congr fun s' => ?_
  dsimp only
  split <;> rfl

theorem dstrCatcN_out (st : DState) (c : Char) : (dstrCatcN st c).out = dstrCatc st c := by
  unfold dstrCatcN dstrCatc
  rw [Counted.bind_out, dstrSetupN_out]
  refine bind_congr fun st1 => ?_
  rw [Counted.bind_out, strlenN_out]
  rfl

/-! ### how many bytes are looked at -/

theorem strlenN_calls {st : DState} {p : Ptr} {s : CStr} (h : st.cstr p = .ok s) : (strlenN st p).calls = s.length + 1 := by
  unfold strlenN
  rw [free_bind h]
  show 0 + (s.length + 1 + 0) = _
  omega

theorem strcpyN_calls {st : DState} {p q : Ptr} {s : CStr} (h : st.cstr q = .ok s) : (strcpyN st p q).calls = s.length + 1 := by
  unfold strcpyN
  rw [free_bind h]
  show 0 + (s.length + 1 + 0) = _
  omega

section
variable {base : Heap} {st : DState} {text : CStr} {S : List (Nat × List Byte)} {cus : List (Nat × CStr)}

theorem dstrUsedN_calls {O : List Nat} {pend : List (Nat × CStr)} (nn : '\x00' ∉ text)
    (hm : DMode st.heap st.ds text O pend) : (dstrUsedN st).calls ≤ text.length + 2 := by
  have hc := mode_cstr nn hm
  have easy : st.ds.appendSize = 0 → (dstrUsedN st).calls ≤ text.length + 2 := by
    intro h2
    unfold dstrUsedN
    split
    · refine Nat.le_trans (Counted.bind_calls_le (A := 0) (B := text.length + 1) (Nat.le_refl _) ?_) (by omega)
      intro a ha
      rw [free_out, if_neg (by omega)] at ha
      cases ha
      refine Counted.bind_calls_le (A := text.length + 1) (B := 0) (Nat.le_of_eq (strlenN_calls hc)) ?_
      intro s _
      exact Counted.bind_calls_le (A := 0) (B := 0) (Nat.le_refl _) (fun _ _ => Nat.le_refl _)
    · refine Nat.le_trans (Counted.bind_calls_le (A := 0) (B := text.length + 2) (Nat.le_refl _) ?_) (by omega)
      intro b _
      split
      · exact Nat.zero_le _
      · split
        · exact Nat.zero_le _
        · exact Nat.zero_le _
        · refine Nat.le_trans (Counted.bind_calls_le (A := 1) (B := text.length + 1) (Nat.le_refl _) ?_) (by omega)
          intro _ _
          split
          · refine Counted.bind_calls_le (A := text.length + 1) (B := 0) (Nat.le_of_eq (strlenN_calls hc)) ?_
            intro s _
            exact Counted.bind_calls_le (A := 0) (B := 0) (Nat.le_refl _) (fun _ _ => Nat.le_refl _)
          · exact Nat.zero_le _
  cases hm with
  | inline k1 k2 k3 k4 k5 => exact easy k4
  | const a k1 k2 k3 k4 k5 => exact easy k4
  | dynamic a k1 k2 k3 k4 k5 => exact easy k4
  | custom a k k1 k2 k3 k4 k5 => exact easy k4
  | append a m k1 k2 k3 k4 k5 k6 k7 =>
    unfold dstrUsedN Dstr.appendPtr
    rw [if_neg (by rw [k3, k1]; simp)]
    refine Nat.le_trans (Counted.bind_calls_le (A := 0) (B := text.length + 2) (Nat.le_refl _) ?_) (by omega)
    intro b _
    split
    · exact Nat.zero_le _
    · split
      · exact Nat.zero_le _
      · exact Nat.zero_le _
      · refine Nat.le_trans (Counted.bind_calls_le (A := 1) (B := text.length + 1) (Nat.le_refl _) ?_) (by omega)
        intro _ _
        split
        · refine Counted.bind_calls_le (A := text.length + 1) (B := 0) (Nat.le_of_eq (strlenN_calls hc)) ?_
          intro s _
          exact Counted.bind_calls_le (A := 0) (B := 0) (Nat.le_refl _) (fun _ _ => Nat.le_refl _)
        · exact Nat.zero_le _

/-- A new block does not change a string that is already there. -/
theorem cstr_more {p : Ptr} {s : CStr} (h : st.cstr p = .ok s) (b : List Byte) :
    (DState.mk (st.heap ++ [some b]) st.ds st.log).cstr p = .ok s := by
  rw [← h]
  unfold DState.cstr DState.bytes
  cases hpl : p.loc with
  | sbuf => rfl
  | blk a =>
    dsimp only
    rw [get_snoc, if_neg]
    rintro rfl
    unfold DState.cstr DState.bytes at h
    rw [hpl] at h
    dsimp only at h
    rw [List.getElem?_eq_none (by omega)] at h
    cases h

theorem newBufferN_calls (hc : st.cstr st.ds.data = .ok text) (T : Int) :
    (newBufferN st T).calls ≤ T.toNat + (text.length + 1) := by
  unfold newBufferN
  refine Counted.bind_calls_le (Nat.le_of_eq (spend_calls _)) ?_
  intro _ _
  refine Counted.bind_calls_le (A := text.length + 1) (B := 0) (Nat.le_of_eq (strcpyN_calls (cstr_more hc _))) ?_
  intro s _
  exact Counted.bind_calls_le (A := 0) (B := 0) (Nat.le_refl _) (fun _ _ => Nat.le_refl _)

theorem dstrGrowN_calls (hc : st.cstr st.ds.data = .ok text) (hu : st.ds.appendUsed = text.length) (n : Nat) :
    (dstrGrowN st n).calls ≤ 200 + 2 * (n + text.length) + (text.length + 1) := by
  rw [dstrGrowN_eq]
  refine Nat.le_trans (Counted.bind_calls_le (A := 0) (Nat.le_refl _) (B := 200 + 2 * (n + text.length) + (text.length + 1)) ?_)
    (by omega)
  intro t ht
  rw [free_out] at ht
  have ht := chkInt_inv ht
  rw [hu] at ht
  split
  · refine Nat.le_trans (Counted.bind_calls_le (A := 0) (Nat.le_refl _) (B := 200 + 2 * (n + text.length) + (text.length + 1)) ?_)
      (by omega)
    intro T hT
    rw [free_out] at hT
    have hT2 : T.toNat ≤ 200 + 2 * (n + text.length) := by
      split at hT
      · cases hT
        show 200 ≤ _
        omega
      · have := chkInt_inv hT
        omega
    have := newBufferN_calls hc T
    omega
  · split
    · exact Nat.zero_le _
    · split
      · rw [strcpyN_calls hc]
        omega
      · exact Nat.zero_le _

theorem DInv.setupN_calls (h : DInv base st text S cus) (hlen : text.length < 2147483647) (n : Nat) :
    (dstrSetupN st n).calls ≤ text.length + 2 + (200 + 2 * (n + text.length) + (text.length + 1)) := by
  obtain ⟨nn, sb, O, pend, hh, hm, hlog⟩ := h
  unfold dstrSetupN
  refine Counted.bind_calls_le (dstrUsedN_calls nn hm) ?_
  intro s1 h1
  rw [dstrUsedN_out, dstrUsed_eq nn hlen hm] at h1
  cases h1
  have hc' : (DState.mk st.heap { st.ds with appendUsed := text.length } st.log).cstr st.ds.data = .ok text := by
    have hc := mode_cstr nn hm
    exact hc
  refine Counted.bind_calls_le (A := _) (B := 0) (dstrGrowN_calls
    (st := DState.mk st.heap { st.ds with appendUsed := text.length } st.log) hc' rfl n) ?_
  intro s2 _
  refine Counted.bind_calls_le (A := 0) (B := 0) (Nat.le_refl _) ?_
  intro s3 _
  split <;> exact Nat.le_refl _

/-- The bytes that one call of `arg_dstr_catc` looks at or writes. -/
theorem DInv.catcN_calls (h : DInv base st text S cus) {c : Char} (hb : 2 * (text.length + 2) ≤ 2147483647) :
    text.length + 1 ≤ (dstrCatcN st c).calls ∧ (dstrCatcN st c).calls ≤ 5 * text.length + 210 := by
  have nn := h.nn
  obtain ⟨st1, a, m, e1, hr, hm⟩ := h.setup (n := 2) (by omega) (by omega)
  have hk := h.setupN_calls (by omega) 2
  have e2 : (dstrSetupN st (2 : Nat)).out = .ok st1 := (dstrSetupN_out _ _).trans e1
  unfold dstrCatcN
  have e3 : (dstrSetupN st 2).out = .ok st1 := e2
  have hk : (dstrSetupN st 2).calls ≤ text.length + 2 + (200 + 2 * (2 + text.length) + (text.length + 1)) := hk
  rw [Counted.bind_calls _ _ e3, Counted.bind_calls _ _ ((strlenN_out _ _).trans (hr.cstr nn)), strlenN_calls (hr.cstr nn)]
  have : ∀ x : M DState, (spend 1 >>= fun _ => free x).calls = 1 := by
    intro x
    show 1 + 0 = 1
    rfl
  rw [this]
  omega

/-- The bytes that one call of `arg_dstr_cat` looks at or writes. -/
theorem DInv.catN_calls (h : DInv base st text S cus) {t : Nat} {s : CStr} (ht : (t, strBytes s) ∈ S) (hs : '\x00' ∉ s)
    (hb : 2 * (text.length + s.length + 1) ≤ 2147483647) :
    text.length + 3 * s.length + 1 ≤ (dstrCatN st ⟨.blk t, 0⟩).calls ∧
    (dstrCatN st ⟨.blk t, 0⟩).calls ≤ 5 * (text.length + s.length) + 208 := by
  have nn := h.nn
  obtain ⟨O, pend, hh, -, -⟩ := h.main
  have hp : st.cstr ⟨.blk t, 0⟩ = .ok s := by rw [cstr_blk (hh.user _ ht).2.1, scanStr_strBytes hs]
  obtain ⟨st1, a, m, e1, hr, hm⟩ := h.setup (n := s.length + 1) (by omega) (by omega)
  have hp1 : st1.cstr ⟨.blk t, 0⟩ = .ok s := by rw [cstr_blk (hr.heap.user _ ht).2.1, scanStr_strBytes hs]
  have hk := h.setupN_calls (by omega) (s.length + 1)
  have e2 : (dstrSetupN st ((s.length + 1 : Nat) : Int)).out = .ok st1 := (dstrSetupN_out _ _).trans e1
  unfold dstrCatN
  rw [Counted.bind_calls _ _ ((strlenN_out _ _).trans hp), strlenN_calls hp]
  have hchk : (free (chkInt (s.length + 1))).out = .ok ((s.length + 1 : Nat) : Int) := by
    rw [free_out, chkInt_ok (by omega) (by omega)]
    rfl
  rw [Counted.bind_calls _ _ hchk, free_calls, Counted.bind_calls _ _ e2,
    Counted.bind_calls _ _ ((strlenN_out _ _).trans (hr.cstr nn)), strlenN_calls (hr.cstr nn),
    Counted.bind_calls _ _ ((strlenN_out _ _).trans hp1), strlenN_calls hp1]
  dsimp only
  rw [if_neg]
  · have : ∀ x : M DState, (spend s.length >>= fun _ => free x).calls = s.length := by
      intro x
      show s.length + 0 = _
      rfl
    rw [this]
    omega
  · unfold overlap
    rintro ⟨e, -⟩
    rw [hr.data] at e
    cases e
    exact (hr.heap.user _ ht).2.2 (by simp)

/-- Appending character after character. -/
theorem DInv.catcAll (base : Heap) : ∀ (l : List Char) {st : DState} {text : CStr} {S : List (Nat × List Byte)}
    {cus : List (Nat × CStr)}, DInv base st text S cus → '\x00' ∉ l → 2 * (text.length + l.length + 1) ≤ 2147483647 →
    ∃ st', (catcAllN st l).out = .ok st' ∧ DInv base st' (text ++ l) S cus ∧
      l.length * (l.length + 1) + 2 * (l.length * text.length) ≤ 2 * (catcAllN st l).calls ∧
      (catcAllN st l).calls ≤ l.length * (5 * (text.length + l.length) + 205) := by
  intro l
  induction l with
  | nil => intro st text S cus h _ _; exact ⟨st, rfl, by simpa using h, by simp, by simp [catcAllN, pure_calls]⟩
  | cons c l ih =>
    intro st text S cus h hn hb
    simp only [List.mem_cons, not_or] at hn
    simp only [List.length_cons] at hb
    obtain ⟨st1, e1, h1⟩ := h.catc (c := c) (fun e => hn.1 e.symm) (by omega)
    obtain ⟨hlo, hhi⟩ := h.catcN_calls (c := c) (by omega)
    have e1' : (dstrCatcN st c).out = .ok st1 := (dstrCatcN_out _ _).trans e1
    obtain ⟨st2, e2, h2, k1, k2⟩ := ih h1 hn.2 (by simp; omega)
    have hout : (catcAllN st (c :: l)).out = .ok st2 := by
      unfold catcAllN
      rw [Counted.bind_out, e1', bind_ok, e2]
    have hcalls : (catcAllN st (c :: l)).calls = (dstrCatcN st c).calls + (catcAllN st1 l).calls := by
      conv_lhs => unfold catcAllN
      rw [Counted.bind_calls _ _ e1']
    have ht1 : (text ++ [c]).length = text.length + 1 := by simp
    refine ⟨st2, hout, by simpa using h2, ?_, ?_⟩
    · rw [hcalls, List.length_cons]
      rw [ht1] at k1
      nlinarith
    · rw [hcalls, List.length_cons]
      rw [ht1] at k2
      have : (l.length + 1) * (5 * (text.length + (l.length + 1)) + 205) =
          l.length * (5 * (text.length + 1 + l.length) + 205) + (5 * text.length + 210) + 5 * l.length := by ring
      omega

end
end Argtable
