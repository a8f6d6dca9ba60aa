import Verif.Proofs.DstrWork

/-!
# C90: what an arg_dstr costs

How much memory an object holds after any history of calls, how often its buffer grows, and how many bytes an append looks at.
-/

namespace Argtable
open Spec

/-- C90.  Whatever was done with an object before (longest text, number of calls), it holds at most one block, and this
has at most `max 200 (2 · (n + 1))` bytes, where `n` is the length of the text *now*: besides it, only what was allocated before
and the client's own static strings are allocated. -/
theorem C90_memory (heap : Heap) (cmds : List DCmd) (hp : ∀ c ∈ cmds, c.Proper)
    (hsize : (cmds.map DCmd.size).sum ≤ 500000000) :
    ∃ st, execAll (dstrCreate heap) cmds = .ok st ∧
      (liveBlocks st.heap).length ≤ (liveBlocks heap).length + (cmds.flatMap DCmd.static).length + 1 ∧
      allocatedBytes st.heap ≤ allocatedBytes heap + ((cmds.flatMap DCmd.static).map fun s => s.length + 1).sum +
        max 200 (2 * ((contents cmds).length + 1)) := by
  obtain ⟨st, S, e, h, hS⟩ := (DInv.create heap).execAll cmds hp (by simpa using hsize)
  have hz := (DInv.create heap).execAll_size cmds hp (by simpa using hsize) (SizeOK.of_none (Int.le_refl 0)) e
  refine ⟨st, e, ?_, ?_⟩
  · have := h.live_le
    have hl := congrArg List.length hS
    simp only [List.map_nil, List.nil_append, List.length_map] at hl
    rw [hl] at this
    exact this
  · have := h.bytes_le hz
    rw [hS] at this
    have hlen : (([] : List (Nat × List Byte)).map (·.2) ++ (cmds.flatMap DCmd.static).map strBytes).map List.length =
        (cmds.flatMap DCmd.static).map fun s => s.length + 1 := by
      simp [strBytes, bytesOf]
    rw [hlen] at this
    exact this

/-- C90.  A text that is made by appending, of `n` characters in the end, however many calls it took: the buffer was allocated
anew `g` times with `50 · 2^g ≤ max 100 (n + 1)`, that is, at most about log₂(n / 50) times.  (Every allocation adds one entry to
the model's heap; the client allocates one block for every string that it appends.) -/
theorem C90_growths (heap : Heap) (cmds : List DCmd) (hp : ∀ c ∈ cmds, c.Proper) (ha : ∀ c ∈ cmds, c.appends = true)
    (hsize : (cmds.map DCmd.size).sum ≤ 500000000) :
    ∃ st g, execAll (dstrCreate heap) cmds = .ok st ∧ st.heap.length = heap.length + (cmds.map DCmd.lends).sum + g ∧
      50 * 2 ^ g ≤ max 100 ((contents cmds).length + 1) := by
  obtain ⟨st, S, e, -, -⟩ := (DInv.create heap).execAll cmds hp (by simpa using hsize)
  obtain ⟨g, hg, hl⟩ := (DInv.create heap).execAll_grow cmds (g := 0) hp ha (by simpa using hsize)
    ⟨fun _ => rfl, fun h => by omega, SizeOK.of_none (Int.le_refl 0)⟩ e
  refine ⟨st, g, e, ?_, ?_⟩
  · have : (dstrCreate heap).heap = heap := rfl
    rw [this] at hl
    omega
  · have hok := hg.ok
    unfold SizeOK at hok
    have hc : cmds.foldl DCmd.after [] = contents cmds := rfl
    rw [hc] at hok
    rcases Nat.eq_zero_or_pos g with rfl | hpos
    · simp
    · have := hg.some hpos
      have hcast : ((50 * 2 ^ g : Nat) : Int) * 2 = 100 * 2 ^ g := by push_cast; ring
      omega

/-- C90.  Counting changes nothing: the functions with the counter return what those of C36-C38 return. -/
theorem C90_same (st : DState) (p : Ptr) (c : Char) :
    (dstrCatN st p).out = dstrCat st p ∧ (dstrCatcN st c).out = dstrCatc st c :=
  ⟨dstrCatN_out st p, dstrCatcN_out st c⟩

/-- C90.  One call of `arg_dstr_cat`, whatever happened before: it looks at the whole text (`n` characters) and three times at
the appended string (`m` characters), and at no more than `5 · (n + m) + 208` bytes altogether, a new buffer included. -/
theorem C90_cat (heap : Heap) (cmds : List DCmd) (hp : ∀ c ∈ cmds, c.Proper) {s : CStr} (hs : '\x00' ∉ s)
    (hsize : (cmds.map DCmd.size).sum + s.length ≤ 500000000) {st : DState}
    (hst : execAll (dstrCreate heap) cmds = .ok st) :
    ∃ st', (dstrCatN (st.malloc (strBytes s)).2 ⟨.blk (st.malloc (strBytes s)).1, 0⟩).out = .ok st' ∧
      (contents cmds).length + 3 * s.length + 1 ≤ (dstrCatN (st.malloc (strBytes s)).2 ⟨.blk (st.malloc (strBytes s)).1, 0⟩).calls ∧
      (dstrCatN (st.malloc (strBytes s)).2 ⟨.blk (st.malloc (strBytes s)).1, 0⟩).calls ≤
        5 * ((contents cmds).length + s.length) + 208 := by
  obtain ⟨st1, S, e, h, -⟩ := (DInv.create heap).execAll cmds hp (by simp; omega)
  cases hst.symm.trans e
  have hlen : (contents cmds).length ≤ (cmds.map DCmd.size).sum := contents_length (Nat.le_refl _)
  have hl := h.lend (strBytes s)
  obtain ⟨st', e', -, -⟩ := hl.cat (t := st.heap.length) (b := strBytes s) (by simp) (scanStr_strBytes hs) hs
    (by show 2 * ((contents cmds).length + _ + 1) ≤ _; omega)
  have hk := hl.catN_calls (t := st.heap.length) (s := s) (by simp) hs (by show 2 * ((contents cmds).length + _ + 1) ≤ _; omega)
  exact ⟨st', (dstrCatN_out _ _).trans e', hk.1, hk.2⟩

/-- C90.  Making a text character after character with `arg_dstr_catc` takes quadratic time, not linear: every call looks at the
whole text made so far.  `m` characters appended to `n` look at no fewer than `m · (m + 1) / 2 + m · n` bytes, and at no more than
`m · (5 · (n + m) + 205)`. -/
theorem C90_quadratic (heap : Heap) (cmds : List DCmd) (hp : ∀ c ∈ cmds, c.Proper) {l : List Char} (hl : '\x00' ∉ l)
    (hsize : (cmds.map DCmd.size).sum + l.length ≤ 500000000) {st : DState}
    (hst : execAll (dstrCreate heap) cmds = .ok st) :
    ∃ st', (catcAllN st l).out = .ok st' ∧ st'.cstr (dstrCstr st') = .ok (contents cmds ++ l) ∧
      l.length * (l.length + 1) + 2 * (l.length * (contents cmds).length) ≤ 2 * (catcAllN st l).calls ∧
      (catcAllN st l).calls ≤ l.length * (5 * ((contents cmds).length + l.length) + 205) := by
  obtain ⟨st1, S, e, h, -⟩ := (DInv.create heap).execAll cmds hp (by simp; omega)
  cases hst.symm.trans e
  have hlen : (contents cmds).length ≤ (cmds.map DCmd.size).sum := contents_length (Nat.le_refl _)
  obtain ⟨st', e', h', k1, k2⟩ := DInv.catcAll heap l h hl (by show 2 * ((contents cmds).length + _ + 1) ≤ _; omega)
  exact ⟨st', e', h'.cstr, k1, k2⟩

/-! ## The hypotheses are met -/

/-- The bound on the memory is attained: 200 characters take 402 bytes; the buffer was allocated twice (the other block was the
client's). -/
example : (execAll (dstrCreate [none]) [.catc 'a', .cat (List.replicate 199 'x')]).toOption.map
    (fun st => (allocatedBytes st.heap, st.heap.length)) = some (2 * (200 + 1), 1 + 1 + 2) := by decide +kernel

/-- After a long text the memory is given back. -/
example : (execAll (dstrCreate []) [.cat (List.replicate 300 'x'), .setVolatile (cs "ok"), .catc '!']).toOption.map
    (fun st => allocatedBytes st.heap) = some 200 := by decide +kernel

/-- Twenty characters, one after the other. -/
example : (catcAllN (dstrCreate []) (List.replicate 20 'x')).calls = 660 := by decide +kernel

example : (∀ c ∈ [DCmd.catc 'a', .cat (cs "bc")], c.Proper) ∧ (∀ c ∈ [DCmd.catc 'a', .cat (cs "bc")], c.appends = true) := by
  simp [DCmd.Proper, DCmd.appends, cs]

end Argtable
