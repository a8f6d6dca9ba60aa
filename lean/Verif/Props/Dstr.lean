import Verif.Proofs.Dstr
/-!
# Dynamic strings (C36-C38)

`Spec.DCmd` are the calls a client makes, `Spec.execAll` makes them one after the other, `Spec.contents` says
what the string should be.  Sizes: all the texts of a history together have at most 500,000,000 characters, so
that no `int` overflows.
-/

namespace Argtable

open Spec

/-- C36.  After any sequence of calls the C string of the object is what was appended since it was last set
or reset. -/
theorem C36_contents (heap : Heap) (cmds : List DCmd) (hp : ∀ c ∈ cmds, c.Proper)
    (hsize : (cmds.map DCmd.size).sum ≤ 500000000) :
    ∃ st, execAll (dstrCreate heap) cmds = .ok st ∧ st.cstr (dstrCstr st) = .ok (contents cmds) := by
  obtain ⟨st, S, e, h, -⟩ := (DInv.create heap).execAll cmds hp (by simpa using hsize)
  exact ⟨st, e, h.cstr⟩

/-- C37, partial: clients that do not pass the object its own string and do not call `arg_dstr_free` (with these
it is false, see below).  No sequence of calls runs into a memory error: no block is used after it was freed, or freed twice,
and no access is outside a block.  (All of these are faults in the model.)  After `arg_dstr_destroy` the
allocated blocks are those that existed before, and the strings that the client passed as
`ARG_DSTR_STATIC`; every string handed over with a function was given to that function, once, unchanged and
in order. -/
theorem C37_memory_partial (heap : Heap) (cmds : List DCmd) (hp : ∀ c ∈ cmds, c.Proper)
    (hsize : (cmds.map DCmd.size).sum ≤ 500000000) :
    ∃ st, execAll (dstrCreate heap) cmds = .ok st ∧ ∃ heap', dstrDestroy st = .ok (heap', cmds.flatMap DCmd.custom) ∧
      liveBlocks heap' = liveBlocks heap ++ (cmds.flatMap DCmd.static).map strBytes := by
  obtain ⟨st, S, e, h, hS⟩ := (DInv.create heap).execAll cmds hp (by simpa using hsize)
  obtain ⟨st', e', -, hlog, hh⟩ := h.reset
  refine ⟨st, e, st'.heap, ?_, ?_⟩
  · unfold dstrDestroy
    rw [e', bind_ok, hlog]
    rfl
  · rw [hh.liveBlocks, hS]
    rfl

/-- C37.  The client's memory is left alone: no call changes a block that existed before the object. -/
theorem C37_frame (heap : Heap) (cmds : List DCmd) (hp : ∀ c ∈ cmds, c.Proper)
    (hsize : (cmds.map DCmd.size).sum ≤ 500000000) {st : DState} (hst : execAll (dstrCreate heap) cmds = .ok st)
    {a : Nat} (ha : a < heap.length) : st.heap[a]? = heap[a]? := by
  obtain ⟨st', S, e, h, -⟩ := (DInv.create heap).execAll cmds hp (by simpa using hsize)
  cases hst.symm.trans e
  obtain ⟨O, pend, hh, -, -⟩ := h.main
  exact hh.frame a ha

/-- C37.  Setting an object to a part of its own text with `ARG_DSTR_VOLATILE` works, provided that the text is
not in the small buffer inside the object. -/
theorem C37_own_copy (heap : Heap) (cmds : List DCmd) (hp : ∀ c ∈ cmds, c.Proper)
    (hsize : (cmds.map DCmd.size).sum ≤ 500000000) {st : DState} (hst : execAll (dstrCreate heap) cmds = .ok st)
    (hbuf : (dstrCstr st).loc ≠ .sbuf) (k : Nat) (hk : k ≤ (contents cmds).length) :
    ∃ st', dstrSet st (some { dstrCstr st with off := (dstrCstr st).off + k }) .volatile = .ok st' ∧
      st'.cstr (dstrCstr st') = .ok ((contents cmds).drop k) := by
  obtain ⟨st1, S, e, h, -⟩ := (DInv.create heap).execAll cmds hp (by simpa using hsize)
  cases hst.symm.trans e
  have hlen : (contents cmds).length ≤ 500000000 := contents_length hsize
  have hc := h.cstr
  obtain ⟨st', e', h', -⟩ := h.setCopy (p := { dstrCstr st with off := (dstrCstr st).off + k })
    (s := (contents cmds).drop k) (cstr_drop hc hk) (fun hm => h.nn (List.mem_of_mem_drop hm))
    (by rw [List.length_drop]; omega) (fun hl => absurd hl hbuf)
  exact ⟨st', e', h'.cstr⟩

/-- C38.  `arg_dstr_catf` terminates and appends the whole formatted text, whatever its length and that of the
format. -/
theorem C38_catf (heap : Heap) (cmds : List DCmd) (hp : ∀ c ∈ cmds, c.Proper) (fmtlen : Nat) (text : CStr)
    (ht : '\x00' ∉ text) (hsize : (cmds.map DCmd.size).sum + text.length + fmtlen ≤ 500000000) {st : DState}
    (hst : execAll (dstrCreate heap) cmds = .ok st) :
    ∃ st', dstrCatf st (some fmtlen) text = .ok st' ∧ st'.cstr (dstrCstr st') = .ok (contents cmds ++ text) := by
  obtain ⟨st1, S, e, h, -⟩ := (DInv.create heap).execAll cmds hp (by simp; omega)
  cases hst.symm.trans e
  have hlen : (contents cmds).length ≤ (cmds.map DCmd.size).sum := contents_length (Nat.le_refl _)
  obtain ⟨st', e', h'⟩ := h.catf (l := fmtlen) ht (by show (contents cmds).length + _ ≤ _; omega) (by omega)
  exact ⟨st', e', h'.cstr⟩

/-! ## Where C36 and C37 are false -/

/-- Passing the object's own string to `arg_dstr_set` as `ARG_DSTR_STATIC` frees the buffer that the object
goes on to use: reading the string afterwards is an access to a freed block. -/
theorem C37_own_static : (do
    let st ← execAll (dstrCreate []) [.cat (cs "hello")]
    let st ← dstrSet st (some (dstrCstr st)) .static
    st.cstr (dstrCstr st)) = .error (.ub "access to a block that is not allocated") := by decide +kernel

/-- Setting an object to its own short string with `ARG_DSTR_VOLATILE` copies a buffer onto itself. -/
theorem C37_own_short : (do
    let st ← execAll (dstrCreate []) [.setVolatile (cs "hello")]
    dstrSet st (some (dstrCstr st)) .volatile) = .error (.ub "strcpy: overlapping areas") := by decide +kernel

/-- Appending an object's own string to it reads the buffer after it was replaced by a bigger one. -/
theorem C37_own_cat : (do
    let st ← execAll (dstrCreate []) [.cat (List.replicate 95 'x'), .cat (List.replicate 95 'y')]
    dstrCat st (dstrCstr st)) = .error (.ub "access to a block that is not allocated") := by decide +kernel

/-- After the public `arg_dstr_free` the object still points to what was freed: the next append reads it. -/
theorem C37_after_free : (do
    let st ← execAll (dstrCreate []) [.setDynamic (cs "hello")]
    let st ← dstrFree st
    dstrCatc st '!') = .error (.ub "access to a block that is not allocated") := by decide +kernel

/-! ## The hypotheses are met -/

/-- A history with every kind of call, growing buffers and a client function. -/
def demoCmds : List DCmd := [.setStatic (cs "usage: "), .cat (List.replicate 300 'x'), .catc '!', .setCustom 7 (cs "abc"),
  .catf (some 5) (List.replicate 40 'y'), .setVolatile (List.replicate 201 'z'), .reset, .setDynamic (cs "d"), .catc 'e']

example : (∀ c ∈ demoCmds, c.Proper) ∧ (demoCmds.map DCmd.size).sum ≤ 500000000 ∧ contents demoCmds = cs "de" ∧
    demoCmds.flatMap DCmd.custom = [(7, cs "abc")] ∧ demoCmds.flatMap DCmd.static = [cs "usage: "] := by
  refine ⟨?_, by decide +kernel, rfl, rfl, rfl⟩
  intro c hc
  simp only [demoCmds, List.mem_cons, List.not_mem_nil, or_false] at hc
  rcases hc with rfl | rfl | rfl | rfl | rfl | rfl | rfl | rfl | rfl <;> unfold DCmd.Proper <;>
    first | trivial | decide | (intro h; exact absurd (List.eq_of_mem_replicate h) (by decide))

end Argtable
