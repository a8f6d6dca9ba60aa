import Verif.Proofs.CmdMem
/-!
# Pointers into the command registry (C65)
-/

namespace Argtable

open Spec

variable {P C : Type}

/-- The state after a history that keeps to the rules. -/
def Reached (limit : Nat → Nat) (evs : List (PtrEvent P C)) (s : RegMem P C) : Prop :=
  Legal limit (memInit limit) evs ∧ runPtrs limit (memInit limit) evs = .ok s

theorem Reached.at {limit : Nat → Nat} {evs : List (PtrEvent P C)} {s : RegMem P C} (h : Reached limit evs s) :
    ∃ t A, RegAt limit s (evs.map PtrEvent.plain) t A [] := by
  obtain ⟨t0, h0⟩ := RegAt.init (P := P) (C := C) limit
  obtain ⟨s', t', A', e1, e2, _⟩ := RegAt.run evs h0 h.1
  rw [h.2] at e1
  cases e1
  exact ⟨t', A', by simpa using e2⟩

/-- **C65.** Strings in the caller's own memory that are not too long always keep to the rules. -/
theorem C65_own (limit : Nat → Nat) {evs : List (PtrEvent P C)}
    (h : ∀ e ∈ evs, e.plain.fits ∧ match e with
      | .register n _ d _ => n.home = none ∧ d.home = none
      | .unregister n => n.home = none) : Legal limit (memInit limit) evs := legal_own h _

/-- **C65.** A history that keeps to the rules runs without a fault.  No block is freed twice, and for every
registered command there are exactly two blocks: all the others that were ever allocated have been freed. -/
theorem C65_history (limit : Nat → Nat) {evs : List (PtrEvent P C)} (h : Legal limit (memInit limit) evs) :
    ∃ s, runPtrs limit (memInit limit) evs = .ok s ∧ s.released.Nodup ∧
      (outstanding s).length = 2 * (registered (evs.map PtrEvent.plain)).length := by
  obtain ⟨t0, h0⟩ := RegAt.init (P := P) (C := C) limit
  obtain ⟨s, t, A, e1, e2, _⟩ := RegAt.run evs h0 h
  refine ⟨s, e1, ?_, ?_⟩
  · rw [e2.released]
    exact e2.nodup.of_append_left
  · have hk := e2.keys.length_eq
    rw [List.length_map, List.nil_append] at hk
    rw [← e2.outstanding_nil.length_eq, length_addrs, hk]

/-- **C65.** `arg_cmd_info` returns a pointer to what the latest call about the name registered, in a block that has
not been freed, and NULL for a name that is not registered. -/
theorem C65_info (limit : Nat → Nat) {evs : List (PtrEvent P C)} {s : RegMem P C} (h : Reached limit evs s)
    (n : CStr) : ∃ r, memInfo limit (own n) s = .ok r ∧ r.map Blk.val = latest (evs.map PtrEvent.plain) n ∧
      ∀ b, r = some b → b.addr ∈ outstanding s := by
  obtain ⟨t, A, hA⟩ := h.at
  refine ⟨_, hA.info n, hA.latest n, ?_⟩
  intro b hb
  obtain ⟨B, hB⟩ := hA.inv
  obtain ⟨k, h1, _⟩ := (memLookup_mem hB n b).mp hb
  exact hA.outstanding_nil.mem_iff.mp (mem_addrs.mpr ⟨_, h1, Or.inr rfl⟩)

/-- **C65.** Iterating with `arg_cmd_itr_create`, `arg_cmd_itr_key`, `arg_cmd_itr_value` and `arg_cmd_itr_advance`
shows every registered name exactly once, each with the block that `arg_cmd_info` returns for it.  The blocks shown
are exactly those that have not been freed. -/
theorem C65_iterate (limit : Nat → Nat) {evs : List (PtrEvent P C)} {s : RegMem P C} (h : Reached limit evs s)
    {rounds : Nat} (hr : (registered (evs.map PtrEvent.plain)).length ≤ rounds) :
    ∃ seen, cmdWalk s rounds = .ok seen ∧ (seen.map (·.1.val)).Perm (registered (evs.map PtrEvent.plain)) ∧
      (∀ e ∈ seen, InfoOf limit s e.1.val e.2 ∧ e.2.val.name = e.1.val) ∧
      (seen.flatMap (fun e => [e.1.addr, e.2.addr])).Perm (outstanding s) := by
  obtain ⟨t, A, hA⟩ := h.at
  obtain ⟨B, hB⟩ := hA.inv
  obtain ⟨seen, g1, g2⟩ := hB.visit (cmdMemFns_lawful limit) (fuel := rounds)
    (by rw [(by simpa using hA.keys.length_eq : A.length = _)]; exact hr)
  refine ⟨seen, by rw [cmdWalk_eq hA.get]; exact g1, (g2.map _).trans hA.keys, ?_, ?_⟩
  · intro e he
    have hm := g2.mem_iff.mp he
    exact ⟨(hA.infoOf _ _).mpr ⟨e.1, hm, rfl⟩, hA.names e hm⟩
  · refine List.Perm.trans (g2.flatMap_right _) ?_
    refine List.Perm.trans (List.Perm.of_eq ?_) hA.outstanding_nil
    unfold addrs blocks
    rw [List.map_flatMap]
    rfl

/-- **C65.** `arg_cmd_uninit` frees what is left: then every block that was ever allocated has been freed exactly
once. -/
theorem C65_uninit (limit : Nat → Nat) {evs : List (PtrEvent P C)} {s : RegMem P C} (h : Reached limit evs s) :
    ∃ s', memUninit s = .ok s' ∧ s'.released.Perm (List.range s.next) ∧ outstanding s' = [] := by
  obtain ⟨t, A, hA⟩ := h.at
  obtain ⟨B, hB⟩ := hA.inv
  obtain ⟨mem, fr, e1, _, e2⟩ := hB.destroy (cmdMemFns_lawful limit) true
  have hp : ((t.freed ++ fr).map addrOf).Perm (List.range s.next) := by
    rw [List.map_append]
    refine List.Perm.trans (List.Perm.append_left _ ?_) hA.ledger
    rw [List.append_nil]
    exact e2.map _
  refine ⟨{ s with tab := none, past := s.past ++ (t.freed ++ fr).map addrOf }, ?_, ?_, ?_⟩
  · unfold memUninit
    rw [hA.get, hbind_ok, e1, hbind_ok]
  · unfold RegMem.released
    rw [hA.past]
    simpa using hp
  · unfold outstanding RegMem.released
    rw [hA.past, List.filter_eq_nil_iff]
    intro a ha
    have := hp.mem_iff.mpr ha
    simpa only [List.nil_append, List.append_nil, decide_not, Bool.not_eq_true', decide_eq_false_iff_not,
      not_not] using this

/-- **C65.** A pointer from `arg_cmd_info` remains good, and `arg_cmd_info` keeps returning it, as long as no call is
about that name, whatever happens to other commands. -/
theorem C65_stable (limit : Nat → Nat) {evs more : List (PtrEvent P C)} {s s' : RegMem P C}
    (h : Reached limit evs s) (h' : Reached limit (evs ++ more) s') {n : CStr} {b : Blk (CmdInfo P C)}
    (hb : InfoOf limit s n b) (hn : ∀ e ∈ more, e.plain.name ≠ n) :
    InfoOf limit s' n b ∧ b.addr ∈ outstanding s' := by
  obtain ⟨t, A, hA⟩ := h.at
  have hl := (Legal.split evs more h'.1 h.2).1
  obtain ⟨s2, t2, A2, e1, e2, e3, _⟩ := RegAt.run more hA hl
  have : s2 = s' := by
    have := h'.2
    rw [runPtrs_append, h.2, hbind_ok, e1] at this
    exact Except.ok.inj this
  subst this
  obtain ⟨k, h1, h2⟩ := (hA.infoOf n b).mp hb
  have hm := e3 _ h1 (by intro e he; rw [h2]; exact hn e he)
  exact ⟨(e2.infoOf n b).mpr ⟨k, hm, h2⟩, e2.outstanding_nil.mem_iff.mp (mem_addrs.mpr ⟨_, hm, Or.inr rfl⟩)⟩

/-- **C65.** With the next call about the name the pointer becomes dangling, for ever: the block has been freed, and
reading a string in it is a fault. -/
theorem C65_dangling (limit : Nat → Nat) {evs more : List (PtrEvent P C)} {s s' : RegMem P C}
    (h : Reached limit evs s) (h' : Reached limit (evs ++ more) s') {n : CStr} {b : Blk (CmdInfo P C)}
    (hb : InfoOf limit s n b) (hn : ∃ e ∈ more, e.plain.name = n) :
    b.addr ∈ s'.released ∧ ∀ text, readPtr s' ⟨text, some b.addr⟩ = .error (.ub "read from a freed block") := by
  have hrel : b.addr ∈ s'.released := by
    obtain ⟨t, A, hA⟩ := h.at
    have hl := (Legal.split evs more h'.1 h.2).1
    have hrun : runPtrs limit s more = .ok s' := by
      have := h'.2
      rwa [runPtrs_append, h.2, hbind_ok] at this
    obtain ⟨k, h1, h2⟩ := (hA.infoOf n b).mp hb
    clear h h' hb
    induction more generalizing s A t evs with
    | nil => obtain ⟨e, he, _⟩ := hn; cases he
    | cons e es ih =>
      obtain ⟨s1, t1, A1, q1, q2, q3, q4, q5⟩ := hA.step hl.1
      rw [runPtrs, q1, hbind_ok] at hrun
      by_cases hen : e.plain.name = n
      · obtain ⟨s2, t2, A2, r1, _, _, r4⟩ := RegAt.run es q2 (hl.2 _ q1)
        rw [hrun] at r1
        cases r1
        exact r4 _ (q5 _ h1 (by rw [h2, hen])).2
      · have hq2 : RegAt limit s1 ((evs ++ [e]).map PtrEvent.plain) t1 A1 [] := by simpa using q2
        refine ih (evs := evs ++ [e]) ?_ t1 A1 hq2 (hl.2 _ q1) hrun (q3 _ h1 (by rw [h2]; exact fun hc => hen hc.symm))
        obtain ⟨e', he', hen'⟩ := hn
        rcases List.mem_cons.mp he' with rfl | he'
        · exact absurd hen' hen
        · exact ⟨e', he', hen'⟩
  refine ⟨hrel, ?_⟩
  intro text
  unfold readPtr
  dsimp only
  rw [if_pos hrel]

/-- **C65.** `arg_cmd_register` with good pointers and strings that fit works unless the command is registered already
and the name or the description is passed through a pointer into that command's own blocks, say one obtained from
`arg_cmd_info`: then the string is read after its block has been freed. -/
theorem C65_register (limit : Nat → Nat) {evs : List (PtrEvent P C)} {s : RegMem P C} (h : Reached limit evs s)
    {name description : StrPtr} (hn : Good limit s name) (hd : Good limit s description)
    (h1 : name.text.length < 100) (h2 : description.text.length < 256) (p : Option P) (c : C) :
    (∃ s', memRegister limit name p description c s = .ok s') ↔
      ¬ (PointsInto limit s name.text name ∨ PointsInto limit s name.text description) := by
  obtain ⟨t, A, hA⟩ := h.at
  obtain ⟨g1, g2⟩ := hA.register hn hd h1 h2 p c
  constructor
  · rintro ⟨s', hs⟩ hp
    rw [g2 hp] at hs
    cases hs
  · intro hp
    obtain ⟨s', t', e, _⟩ := g1 (fun hx => hp (Or.inl hx)) (fun hx => hp (Or.inr hx))
    exact ⟨s', e⟩

/-- **C65.** Replacing the procedure of a registered command while keeping its description, as in
`info = arg_cmd_info(name); arg_cmd_register(name, proc, info->description, ctx)`, always reads freed memory. -/
theorem C65_keep_description (limit : Nat → Nat) {evs : List (PtrEvent P C)} {s : RegMem P C} (h : Reached limit evs s)
    {n : CStr} {b : Blk (CmdInfo P C)} (hb : InfoOf limit s n b) (hl : n.length < 100)
    (hl' : b.val.description.length < 256) (p : Option P) (c : C) :
    memRegister limit (own n) p ⟨b.val.description, some b.addr⟩ c s = .error (.ub "read from a freed block") := by
  obtain ⟨t, A, hA⟩ := h.at
  refine (hA.register (n := own n) (Or.inl rfl) (Or.inr (Or.inl ⟨n, b, hb, rfl, Or.inr List.suffix_rfl⟩)) hl hl' p c).2 ?_
  exact Or.inr (Or.inl ⟨b, hb, rfl⟩)

/-- **C65.** Any call that keeps to the rules succeeds. -/
theorem C65_step (limit : Nat → Nat) {evs : List (PtrEvent P C)} {s : RegMem P C} (h : Reached limit evs s)
    {e : PtrEvent P C} (he : Allowed limit s e) :
    ∃ s', runPtr limit s e = .ok s' ∧ Reached limit (evs ++ [e]) s' := by
  obtain ⟨t, A, hA⟩ := h.at
  obtain ⟨s', t', A', e1, _⟩ := hA.step he
  refine ⟨s', e1, ?_, ?_⟩
  · have : ∀ (a : List (PtrEvent P C)) (s0 : RegMem P C), Legal limit s0 a → runPtrs limit s0 a = .ok s →
        Legal limit s0 (a ++ [e]) := by
      intro a
      induction a with
      | nil => intro s0 _ e; cases e; exact ⟨he, fun _ _ => trivial⟩
      | cons x a ih =>
        intro s0 hl e
        refine ⟨hl.1, fun s1 h1 => ih s1 (hl.2 _ h1) ?_⟩
        rw [runPtrs, h1, hbind_ok] at e
        exact e
    exact this evs _ h.1 h.2
  · rw [runPtrs_append, h.2, hbind_ok, runPtrs, e1, hbind_ok]
    rfl

/-- **C65.** `arg_cmd_unregister` accepts any good pointer to the name, also one into the command's own blocks. -/
theorem C65_unregister (limit : Nat → Nat) {evs : List (PtrEvent P C)} {s : RegMem P C} (h : Reached limit evs s)
    {name : StrPtr} (hn : Good limit s name) :
    ∃ s', memUnregister limit name s = .ok s' ∧ Reached limit (evs ++ [.unregister name]) s' :=
  C65_step limit h (e := .unregister name) hn

/-- No pointer points into the blocks of a command that is not registered. -/
theorem Reached.absent {limit : Nat → Nat} {evs : List (PtrEvent P C)} {s : RegMem P C} (h : Reached limit evs s)
    {n : CStr} (hn : latest (evs.map PtrEvent.plain) n = none) (p : StrPtr) : ¬ PointsInto limit s n p := by
  obtain ⟨t, A, hA⟩ := h.at
  obtain ⟨B, hB⟩ := hA.inv
  rw [hA.pointsInto]
  rintro ⟨e, he, hen, _⟩
  have := (memLookup_mem hB n e.2).mpr ⟨e.1, he, hen⟩
  have hl := hA.latest n
  rw [this, hn] at hl
  cases hl

/-- **C65.** Unregistering the command at which an iterator stands makes the iterator unusable: the next
`arg_cmd_itr_advance` reads a freed entry. -/
theorem C65_iterator (limit : Nat → Nat) {evs : List (PtrEvent P C)} {s s' : RegMem P C} (h : Reached limit evs s)
    {n : CStr} {it it' : HItr} (hi : cmdItrSearch limit s it (own n) = .ok (it', -1))
    (hu : memUnregister limit (own n) s = .ok s') :
    cmdItrAdvance s' it' = .error (.ub "use of a freed hash table entry") ∧
      cmdItrKey s' it' = .error (.ub "use of a freed hash table entry") := by
  obtain ⟨t, A, hA⟩ := h.at
  obtain ⟨B, hB⟩ := hA.inv
  have hf := cmdMemFns_lawful limit
  unfold cmdItrSearch at hi
  unfold memUnregister at hu
  have hr : readPtr s (own n) = .ok n := rfl
  rw [hr, hbind_ok, hA.get, hbind_ok] at hi hu
  obtain ⟨i, hi', ⟨q1, q2⟩ | ⟨pre, a, post, nd, q1, q2, q3, q4⟩⟩ := hB.find hf ⟨0, n⟩
  · unfold itrSearch at hi
    rw [q1, hbind_ok] at hi
    have := (Prod.mk.inj (Except.ok.inj hi)).2
    omega
  · unfold itrSearch at hi
    rw [q1, hbind_ok] at hi
    obtain ⟨rfl, _⟩ := Prod.mk.inj (Except.ok.inj hi)
    obtain ⟨t1, e1, _⟩ := hB.removeAt hf hi' q4 q2
    unfold hashRemove at hu
    rw [q1, hbind_ok] at hu
    dsimp only at hu
    rw [e1, hbind_ok] at hu
    obtain rfl := Except.ok.inj hu
    have hm : ∀ x : Nat → Option (HNode (Blk CStr) (Blk (CmdInfo P C))),
        loadNode (memSet x a none) a = .error (.ub "use of a freed hash table entry") := by
      intro x
      unfold loadNode
      rw [memSet_same]
      rfl
    constructor
    · unfold cmdItrAdvance RegMem.get itrAdvance
      dsimp only
      rw [hbind_ok, hm]
      rfl
    · unfold cmdItrKey RegMem.get itrKey itrNode
      dsimp only
      rw [hbind_ok, hm]
      rfl

/-- An example history: two commands, one of them registered a second time with the other's description, read from
the registry's own memory, and a third one taken away. -/
def demoPtrs : List (PtrEvent Nat Nat) :=
  [.register (own (cs "list")) (some 1) (own (cs "list all")) 5,
   .register (own (cs "add")) (some 2) (own (cs "add one")) 6,
   .register (own (cs "add")) (some 3) ⟨cs "all", some 0⟩ 7,
   .register (own (cs "rm")) (some 4) (own (cs "remove")) 8,
   .unregister ⟨cs "rm", some 7⟩]

/-- Its state. -/
def demoReg : M (RegMem Nat Nat) := runPtrs (fun _ => 2) (memInit fun _ => 2) demoPtrs

example : (do
    let s ← demoReg
    let r ← memInfo (fun _ => 2) (own (cs "add")) s
    .ok (r, s.released, outstanding s)) =
    (.ok (some ⟨4, { name := cs "add", description := cs "all", proc := some 3, ctx := 7 }⟩,
      [3, 2, 7, 6], [0, 1, 4, 5]) : M _) := by decide +kernel

example : (do
    let s ← demoReg
    cmdWalk s 2) = (.ok [(⟨5, cs "add"⟩, ⟨4, { name := cs "add", description := cs "all", proc := some 3, ctx := 7 }⟩),
      (⟨1, cs "list"⟩, ⟨0, { name := cs "list", description := cs "list all", proc := some 1, ctx := 5 }⟩)] : M _) := by
  decide +kernel

example : (do
    let s ← demoReg
    memRegister (fun _ => 2) (own (cs "add")) (some 9) ⟨cs "all", some 4⟩ 9 s >>= memCount) =
    (.error (.ub "read from a freed block") : M Nat) := by decide +kernel

/-- The rules do allow pointers into the registry: a new command gets part of the description of another one. -/
example : ∃ s s', Reached (fun _ => 2) (demoPtrs.take 2) s ∧
    runPtr (fun _ => 2) s (.register (own (cs "copy")) (some 3) ⟨cs "all", some 0⟩ 7) = .ok s' ∧
    Reached (fun _ => 2) (demoPtrs.take 2 ++ [.register (own (cs "copy")) (some 3) ⟨cs "all", some 0⟩ 7]) s' := by
  have hl : Legal (fun _ => 2) (memInit fun _ => 2) (demoPtrs.take 2) := by
    apply C65_own
    intro e he
    simp only [demoPtrs, List.take_succ_cons, List.take_zero, List.mem_cons, List.not_mem_nil, or_false] at he
    rcases he with rfl | rfl
    · exact ⟨⟨by decide +kernel, by decide +kernel⟩, rfl, rfl⟩
    · exact ⟨⟨by decide +kernel, by decide +kernel⟩, rfl, rfl⟩
  obtain ⟨s, hs, _⟩ := C65_history (fun _ => 2) hl
  have hre : Reached (fun _ => 2) (demoPtrs.take 2) s := ⟨hl, hs⟩
  have hi : InfoOf (fun _ => 2) s (cs "list")
      ⟨0, { name := cs "list", description := cs "list all", proc := some 1, ctx := 5 }⟩ := by
    have : (do
        let s ← runPtrs (fun _ => 2) (memInit fun _ => 2) (demoPtrs.take 2)
        memInfo (fun _ => 2) (own (cs "list")) s) = (.ok (some
          ⟨0, { name := cs "list", description := cs "list all", proc := some 1, ctx := 5 }⟩) : M _) := by
      decide +kernel
    rw [hs, hbind_ok] at this
    exact this
  have hno : ∀ p, ¬ PointsInto (fun _ => 2) s (cs "copy") p := hre.absent (by decide +kernel)
  obtain ⟨s', h1, h2⟩ := C65_step (fun _ => 2) hre
    (e := .register (own (cs "copy")) (some 3) ⟨cs "all", some 0⟩ 7)
    ⟨Or.inl rfl, Or.inr (Or.inl ⟨_, _, hi, rfl, Or.inr ⟨cs "list ", by decide +kernel⟩⟩), by decide +kernel,
      by decide +kernel, hno _, hno _⟩
  exact ⟨s, s', hre, h1, h2⟩

end Argtable
