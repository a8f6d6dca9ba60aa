import Verif.Proofs.CmdOom
import Verif.Props.Registry
import Verif.Props.Shortage
/-!
# Running out of memory in `arg_cmd_register` and in the module settings (C78)
-/

namespace Argtable

open Spec

/-! ## The registry -/

section
variable {P C : Type} {limit : Nat → Nat}

/-- The state after a history that keeps to the rules, and which of its calls have returned. -/
def ReachedShort (limit : Nat → Nat) (hist : List (Room × PtrEvent P C)) (s : RegMem P C) (bs : List Bool) : Prop :=
  LegalShort limit (memInit limit) hist ∧ tryPtrs limit (memInit limit) hist = .ok (s, bs)

theorem ReachedShort.at {hist : List (Room × PtrEvent P C)} {s : RegMem P C} {bs : List Bool}
    (h : ReachedShort limit hist s bs) : ∃ t A lost, RegAt limit s (cameToAll hist bs) t A lost ∧
      lost.length ≤ 2 * failures bs := by
  obtain ⟨t0, h0⟩ := RegAt.init (P := P) (C := C) limit
  obtain ⟨s', t', A', bs', lost, e1, -, -, e2, e3, -⟩ := RegAt.tryPtrs hist h0 h.1
  rw [h.2] at e1
  cases e1
  exact ⟨t', A', lost, by simpa using e2, e3⟩

/-- **C78.** Strings in the caller's own memory that are not too long always keep to the rules. -/
theorem C78_own {hist : List (Room × PtrEvent P C)}
    (h : ∀ e ∈ hist, e.2.plain.fits ∧ match e.2 with
      | .register n _ d _ => n.home = none ∧ d.home = none
      | .unregister n => n.home = none) : LegalShort limit (memInit limit) hist := by
  have key : ∀ (hist : List (Room × PtrEvent P C)) (s : RegMem P C), (∀ e ∈ hist, e.2.plain.fits ∧ match e.2 with
      | .register n _ d _ => n.home = none ∧ d.home = none
      | .unregister n => n.home = none) → LegalShort limit s hist := by
    intro hist
    induction hist with
    | nil => intro s _; trivial
    | cons e hist ih =>
      obtain ⟨room, e⟩ := e
      intro s h
      refine ⟨?_, fun s' b _ => ih s' fun e he => h e (by simp [he])⟩
      have h1 := h (room, e) (by simp)
      have hnp : ∀ (n : CStr) (p : StrPtr), p.home = none → ¬ PointsInto limit s n p := by
        rintro n p hp (⟨b, _, hb⟩ | ⟨b, _, hb⟩) <;> rw [hp] at hb <;> cases hb
      cases e with
      | register n p d c => exact ⟨Or.inl h1.2.1, Or.inl h1.2.2, h1.1.1, h1.1.2, hnp _ _ h1.2.1, hnp _ _ h1.2.2⟩
      | unregister n => exact Or.inl h1.2
  exact key hist _ h

/-- **C78.** A history of registering and unregistering in which any allocations fail, and in which the program's panic
function jumps back into the program: no call does anything undefined, and a call that finds memory returns.  The number
of commands is that of the names whose latest call is a registration that has returned.  No block is freed twice; there
are two blocks for each command, and at most two more for each call that has run out of memory. -/
theorem C78_history {hist : List (Room × PtrEvent P C)} (h : LegalShort limit (memInit limit) hist) :
    ∃ s bs, tryPtrs limit (memInit limit) hist = .ok (s, bs) ∧ bs.length = hist.length ∧
      (∀ (i : Nat) e, hist[i]? = some e → Ample e.1 → bs[i]? = some true) ∧
      memCount s = .ok (registered (cameToAll hist bs)).length ∧ s.released.Nodup ∧
      2 * (registered (cameToAll hist bs)).length ≤ (outstanding s).length ∧
      (outstanding s).length ≤ 2 * (registered (cameToAll hist bs)).length + 2 * failures bs := by
  obtain ⟨t0, h0⟩ := RegAt.init (P := P) (C := C) limit
  obtain ⟨s, t, A, bs, lost, e1, e2, e3, e4, e5, -⟩ := RegAt.tryPtrs hist h0 h
  have hk := e4.keys.length_eq
  rw [List.length_map, List.nil_append] at hk
  have ho := e4.outstanding.length_eq
  rw [List.length_append, length_addrs, List.nil_append] at ho
  refine ⟨s, bs, e1, e2, e3, ?_, ?_, by omega, by omega⟩
  · obtain ⟨B, hB⟩ := e4.inv
    unfold memCount
    rw [e4.get, hbind_ok]
    show Except.ok t.entrycount = _
    rw [← hk, hB.cnt]
  · rw [e4.released]
    exact e4.nodup.of_append_left

/-- **C78.** `arg_cmd_info` returns a pointer to what the latest call about the name registered, in a block that has
not been freed.  It returns NULL for a name that is not registered; this includes one whose latest registration has run
out of memory. -/
theorem C78_info {hist : List (Room × PtrEvent P C)} {s : RegMem P C} {bs : List Bool} (h : ReachedShort limit hist s bs)
    (n : CStr) : ∃ r, memInfo limit (own n) s = .ok r ∧ r.map Blk.val = latest (cameToAll hist bs) n ∧
      ∀ b, r = some b → b.addr ∈ outstanding s := by
  obtain ⟨t, A, lost, hA, -⟩ := h.at
  refine ⟨_, hA.info n, hA.latest n, ?_⟩
  intro b hb
  obtain ⟨B, hB⟩ := hA.inv
  obtain ⟨k, h1, _⟩ := (memLookup_mem hB n b).mp hb
  exact hA.outstanding.mem_iff.mp (List.mem_append_left _ (mem_addrs.mpr ⟨_, h1, Or.inr rfl⟩))

/-- **C78.** Iterating shows every registered name exactly once, each with the block that `arg_cmd_info` returns for it. -/
theorem C78_iterate {hist : List (Room × PtrEvent P C)} {s : RegMem P C} {bs : List Bool}
    (h : ReachedShort limit hist s bs) {rounds : Nat} (hr : (registered (cameToAll hist bs)).length ≤ rounds) :
    ∃ seen, cmdWalk s rounds = .ok seen ∧ (seen.map (·.1.val)).Perm (registered (cameToAll hist bs)) ∧
      (∀ e ∈ seen, InfoOf limit s e.1.val e.2 ∧ e.2.val.name = e.1.val) := by
  obtain ⟨t, A, lost, hA, -⟩ := h.at
  obtain ⟨B, hB⟩ := hA.inv
  obtain ⟨seen, g1, g2⟩ := hB.visit (cmdMemFns_lawful limit) (fuel := rounds)
    (by rw [(by simpa using hA.keys.length_eq : A.length = _)]; exact hr)
  refine ⟨seen, by rw [cmdWalk_eq hA.get]; exact g1, (g2.map _).trans hA.keys, ?_⟩
  intro e he
  have hm := g2.mem_iff.mp he
  exact ⟨(hA.infoOf _ _).mpr ⟨e.1, hm, rfl⟩, hA.names e hm⟩

/-- **C78.** `arg_cmd_uninit` works after any such history; then no block has been freed twice, and at most two blocks
have been lost for each call that had run out of memory. -/
theorem C78_uninit {hist : List (Room × PtrEvent P C)} {s : RegMem P C} {bs : List Bool}
    (h : ReachedShort limit hist s bs) : ∃ s', memUninit s = .ok s' ∧ s'.released.Nodup ∧
      (outstanding s').length ≤ 2 * failures bs := by
  obtain ⟨t, A, lost, hA, hlost⟩ := h.at
  obtain ⟨B, hB⟩ := hA.inv
  obtain ⟨mem, fr, e1, _, e2⟩ := hB.destroy (cmdMemFns_lawful limit) true
  have hp : ((t.freed ++ fr).map addrOf ++ lost).Perm (List.range s.next) := by
    rw [List.map_append, List.append_assoc]
    refine List.Perm.trans (List.Perm.append_left _ ?_) hA.ledger
    exact (e2.map addrOf).append_right _
  have hnd : ((t.freed ++ fr).map addrOf ++ lost).Nodup := hp.nodup_iff.mpr List.nodup_range
  refine ⟨{ s with tab := none, past := s.past ++ (t.freed ++ fr).map addrOf }, ?_, ?_, ?_⟩
  · unfold memUninit
    rw [hA.get, hbind_ok, e1, hbind_ok]
  · unfold RegMem.released
    rw [hA.past]
    simpa using hnd.of_append_left
  · refine Nat.le_trans (List.Nodup.subperm (List.nodup_range.filter _) ?_).length_le hlost
    intro a ha
    have ha := List.mem_filter.mp ha
    obtain ⟨h1, h2⟩ := ha
    rcases List.mem_append.mp (hp.mem_iff.mpr h1) with h3 | h3
    · unfold RegMem.released at h2
      rw [hA.past] at h2
      simp only [List.nil_append, List.append_nil, decide_not, Bool.not_eq_true', decide_eq_false_iff_not] at h2
      exact absurd h3 h2
    · exact h3

/-- **C78.** The call that runs out of memory: the command is not registered afterwards, even if it was before.  All
other commands keep their blocks. -/
theorem C78_failed {hist : List (Room × PtrEvent P C)} {s s' : RegMem P C} {bs : List Bool}
    (h : ReachedShort limit hist s bs) {room : Room} {n d : StrPtr} {p : Option P} {c : C}
    (ha : Allowed limit s (.register n p d c)) (hf : tryPtr limit room s (.register n p d c) = .ok (s', false)) :
    memInfo limit (own n.text) s' = .ok none ∧ ∀ n' b, n' ≠ n.text → InfoOf limit s n' b → InfoOf limit s' n' b := by
  obtain ⟨t, A, lost, hA, -⟩ := h.at
  obtain ⟨s1, t1, A1, b, lost1, e1, -, g1, -, hk⟩ := hA.tryPtr room ha
  rw [hf] at e1
  have e1 := Except.ok.inj e1
  have e2 := congrArg Prod.fst e1
  have e3 := congrArg Prod.snd e1
  dsimp only at e2 e3
  subst e2 e3
  constructor
  · rw [g1.info]
    have hl := g1.latest n.text
    have hx : latest (cameToAll hist bs ++ [cameTo (.register n p d c) false]) n.text = none := by
      unfold latest
      rw [List.reverse_append]
      show ((cameTo (.register n p d c : PtrEvent P C) false :: _).find? _).bind _ = none
      rw [List.find?_cons_of_pos (by simp [cameTo, PtrEvent.plain, CmdEvent.name])]
      rfl
    rw [hx] at hl
    cases hc : lookup (cmdMemFns limit) A1 ⟨0, n.text⟩ with
    | none => rfl
    | some v => rw [hc] at hl; cases hl
  · intro n' b hn hb
    obtain ⟨k, h1, h2⟩ := (hA.infoOf n' b).mp hb
    exact (g1.infoOf n' b).mpr ⟨k, hk _ h1 (by rw [h2]; exact hn), h2⟩

end

/-! ## The module settings -/

section
variable {base : Heap} {evs : List ModEvent} {m m' : ModMem} {sup : Supply} {objSize : Nat} {e : ModEvent}

theorem modInv_of (hs : ∀ e ∈ evs, e.Sane) (h : runModsMem (modMemInit base) evs = .ok m) :
    ModInv base m (evs.foldl runMod modInit) [] := by
  obtain ⟨m1, h1, h2⟩ := (ModInv.init base).run evs hs
  rw [h] at h1
  cases h1
  exact h2

/-- A setting has a value iff it was set. -/
theorem set_iff {i : ModInfo} {L : List Nat} (h : ModInv base m i L) :
    m.name.isSome = i.name.isSome ∧ m.ver.isSome = i.ver.isSome := by
  have h1 := congrArg Option.isSome h.name
  have h2 := congrArg Option.isSome h.ver
  simp only [Option.isSome_map] at h1 h2
  exact ⟨h1, h2⟩

/-- Is the setting that the call is about among those made? -/
def SetBefore (e : ModEvent) (evs : List ModEvent) : Bool :=
  match e with
  | .name _ => named evs
  | .version .. => versioned evs

/-- **C78.** A call that returns has done what it does in C66, and with enough memory it does return. -/
theorem C78_returns (hs : ∀ e ∈ evs, e.Sane) (h : runModsMem (modMemInit base) evs = .ok m) (he : e.Sane) :
    (∀ m', tryMod sup objSize m e = .ok m' → runModMem m e = .ok m') ∧
    (∀ f, tryMod sup objSize m e ≠ .error (.fault f)) ∧ (Plenty sup → ∃ m', tryMod sup objSize m e = .ok m') := by
  have ho := osim_tryMod (sup := sup) m e objSize
  obtain ⟨m1, h1, -⟩ := (modInv_of hs h).run [e] (by simpa using he)
  have h1 : runModMem m e = .ok m1 := by
    unfold runModsMem at h1
    obtain ⟨m2, h2, h3⟩ := mbind_inv h1
    cases h3
    exact h2
  rcases ho.cases h1 with e1 | ⟨w, e1, -, hp⟩
  · rw [e1]
    exact ⟨fun m' hm => by rw [h1]; exact congrArg _ (Except.ok.inj hm), by simp, fun _ => ⟨_, rfl⟩⟩
  · rw [e1]
    exact ⟨by simp, by simp, fun h => absurd h hp⟩

/-- **C78.** A setting that has not been made before: if the call runs out of memory, the program may go on as if it had
not been made.  Whatever is set afterwards, the name and version shown are those set by the other calls, and at most two
blocks are lost. -/
theorem C78_first (hs : ∀ e ∈ evs, e.Sane) (h : runModsMem (modMemInit base) evs = .ok m) (he : e.Sane)
    (hf : SetBefore e evs = false) (ho : RunsOut sup objSize m e m') {more : List ModEvent} (hm : ∀ e ∈ more, e.Sane) :
    ∃ m2, runModsMem m' more = .ok m2 ∧ moduleNameMem m2 = .ok (progName (evs ++ more)) ∧
      moduleVersionMem m2 = .ok (progVersion (evs ++ more)) ∧ (∀ a < base.length, m2.heap[a]? = base[a]?) ∧
      (liveBlocks m2.heap).length ≤ (liveBlocks base).length + 5 := by
  have hi := modInv_of hs h
  obtain ⟨hsn, hsv⟩ := set_iff hi
  obtain ⟨e1, e2⟩ := foldl_isSome evs
  have key : ∃ lost, lost.length ≤ 2 ∧ ModInv base m' (evs.foldl runMod modInit) lost := by
    cases e with
    | name n =>
      rcases hi.name_panics (ho : setModuleNameOom _ _ _ = _) with ⟨-, rfl⟩ | ⟨a, ha, -⟩
      · exact ⟨[], by simp, hi⟩
      · rw [e1, ha] at hsn
        have hf : named evs = false := hf
        rw [hf] at hsn
        cases hsn
    | version a b c tag =>
      have hf : versioned evs = false := hf
      have hb := both_run evs (m := modMemInit base) rfl h
      rw [hsv, e2, hf] at hb
      rw [e2, hf] at hsv
      rcases hi.version_panics he (ho : setModuleVersionOom _ _ _ _ _ _ _ = _) with ⟨lost, h1, h2⟩ | ⟨t, ht, -⟩ | ⟨v, -, hv, -⟩
      · exact ⟨lost, h1, by simpa using h2⟩
      · rw [ht] at hb; cases hb
      · rw [hv] at hsv; cases hsv
  obtain ⟨lost, hl, hi'⟩ := key
  obtain ⟨m2, r1, r2⟩ := hi'.run more hm
  rw [← List.foldl_append] at r2
  refine ⟨m2, r1, ?_, ?_, r2.inv.frame, ?_⟩
  · rw [r2.moduleName, moduleName_eq]
  · rw [r2.moduleVersion, moduleVersion_eq]
  · rw [r2.inv.count]
    simp only [List.length_append]
    have hx : ∀ o : Option Nat, o.toList.length ≤ 1 := by intro o; cases o <;> simp
    have := hx m2.name
    have := hx m2.tag
    have := hx m2.ver
    omega

/-- **C78.** Setting the name once more and running out of memory: the old name has been freed, but is still in use.
Showing the name is undefined (so are the help texts that contain it), and so is every further call of
`arg_set_module_name`.  The version is not affected. -/
theorem C78_name_again (hs : ∀ e ∈ evs, e.Sane) (h : runModsMem (modMemInit base) evs = .ok m) (hf : named evs = true)
    {n : CStr} (ho : RunsOut sup objSize m (.name n) m') :
    (∃ what, moduleNameMem m' = .error (.ub what)) ∧ (∀ n', Ruined m' (.name n')) ∧
      moduleVersionMem m' = .ok (progVersion evs) := by
  have hi := modInv_of hs h
  obtain ⟨hsn, -⟩ := set_iff hi
  obtain ⟨e1, -⟩ := foldl_isSome evs
  rcases hi.name_panics (ho : setModuleNameOom _ _ _ = _) with ⟨hn, -⟩ | ⟨a, ha, rfl, hd, hi'⟩
  · rw [hn, e1, hf] at hsn
    cases hsn
  · refine ⟨?_, fun n' => ruined_name (m := { m with heap := m.heap.set a none }) (t := a) ha hd, ?_⟩
    · unfold moduleNameMem
      dsimp only
      rw [ha]
      dsimp only
      unfold heapStr
      dsimp only at hd
      rw [hd]
      exact ⟨_, rfl⟩
    · have := hi'.moduleVersion
      rw [← moduleVersion_eq]
      exact this

/-- **C78.** Setting the version once more and running out of memory.  There are three cases, according to the request
that fails: the copy of the tag, building the text, the copy of the text.  In the first case the old version is still
shown, but `arg_set_module_version` cannot be called any more.  In the second case the old version is still shown and
everything works, with at most two blocks lost.  In the third case showing the version is undefined and
`arg_set_module_version` cannot be called any more.  The name is not affected. -/
theorem C78_version_again (hs : ∀ e ∈ evs, e.Sane) (h : runModsMem (modMemInit base) evs = .ok m)
    (hf : versioned evs = true) {a b c : Int} {tag : CStr} (he : (ModEvent.version a b c tag).Sane)
    (ho : RunsOut sup objSize m (.version a b c tag) m') :
    moduleNameMem m' = .ok (progName evs) ∧
    ((moduleVersionMem m' = .ok (progVersion evs) ∧ (∀ a b c tag, Ruined m' (.version a b c tag))) ∨
     (moduleVersionMem m' = .ok (progVersion evs) ∧ ∀ more : List ModEvent, (∀ e ∈ more, e.Sane) →
        ∃ m2, runModsMem m' more = .ok m2 ∧ moduleNameMem m2 = .ok (progName (evs ++ more)) ∧
          moduleVersionMem m2 = .ok (progVersion (evs ++ more)) ∧
          (liveBlocks m2.heap).length ≤ (liveBlocks base).length + 5) ∨
     ((∃ what, moduleVersionMem m' = .error (.ub what)) ∧
        ∀ a b c tag, (ModEvent.version a b c tag).Sane → Ruined m' (.version a b c tag))) := by
  have hi := modInv_of hs h
  rcases hi.version_panics he (ho : setModuleVersionOom _ _ _ _ _ _ _ = _) with ⟨lost, h1, h2⟩ | ⟨t, ht, rfl, hd, hi'⟩ |
    ⟨v, lost, hmv, hv, hl, hd, hi'⟩
  · refine ⟨by rw [h2.moduleName, moduleName_eq], Or.inr (Or.inl ⟨by rw [h2.moduleVersion, moduleVersion_eq], ?_⟩)⟩
    intro more hm
    obtain ⟨m2, r1, r2⟩ := h2.run more hm
    rw [← List.foldl_append] at r2
    refine ⟨m2, r1, ?_, ?_, ?_⟩
    · rw [r2.moduleName, moduleName_eq]
    · rw [r2.moduleVersion, moduleVersion_eq]
    · rw [r2.inv.count]
      simp only [List.length_append, List.nil_append]
      have hx : ∀ o : Option Nat, o.toList.length ≤ 1 := by intro o; cases o <;> simp
      have := hx m2.name
      have := hx m2.tag
      have := hx m2.ver
      omega
  · refine ⟨?_, Or.inl ⟨?_, fun a b c tag => ruined_tag (m := { m with heap := m.heap.set t none }) (t := t) ht hd⟩⟩
    · rw [← moduleName_eq]; exact hi'.moduleName
    · rw [← moduleVersion_eq]; exact hi'.moduleVersion
  · refine ⟨?_, Or.inr (Or.inr ⟨?_, ?_⟩)⟩
    · rw [← moduleName_eq]; exact hi'.moduleName
    · unfold moduleVersionMem
      rw [hv]
      dsimp only
      unfold heapStr
      rw [hd]
      exact ⟨_, rfl⟩
    · intro a b c tag hs'
      refine ruined_ver hv hd (base := base) (R := m'.name.toList ++ lost) ?_ hs'
      have := hi'.inv.perm (perm_tag _ _ _ _)
      simpa using this

end

/-! ## The hypotheses are met -/

namespace RecoverDemo

def ample : Room := ⟨true, true, true, true⟩

/-- Registering "add" works.  Registering it again fails for lack of an entry; "list" fails for lack of a larger table,
then works; "rm" fails for lack of room for its name; the last call takes "add" away, which is not there. -/
def hist : List (Room × PtrEvent Nat Nat) :=
  [(ample, .register (own (cs "add")) (some 1) (own (cs "add one")) 5),
   (ample, .register (own (cs "mv")) (some 2) (own (cs "move")) 6),
   (⟨true, true, true, false⟩, .register (own (cs "add")) (some 3) (own (cs "add two")) 7),
   (ample, .register (own (cs "cp")) (some 3) (own (cs "copy")) 7),
   (⟨true, true, false, true⟩, .register (own (cs "list")) (some 4) (own (cs "list all")) 8),
   (ample, .register (own (cs "list")) (some 4) (own (cs "list all")) 8),
   (⟨true, false, true, true⟩, .register (own (cs "rm")) (some 5) (own (cs "remove")) 9),
   (⟨false, true, true, true⟩, .unregister (own (cs "add")))]

example : LegalShort (fun _ => 2) (memInit fun _ => 2) hist := by
  apply C78_own
  intro e he
  simp only [hist, List.mem_cons, List.not_mem_nil, or_false] at he
  rcases he with rfl | rfl | rfl | rfl | rfl | rfl | rfl | rfl
  all_goals first
    | exact ⟨⟨by decide +kernel, by decide +kernel⟩, rfl, rfl⟩
    | exact ⟨trivial, rfl⟩

example : (do
    let (s, bs) ← tryPtrs (fun _ => 2) (memInit fun _ => 2) hist
    let a ← memInfo (fun _ => 2) (own (cs "add")) s
    let l ← memInfo (fun _ => 2) (own (cs "list")) s
    .ok (bs, a.isSome, l.map (·.val.description))) =
    (.ok ([true, true, false, true, false, true, false, true], false, some (cs "list all")) : M _) := by decide +kernel

/-- Five blocks are lost. -/
example : (do
    let (s, _) ← tryPtrs (fun _ => 2) (memInit fun _ => 2) hist
    let s' ← memUninit s
    .ok (outstanding s, outstanding s')) =
    (.ok ([2, 3, 4, 5, 6, 7, 8, 9, 10, 11, 12], [4, 5, 8, 9, 12]) : M _) := by decide +kernel

def calls : List ModEvent := [.name (cs "tool"), .version 1 2 3 (cs "beta")]

theorem calls_sane : ∀ e ∈ calls, e.Sane := by
  intro e he
  simp only [calls, List.mem_cons, List.not_mem_nil, or_false] at he
  rcases he with rfl | rfl
  · exact (by decide +kernel : '\x00' ∉ cs "tool")
  · exact ⟨by decide +kernel, by decide +kernel, by decide +kernel⟩

example : (ModEvent.version 4 5 6 (cs "rc")).Sane := ⟨by decide +kernel, by decide +kernel, by decide +kernel⟩

/-- A supply that refuses blocks of one size. -/
def but (n : Nat) : Supply := { malloc := fun _ k => decide (k ≠ n), grow := fun _ _ => true }

/-- What is shown after a call that has run out of memory, and whether one more version can be set. -/
def after (sup : Supply) (evs : List ModEvent) (e : ModEvent) : Option (Option CStr × Option CStr × Option CStr) :=
  match runModsMem (modMemInit [some [some 'x'], none]) evs with
  | .ok m =>
    match tryMod sup 24 m e with
    | .error (.panic m') => some ((moduleNameMem m').toOption, (moduleVersionMem m').toOption,
        (runModMem m' (.version 7 8 9 (cs "rc2")) >>= moduleVersionMem).toOption)
    | _ => none
  | _ => none

/-- The name, set once more: it is gone, the version is not. -/
example : after (but 4) calls (.name (cs "new")) = some (none, some (cs "1.2.3.beta"), some (cs "7.8.9.rc2")) := by decide +kernel

/-- The version, set once more: no memory for the tag. -/
example : after (but 3) calls (.version 4 5 6 (cs "rc")) = some (some (cs "tool"), some (cs "1.2.3.beta"), none) := by
  decide +kernel

/-- No memory for the dynamic string, for formatting, for the text. -/
example : ∀ n ∈ [24, 18, 200], after (but n) calls (.version 4 5 6 (cs "rc")) =
    some (some (cs "tool"), some (cs "1.2.3.beta"), some (cs "7.8.9.rc2")) := by decide +kernel

/-- No memory for the copy of the text. -/
example : after (but 9) calls (.version 4 5 6 (cs "rc")) = some (some (cs "tool"), none, none) := by decide +kernel

/-- The first version and the first name: nothing is lost. -/
example : ∀ n ∈ [3, 24, 18, 200, 9], after (but n) [.name (cs "tool")] (.version 4 5 6 (cs "rc")) =
    some (some (cs "tool"), some (cs "0.0.0.0"), some (cs "7.8.9.rc2")) := by decide +kernel

example : after (but 4) [.version 1 2 3 (cs "beta")] (.name (cs "new")) =
    some (some (cs "<name>"), some (cs "1.2.3.beta"), some (cs "7.8.9.rc2")) := by decide +kernel

/-- But a second failure of the first version may be fatal: the tag of the first attempt is freed twice. -/
example : (match tryMod (but 24) 24 (modMemInit []) (.version 4 5 6 (cs "rc")) with
    | .error (.panic m1) =>
      match tryMod (but 3) 24 m1 (.version 4 5 6 (cs "rc")) with
      | .error (.panic m2) => some (match runModMem m2 (.version 4 5 6 (cs "rc")) with
        | .error (.ub _) => true
        | _ => false)
      | _ => none
    | _ => none) = some true := by decide +kernel

end RecoverDemo

end Argtable
