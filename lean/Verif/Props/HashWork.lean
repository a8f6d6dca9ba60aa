import Verif.Proofs.HashWork
/-!
# C94: what the command registry costs

The commands are kept in a hash table.  These theorems count: entries that are put into another bucket when the table grows, entries
that a search looks at, and calls of `strcmp`.
-/

namespace Argtable
open Spec

variable {P C : Type}

/-- The functions with counters are the functions of the model: without the counters they do the same, in every state. -/
theorem C94_same (limit : Nat → Nat) (r : Registry P C) (name : CStr) (proc : Option P) (description : CStr) (ctx : C) :
    (cmdRegisterW limit r name proc description ctx).map Prod.fst = cmdRegister limit r name proc description ctx ∧
    (cmdUnregisterW limit r name).map Prod.fst = cmdUnregister limit r name ∧
    (cmdInfoW limit r name).map Prod.fst = cmdInfo limit r name ∧
    ∀ evs : List (CmdEvent P C), (runEventsW limit r evs).map Prod.fst = runEvents limit r evs :=
  ⟨cmdRegisterW_fst .., cmdUnregisterW_fst .., cmdInfoW_fst .., fun evs => runEventsW_fst limit evs r⟩

/-- After any history the table is the first one of the list of sizes that has room for the largest number of commands there ever
was at one time, and what was moved in total is the sum of the limits of the tables before it. -/
theorem C94_moved {limit : Nat → Nat} (hg : Growing limit) (evs : List (CmdEvent P C)) (hfit : ∀ e ∈ evs, e.fits) :
    ∃ t c n i, runEventsW limit (cmdInit limit) evs = .ok (.table t, c) ∧ IsPeak evs n ∧ primes[i]? = some t.tablelength ∧
      (i = 0 ∨ ∃ p, primes[i - 1]? = some p ∧ limit p < n) ∧ (n ≤ limit t.tablelength ∨ i + 1 = primes.length) ∧
      c.moved = outgrown limit i := by
  obtain ⟨t0, B0, A0, e0, h0⟩ := PeakInv.init (P := P) (C := C) limit
  obtain ⟨t, B, A, n, c, e1, h⟩ := PeakInv.run hg evs t0 B0 A0 [] 0 0 h0 hfit
  rw [e0]
  exact ⟨t, c, n, t.primeindex, e1, h.peak, h.size, h.small, h.large, by rw [← h.moved]; omega⟩

/-- One more change: entries are moved only if there are now more commands than there ever were. -/
theorem C94_steady {limit : Nat → Nat} (hg : Growing limit) (evs : List (CmdEvent P C)) (e : CmdEvent P C)
    (hfit : ∀ e' ∈ evs ++ [e], e'.fits) {n : Nat} (hpk : IsPeak evs n) (hle : (registered (evs ++ [e])).length ≤ n) :
    ∃ t t' c, runEvents limit (cmdInit limit) evs = .ok (.table t) ∧ runEventW limit (.table t) e = .ok (.table t', c) ∧
      c.moved = 0 ∧ t'.tablelength = t.tablelength := by
  obtain ⟨t0, B0, A0, e0, h0⟩ := PeakInv.init (P := P) (C := C) limit
  obtain ⟨t, B, A, n', c, e1, h⟩ := PeakInv.run hg evs t0 B0 A0 [] 0 0 h0 fun e' he' => hfit e' (by simp [he'])
  obtain ⟨t', B', A', d, e2, -, h'⟩ := h.step hg (hfit e (by simp))
  have hn : n' = n := h.peak.unique hpk
  subst hn
  rw [List.nil_append, Nat.max_eq_left hle] at h'
  have a := index_le hg h.size h'.size h.large h'.small
  have b := index_le hg h'.size h.size h'.large h.small
  have hi : t'.primeindex = t.primeindex := Nat.le_antisymm a b
  refine ⟨t, t', d, ?_, e2, ?_, ?_⟩
  · have := runEventsW_fst limit evs (cmdInit limit : Registry P C)
    rw [e0, e1] at this
    rw [e0, ← this]
    rfl
  · have h1 := h.moved
    have h2 := h'.moved
    rw [hi, ← h1] at h2
    omega
  · have h1 := h.size
    have h2 := h'.size
    rw [hi, h1] at h2
    exact (Option.some.inj h2).symm

/-- The limits of the library grow, and the rounding of the multiplication in floating point does not matter for them: no product is
closer than 4/2^24 to an integer. -/
theorem C94_limits : Growing loadLimit ∧ ∀ p ∈ primes, 4 ≤ (p * 10905190) % 2 ^ 24 ∧ (p * 10905190) % 2 ^ 24 ≤ 2 ^ 24 - 4 := by
  refine ⟨?_, by decide +kernel⟩
  have h : ∀ i < primes.length - 1, loadLimit (primes[i]?.getD 0) < loadLimit (primes[i + 1]?.getD 0) := by decide +kernel
  intro i p q hp hq
  have hlt : i + 1 < primes.length := by
    by_contra hc
    rw [List.getElem?_eq_none (by omega)] at hq
    cases hq
  have := h i (by omega)
  rwa [hp, hq] at this

/-- With the limits of the library: the table is not longer than 3.2 times the largest number of commands there ever was at one time
(or it is the first table, of size 53), and in total at most two entries per command of this number, and 105 more, were moved.  Below the
size of the last table at most 66 of 100 buckets' worth of commands are in it. -/
theorem C94_library (evs : List (CmdEvent P C)) (hfit : ∀ e ∈ evs, e.fits) {n : Nat} (hpk : IsPeak evs n) :
    ∃ t c, runEventsW loadLimit (cmdInit loadLimit) evs = .ok (.table t, c) ∧
      (t.tablelength = 53 ∨ 5 * t.tablelength ≤ 16 * n) ∧ c.moved ≤ 2 * n + 105 ∧
      (100 * n ≤ 66 * t.tablelength + 100 ∨ t.tablelength = 1610612741) := by
  obtain ⟨t, c, m, i, e1, h1, h2, h3, h4, h5⟩ := C94_moved C94_limits.1 evs hfit
  obtain rfl := h1.unique hpk
  have key : ∀ i < primes.length, (i = 0 ∨ 5 * primes[i]?.getD 0 ≤ 16 * (loadLimit (primes[i - 1]?.getD 0) + 1) ∧
      outgrown loadLimit i ≤ 2 * (loadLimit (primes[i - 1]?.getD 0) + 1) + 105) ∧
      100 * loadLimit (primes[i]?.getD 0) ≤ 66 * primes[i]?.getD 0 + 100 := by decide +kernel
  have hlt : i < primes.length := by
    by_contra hc
    rw [List.getElem?_eq_none (by omega)] at h2
    cases h2
  obtain ⟨k1, k2⟩ := key i hlt
  rw [h2] at k1 k2
  dsimp only [Option.getD] at k1 k2
  refine ⟨t, c, e1, ?_, ?_, ?_⟩
  · rcases h3 with rfl | ⟨p, p1, p2⟩
    · left
      have : primes[0]? = some 53 := by decide
      rw [this] at h2
      exact (Option.some.inj h2).symm
    · rcases k1 with rfl | ⟨k1, -⟩
      · left
        have : primes[0]? = some 53 := by decide
        rw [this] at h2
        exact (Option.some.inj h2).symm
      · right
        rw [p1] at k1
        dsimp only at k1
        omega
  · rw [h5]
    rcases h3 with rfl | ⟨p, p1, p2⟩
    · exact Nat.zero_le _
    · rcases k1 with rfl | ⟨-, k1⟩
      · exact Nat.zero_le _
      · rw [p1] at k1
        dsimp only at k1
        omega
  · rcases h4 with h4 | h4
    · left; omega
    · right
      have hl : primes[primes.length - 1]? = some 1610612741 := by decide
      have : i = primes.length - 1 := by omega
      rw [this, hl] at h2
      exact (Option.some.inj h2).symm

/-- `arg_cmd_info`, and so `arg_cmd_dispatch`: one search.  It looks at no more entries than there are registered names in the bucket
of `name` and compares with no more than there are registered names with the same 32-bit value. -/
theorem C94_lookup {limit : Nat → Nat} (hg : Growing limit) (evs : List (CmdEvent P C)) (hfit : ∀ e ∈ evs, e.fits) (name : CStr) :
    ∃ t c, runEvents limit (cmdInit limit) evs = .ok (.table t) ∧
      cmdInfoW limit (.table t) name = .ok (latest evs name, c) ∧ OneSearch evs t.tablelength name c := by
  obtain ⟨t0, B0, A0, e0, h0⟩ := PeakInv.init (P := P) (C := C) limit
  obtain ⟨t, B, A, n, c, e1, h⟩ := PeakInv.run hg evs t0 B0 A0 [] 0 0 h0 hfit
  obtain ⟨d, e2, hd⟩ := hashSearchW_count h.tab h.look name
  refine ⟨t, d, ?_, ?_, hd⟩
  · have := runEventsW_fst limit evs (cmdInit limit : Registry P C)
    rw [e0, e1] at this
    rw [e0, ← this]
    rfl
  · unfold cmdInfoW Registry.get
    show ((.ok t : M _) >>= _) = _
    rw [hbind_ok]
    exact e2

/-- `arg_cmd_unregister`: one search, the one that `arg_cmd_info` would make, and nothing moves. -/
theorem C94_unregister {limit : Nat → Nat} (hg : Growing limit) (evs : List (CmdEvent P C)) (hfit : ∀ e ∈ evs, e.fits)
    (name : CStr) :
    ∃ t r c, runEvents limit (cmdInit limit) evs = .ok (.table t) ∧
      cmdUnregisterW limit (.table t) name = .ok (r, c) ∧ OneSearch evs t.tablelength name c ∧
      cmdInfoW limit (.table t) name = .ok (latest evs name, c) := by
  obtain ⟨t0, B0, A0, e0, h0⟩ := PeakInv.init (P := P) (C := C) limit
  obtain ⟨t, B, A, n, c, e1, h⟩ := PeakInv.run hg evs t0 B0 A0 [] 0 0 h0 hfit
  obtain ⟨t', B', A', d, e2, ⟨hd, o, ho⟩, -⟩ := h.step hg (e := .unregister name) trivial
  have hrun : runEvents limit (cmdInit limit) evs = .ok (.table t) := by
    have := runEventsW_fst limit evs (cmdInit limit : Registry P C)
    rw [e0, e1] at this
    rw [e0, ← this]
    rfl
  refine ⟨t, _, d, hrun, e2, hd, ?_⟩
  obtain ⟨d', g1, -⟩ := hashSearchW_count h.tab h.look name
  rw [ho] at g1
  cases g1
  exact ho

/-- `arg_cmd_register`: the search that `arg_cmd_info` would make, once for a new name and twice if the name is registered already. -/
theorem C94_register {limit : Nat → Nat} (hg : Growing limit) (evs : List (CmdEvent P C)) (hfit : ∀ e ∈ evs, e.fits)
    {name : CStr} (proc : Option P) {description : CStr} (ctx : C) (hn : name.length < 100) (hd : description.length < 256) :
    ∃ t r c d, runEvents limit (cmdInit limit) evs = .ok (.table t) ∧
      cmdRegisterW limit (.table t) name proc description ctx = .ok (r, c) ∧
      cmdInfoW limit (.table t) name = .ok (latest evs name, d) ∧ OneSearch evs t.tablelength name d ∧
      (latest evs name = none → c.looked = d.looked ∧ c.compared = d.compared) ∧
      ((latest evs name).isSome → c.looked = 2 * d.looked ∧ c.compared = 2 * d.compared) := by
  obtain ⟨t0, B0, A0, e0, h0⟩ := PeakInv.init (P := P) (C := C) limit
  obtain ⟨t, B, A, n, c, e1, h⟩ := PeakInv.run hg evs t0 B0 A0 [] 0 0 h0 hfit
  obtain ⟨t', B', A', c, e2, ⟨o, d, ho, hd, k1, k2⟩, -⟩ := h.step hg (e := .register name proc description ctx) ⟨hn, hd⟩
  have hrun : runEvents limit (cmdInit limit) evs = .ok (.table t) := by
    have := runEventsW_fst limit evs (cmdInit limit : Registry P C)
    rw [e0, e1] at this
    rw [e0, ← this]
    rfl
  refine ⟨t, _, c, d, hrun, e2, ?_, hd, k1, k2⟩
  obtain ⟨d', g1, -⟩ := hashSearchW_count h.tab h.look name
  rw [ho] at g1
  cases g1
  exact ho

/-- **The worst case.** There is no better bound than the number of commands: for every number below 2^49 there are so many different
names, of letters only, that all of them are looked at and compared when another name is searched for. -/
theorem C94_worst {limit : Nat → Nat} (hg : Growing limit) {n : Nat} (hn : n < 2 ^ 49) (proc : CStr → Option P) (ctx : C) :
    ∃ names : List CStr, names.Nodup ∧ names.length = n ∧ (∀ s ∈ names, s.length < 100 ∧ ∀ c ∈ s, c.isAlpha = true) ∧
      ∃ name t c, name ∉ names ∧ (name.length < 100 ∧ ∀ c ∈ name, c.isAlpha = true) ∧
        runEvents limit (cmdInit limit) (names.map fun s => .register s (proc s) [] ctx) = .ok (.table t) ∧
        cmdInfoW limit (.table t) name = .ok (none, c) ∧ c.looked = n ∧ c.compared = n := by
  have hnd : ((List.range n).map twin).Nodup := by
    refine List.Nodup.map_on ?_ List.nodup_range
    intro i hi k hk h
    rw [List.mem_range] at hi hk
    exact twin_inj (by omega) (by omega) h
  have hnot : twin n ∉ (List.range n).map twin := by
    intro h
    obtain ⟨i, hi, he⟩ := List.mem_map.1 h
    rw [List.mem_range] at hi
    have := twin_inj (by omega) hn he
    omega
  have hfit : ∀ e ∈ (((List.range n).map twin).map fun s => (.register s (proc s) [] ctx : CmdEvent P C)), e.fits := by
    intro e he
    obtain ⟨s, hs, rfl⟩ := List.mem_map.1 he
    obtain ⟨i, _, rfl⟩ := List.mem_map.1 hs
    exact ⟨by rw [twin_length]; omega, by show 0 < 256; omega⟩
  obtain ⟨t, c, e1, e2, e3⟩ := C94_lookup hg _ hfit (twin n)
  have hl := latest_registers_none (f := proc) (d := []) (ctx := ctx) hnot
  rw [hl] at e2
  obtain ⟨k1, k2⟩ := e3.absent hl
  have hall : ∀ s ∈ (List.range n).map twin, hashOf s = hashOf (twin n) := by
    intro s hs
    obtain ⟨i, _, rfl⟩ := List.mem_map.1 hs
    exact twin_hash i n
  refine ⟨(List.range n).map twin, hnd, by simp, ?_, twin n, t, c, hnot, ⟨by rw [twin_length]; omega, twin_alpha n⟩, e1, e2, ?_, ?_⟩
  · intro s hs
    obtain ⟨i, _, rfl⟩ := List.mem_map.1 hs
    exact ⟨by rw [twin_length]; omega, twin_alpha i⟩
  · rw [k1]
    unfold sharing
    rw [registered_registers hnd, List.filter_eq_self.2 (fun s hs => by simp [hall s hs])]
    simp
  · rw [k2]
    unfold colliding
    rw [registered_registers hnd, List.filter_eq_self.2 (fun s hs => by simp [hall s hs])]
    simp

/-! ### the hypotheses can be met -/

namespace HashWorkDemo

/-- The name of command number `i`. -/
def name (i : Nat) : CStr := [Char.ofNat (97 + i % 26), Char.ofNat (97 + i / 26)]

def reg (i : Nat) : CmdEvent Nat Unit := .register (name i) (some i) [] ()

/-- 40 commands, 10 of them removed, and one registered again. -/
def evs : List (CmdEvent Nat Unit) := (List.range 40).map reg ++ (List.range 10).map (fun i => .unregister (name i)) ++ [reg 20]

theorem fits : ∀ e ∈ evs, e.fits := by
  have h : ∀ i, (reg i).fits := fun i => ⟨by show 2 < 100; omega, by show 0 < 256; omega⟩
  intro e he
  simp only [evs, List.mem_append, List.mem_map, List.mem_range, List.mem_singleton] at he
  rcases he with (⟨i, _, rfl⟩ | ⟨i, _, rfl⟩) | rfl
  · exact h i
  · trivial
  · exact h 20

theorem peak : IsPeak evs 40 := by
  constructor
  · exact ⟨(List.range 40).map reg, ⟨_, by rw [evs, List.append_assoc]⟩, by decide +kernel⟩
  · have h : ∀ k < 52, (registered (evs.take k)).length ≤ 40 := by decide +kernel
    intro p hp
    have hl : p.length ≤ 51 := hp.length_le
    rw [List.prefix_iff_eq_take.1 hp]
    exact h p.length (by omega)

/-- 40 commands do not fit into the first table, which takes 35; the second one has 97 buckets.  That is what the theorems say: 35
entries are moved, and the size is less than 3.2 times 40. -/
example : (runEventsW loadLimit (cmdInit loadLimit) evs).toOption.map
    (fun x => (x.2, (match x.1 with | .table t => t.tablelength | _ => 0))) = some (⟨35, 29, 12⟩, 97) := by decide +kernel

example : ∃ t c, runEventsW loadLimit (cmdInit loadLimit) evs = .ok (.table t, c) ∧ (t.tablelength = 53 ∨ 5 * t.tablelength ≤ 16 * 40) ∧
    c.moved ≤ 2 * 40 + 105 := by
  obtain ⟨t, c, h1, h2, h3, -⟩ := C94_library evs fits peak
  exact ⟨t, c, h1, h2, h3⟩

/-- One more command, or one of the ten again: nothing moves, as there were 40 before. -/
example : (registered (evs ++ [reg 41])).length ≤ 40 := by decide +kernel

/-- A name that shares its bucket with two registered names, which have other 32-bit values. -/
example : (sharing evs 97 (name 47)).length = 2 ∧ colliding evs (name 47) = [] ∧ latest evs (name 47) = none := by decide +kernel

end HashWorkDemo

end Argtable
