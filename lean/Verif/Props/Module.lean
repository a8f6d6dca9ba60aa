import Verif.Proofs.ModMem
/-!
# C66: memory of the module name and version
-/

namespace Argtable

open Spec

/-- For every history of `arg_set_module_name` and `arg_set_module_version`, from any memory: no call does anything
undefined, the name and version found in memory are those given last, other blocks are left alone, and what stays
allocated is one block if a name was ever set and two (tag and version) if a version was, however many calls there
were. -/
theorem C66_history (base : Heap) (evs : List ModEvent) (h : ∀ e ∈ evs, e.Sane) :
    ∃ m, runModsMem (modMemInit base) evs = .ok m ∧
      moduleNameMem m = .ok (progName evs) ∧ moduleVersionMem m = .ok (progVersion evs) ∧
      (∀ a < base.length, m.heap[a]? = base[a]?) ∧
      (liveBlocks m.heap).length = (liveBlocks base).length +
        (if named evs then 1 else 0) + (if versioned evs then 2 else 0) := by
  obtain ⟨m, h1, h2⟩ := (ModInv.init base).run evs h
  refine ⟨m, h1, ?_, ?_, h2.inv.frame, ?_⟩
  · rw [h2.moduleName, moduleName_eq]
  · rw [h2.moduleVersion, moduleVersion_eq]
  · rw [h2.inv.count]
    obtain ⟨e1, e2⟩ := foldl_isSome evs
    have hn : m.name.isSome = named evs := by
      rw [← e1]
      have := congrArg Option.isSome h2.name
      simpa using this
    have hv : m.ver.isSome = versioned evs := by
      rw [← e2]
      have := congrArg Option.isSome h2.ver
      simpa using this
    have ht := both_run evs (m := modMemInit base) rfl h1
    rw [← hn, ← hv]
    cases m.name <;> cases hmt : m.tag <;> cases hmv : m.ver <;> simp_all

/-- The blocks of one call are released by a later call of the same function: after setting name and version again, the
number of allocated blocks is what it was. -/
theorem C66_again (base : Heap) (evs evs' : List ModEvent) (h : ∀ e ∈ evs, e.Sane) (h' : ∀ e ∈ evs', e.Sane)
    (hn : named evs' = true → named evs = true) (hv : versioned evs' = true → versioned evs = true) :
    ∃ m m', runModsMem (modMemInit base) evs = .ok m ∧ runModsMem m evs' = .ok m' ∧
      (liveBlocks m'.heap).length = (liveBlocks m.heap).length := by
  obtain ⟨m, h1, _, _, _, hc⟩ := C66_history base evs h
  obtain ⟨m', h1', _, _, _, hc'⟩ := C66_history base (evs ++ evs') (fun e he => by
    rcases List.mem_append.1 he with he | he
    · exact h e he
    · exact h' e he)
  have hsplit : ∀ (es : List ModEvent) (m0 : ModMem), runModsMem m0 (es ++ evs') =
      (runModsMem m0 es).bind (fun m1 => runModsMem m1 evs') := by
    intro es
    induction es with
    | nil => intro m0; rfl
    | cons e es ih =>
      intro m0
      show (runModMem m0 e).bind _ = ((runModMem m0 e).bind _).bind _
      cases runModMem m0 e with
      | error e => rfl
      | ok m1 => exact ih m1
  rw [hsplit, h1] at h1'
  refine ⟨m, m', h1, h1', ?_⟩
  rw [hc', hc]
  have e1 : named (evs ++ evs') = named evs := by
    unfold named at *
    rw [List.any_append]
    cases hx : evs'.any _ with
    | false => simp
    | true => rw [hn hx]; rfl
  have e2 : versioned (evs ++ evs') = versioned evs := by
    unfold versioned at *
    rw [List.any_append]
    cases hx : evs'.any _ with
    | false => simp
    | true => rw [hv hx]; rfl
  rw [e1, e2]

namespace ModuleDemo

/-- Two names, two versions. -/
def evs : List ModEvent :=
  [.name (cs "a"), .version 1 2 3 (cs "beta"), .name (cs "tool"), .version (-1) 20 2147483647 (cs "rc-1")]

example : ∀ e ∈ evs, e.Sane := by
  intro e he
  simp only [evs, List.mem_cons, List.not_mem_nil, or_false] at he
  rcases he with rfl | rfl | rfl | rfl
  · exact (by decide +kernel : '\x00' ∉ cs "a")
  · exact ⟨by decide +kernel, by decide +kernel, by decide +kernel⟩
  · exact (by decide +kernel : '\x00' ∉ cs "tool")
  · exact ⟨by decide +kernel, by decide +kernel, by decide +kernel⟩

example : progName evs = cs "tool" ∧ progVersion evs = cs "-1.20.2147483647.rc-1" ∧ named evs = true ∧
    versioned evs = true := by
  decide +kernel

/-- One block was there before; three of the library are left. -/
example : ((runModsMem (modMemInit [some (strBytes (cs "x")), none]) evs).toOption.map fun m =>
    (moduleNameMem m, moduleVersionMem m, (liveBlocks m.heap).length)) =
    some (.ok (cs "tool"), .ok (cs "-1.20.2147483647.rc-1"), 4) := by
  decide +kernel

end ModuleDemo

end Argtable
