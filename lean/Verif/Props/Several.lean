import Verif.Proofs.Several
/-!
# C79: several dynamic strings at the same time

A client has any number of arg_dstr objects, in one heap, and calls the functions of arg_dstr.c on them in any order, also
appending the string of one to another or copying it.
-/

namespace Argtable
open Spec

/-- C79: whatever the calls and their order, no call does anything undefined, and at the end every object that still exists has
the string expected from the calls. -/
theorem C79_texts (heap : Heap) (cmds : List SCmd) (hs : AllSensible [] cmds) :
    ∃ w, runAll ⟨heap, [], []⟩ cmds = .ok w ∧ w.objs.length = (texts cmds).length ∧
      ∀ (i : Nat) (s : CStr), (texts cmds)[i]? = some (some s) →
        ∃ d, w.objs[i]? = some (some d) ∧ DState.cstr ⟨w.heap, d, []⟩ (dstrCstr ⟨w.heap, d, []⟩) = .ok s := by
  obtain ⟨w, S, cus, Os, ps, e, h, -, -⟩ := SInv.execAll cmds (SInv.start heap) hs
  exact ⟨w, e, h.len, fun i s hi => h.cstr hi⟩

/-- C79: an object that is not destroyed and gets no text of other objects has exactly the string that its own calls alone
would have given it: what is done to other objects in between does not matter. -/
theorem C79_independent (heap : Heap) (cmds : List SCmd) (hs : AllSensible [] cmds) (i : Nat) (hi : i < (texts cmds).length)
    (ht : ∀ c ∈ cmds, ¬ c.Touches i) :
    ∃ w d, runAll ⟨heap, [], []⟩ cmds = .ok w ∧ w.objs[i]? = some (some d) ∧
      DState.cstr ⟨w.heap, d, []⟩ (dstrCstr ⟨w.heap, d, []⟩) = .ok (contents (callsOn i cmds)) := by
  obtain ⟨w, e, -, h⟩ := C79_texts heap cmds hs
  obtain ⟨d, h1, h2⟩ := h i _ (texts_created i cmds [] hs ht (Nat.zero_le _) hi)
  exact ⟨w, d, e, h1, h2⟩

/-- C79: no call changes or frees memory that was there before. -/
theorem C79_frame (heap : Heap) (cmds : List SCmd) (hs : AllSensible [] cmds) :
    ∃ w, runAll ⟨heap, [], []⟩ cmds = .ok w ∧ ∀ a < heap.length, w.heap[a]? = heap[a]? := by
  obtain ⟨w, S, cus, Os, ps, e, h, -, -⟩ := SInv.execAll cmds (SInv.start heap) hs
  exact ⟨w, e, h.frame⟩

/-- C79: when all objects have been destroyed, the memory is what it was before, apart from the strings that the client passed
with `ARG_DSTR_STATIC`; and for each object every string handed over with a function of the client's has been given to that
function exactly once, in the order in which they were handed over. -/
theorem C79_released (heap : Heap) (cmds : List SCmd) (hs : AllSensible [] cmds) (hd : ∀ i, ¬ Present (texts cmds) i) :
    ∃ w, runAll ⟨heap, [], []⟩ cmds = .ok w ∧
      liveBlocks w.heap = liveBlocks heap ++ (cmds.flatMap SCmd.static).map strBytes ∧
      ∀ i, (w.log.filter (fun e => e.1 = i)).map (·.2) = (callsOn i cmds).flatMap DCmd.custom := by
  obtain ⟨w, S, cus, Os, ps, e, h, hS, hc⟩ := SInv.execAll cmds (SInv.start heap) hs
  obtain ⟨h1, h2⟩ := h.over hd
  refine ⟨w, e, by rw [h1, hS]; simp, fun i => by rw [h2, hc]; simp⟩

/-! ### a case -/

namespace SeveralDemo

/-- Three objects; texts short and long, static, handed over and copied. -/
def hist : List SCmd := [.create, .call 0 (.setStatic "abc".toList), .create, .call 1 (.setCustom 7 "xy".toList),
  .call 0 (.catc 'd'), .cat 1 0, .create, .call 2 (.setVolatile (List.replicate 300 'q')), .copy 0 2, .cat 2 1,
  .call 0 .reset, .call 0 (.catf (some 2) "12".toList), .cat 1 0]

def ends : List SCmd := [.destroy 1, .destroy 0, .destroy 2]

instance (ts : List (Option CStr)) (i : Nat) : Decidable (Present ts i) :=
  match h : ts[i]? with
  | some (some s) => isTrue ⟨s, h⟩
  | some none => isFalse fun ⟨s, hs⟩ => by rw [h] at hs; cases hs
  | none => isFalse fun ⟨s, hs⟩ => by rw [h] at hs; cases hs

instance (c : DCmd) : Decidable c.Proper := by cases c <;> unfold DCmd.Proper <;> infer_instance

instance (ts : List (Option CStr)) (c : SCmd) : Decidable (c.Sensible ts) := by
  cases c <;> unfold SCmd.Sensible <;> infer_instance

instance decAll : (ts : List (Option CStr)) → (cmds : List SCmd) → Decidable (AllSensible ts cmds)
  | _, [] => isTrue trivial
  | ts, c :: cmds => have := decAll (c.after ts) cmds; inferInstanceAs (Decidable (_ ∧ _))

theorem sensible : AllSensible [] (hist ++ ends) := by
  decide +kernel

theorem sensible_hist : AllSensible [] hist := by
  decide +kernel

example : texts hist = [some "12".toList, some "xyabcd12".toList, some (List.replicate 300 'q' ++ "xyabcd".toList)] := by
  decide +kernel

example : ∃ w, runAll ⟨[none, some []], [], []⟩ hist = .ok w ∧ w.objs.length = 3 ∧
    ∃ d, w.objs[1]? = some (some d) ∧ DState.cstr ⟨w.heap, d, []⟩ (dstrCstr ⟨w.heap, d, []⟩) = .ok "xyabcd12".toList := by
  obtain ⟨w, h1, h2, h3⟩ := C79_texts [none, some []] hist sensible_hist
  exact ⟨w, h1, h2, h3 1 _ (by decide +kernel)⟩

/-- Object 0 with another one that is not involved. -/
def alone : List SCmd := [.create, .create, .call 0 (.cat "ab".toList), .call 1 (.setDynamic "zz".toList), .cat 1 0,
  .call 0 (.catc 'c'), .destroy 1]

example : ∃ w d, runAll ⟨[], [], []⟩ alone = .ok w ∧ w.objs[0]? = some (some d) ∧
    DState.cstr ⟨w.heap, d, []⟩ (dstrCstr ⟨w.heap, d, []⟩) = .ok "abc".toList :=
  C79_independent [] alone (by decide +kernel) 0 (by decide) (by simp [alone, SCmd.Touches])

example : ∃ w, runAll ⟨[some []], [], []⟩ (hist ++ ends) = .ok w ∧ liveBlocks w.heap = [[], strBytes "abc".toList] ∧
    (w.log.filter (fun e => e.1 = 1)).map (·.2) = [(7, "xy".toList)] := by
  obtain ⟨w, h1, h2, h3⟩ := C79_released [some []] (hist ++ ends) sensible (by
    rintro i ⟨s, hs⟩
    have ht : texts (hist ++ ends) = [none, none, none] := by decide +kernel
    rw [ht] at hs
    have := (List.getElem?_eq_some_iff.1 hs).1
    match i, hs with
    | 0, hs => cases hs
    | 1, hs => cases hs
    | 2, hs => cases hs)
  exact ⟨w, h1, h2, h3 1⟩

/-- That the two objects differ is needed: appending an object's own string to it reads memory that has just been freed. -/
example : ¬ ∃ w, runAll ⟨[], [], []⟩ [.create, .call 0 (.setDynamic "ab".toList), .cat 0 0] = .ok w := by
  have h : (runAll ⟨[], [], []⟩ [.create, .call 0 (.setDynamic "ab".toList), .cat 0 0]).toOption = none := by decide +kernel
  rintro ⟨w, hw⟩
  rw [hw] at h
  cases h

end SeveralDemo

end Argtable
