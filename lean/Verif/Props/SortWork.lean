import Verif.Proofs.SortWork
import Verif.Props.Sort

/-!
# `arg_mgsort` with any comparison function (C89)
-/

namespace Argtable

open Spec

variable {α σ : Type} {esize : Nat}

/-- **C89.**  Whatever the comparison function does, and whenever memory is refused: `arg_mgsort` never touches memory outside the
array and the temporary block.  Whether it returns, or the panic function is called, or the comparison function does not return:
the range has a permutation of its elements and the rest of the array is as before; the state of the program is what the calls of the
comparison function have made of it; at most `n ⌈log₂ n⌉ - 2 ^ ⌈log₂ n⌉ + 1`
comparisons were made; no more than `n` elements' memory was in use at any time.  If it returns, then after `n - 1` requests for
memory, and all is released; so it is when the panic function is called, which happens only if
memory was refused.  The recursion has at most `⌈log₂ n⌉ + 1` levels. -/
theorem C89_ends (env : SortEnv α σ) (before range after : List α) (prog : σ) (log : List (SortEv α))
    (hsize : 2 * (before.length + range.length) ≤ 2 ^ 31 + 2) (hbytes : (before.length + range.length) * esize < 2 ^ 31)
    {depth : Nat} (hd : Nat.clog 2 range.length < depth) :
    ∃ range' evs prog', range'.Perm range ∧ prog' = progAfter env prog evs ∧ NeverMore (range.length * esize) evs ∧
      comparisons evs + 2 ^ Nat.clog 2 range.length ≤ range.length * Nat.clog 2 range.length + 1 ∧
      let now : SortSt α σ := ⟨before ++ range' ++ after, prog', log ++ evs⟩
      let run := mgsortW env esize depth before.length (before.length + range.length - 1) ⟨before ++ range ++ after, prog, log⟩
      ((run = .ok now ∧ bytesHeld evs = 0 ∧ requests evs = range.length - 1) ∨
        (run = .error (.panic now) ∧ bytesHeld evs = 0 ∧ ∃ bytes, env.malloc prog' bytes = false) ∨
        (run = .error (.left now) ∧ LeftIn env prog evs ∧ ∃ n : Nat, 2 ≤ n ∧ n ≤ range.length ∧ bytesHeld evs = n * esize)) := by
  obtain ⟨m, evs, p, h1, h0, h2, h3, h4⟩ := mgsortW_ends (esize := esize) env (by omega) depth before range after ⟨_, prog, log⟩ rfl hd (by omega)
    (by have : ((before.length + range.length : Nat) : Int) * esize < 2 ^ 31 := by exact_mod_cast hbytes
        push_cast at this; omega)
  exact ⟨m, evs, p, h1, h0, h2, h3, h4⟩

/-- **C89.**  So there are never more than `n ⌈log₂ n⌉` comparisons. -/
theorem C89_comparisons (env : SortEnv α σ) (a : List α) (prog : σ) (hsize : 2 * a.length ≤ 2 ^ 31 + 2)
    (hbytes : a.length * esize < 2 ^ 31) {depth : Nat} (hd : Nat.clog 2 a.length < depth) {s : SortSt α σ}
    (h : mgsortW env esize depth 0 (a.length - 1) ⟨a, prog, []⟩ = .ok s) :
    s.arr.Perm a ∧ comparisons s.log ≤ a.length * Nat.clog 2 a.length ∧ bytesHeld s.log = 0 := by
  obtain ⟨r, evs, p, h1, -, -, h2, h3⟩ := C89_ends env [] a [] prog [] (by simpa using hsize) (by simpa using hbytes) hd
  have hp : 0 < 2 ^ Nat.clog 2 a.length := Nat.pow_pos (by omega)
  simp only [List.length_nil, Int.natCast_zero, Int.zero_add, List.nil_append, List.append_nil, h, Except.ok.injEq, reduceCtorEq, false_and, or_false] at h3
  obtain ⟨rfl, h4, -⟩ := h3
  exact ⟨h1, by dsimp only; omega, h4⟩

/-- **C89.**  The number of levels is exact: with fewer the sort of `n` elements would not come to its end. -/
theorem C89_depth (env : SortEnv α σ) (a : List α) (prog : σ) (log : List (SortEv α)) {depth : Nat} (h1 : 1 ≤ a.length) {s : SortSt α σ}
    (h : mgsortW env esize depth 0 (a.length - 1) ⟨a, prog, log⟩ = .ok s) : Nat.clog 2 a.length < depth := by
  have := mgsortW_depth env depth 0 (a.length - 1) _ s (by omega) (by omega) h
  rwa [show ((a.length : Int) - 1 - 0 + 1).toNat = a.length from by omega] at this

/-- **C89.**  With a comparison function that depends on its arguments only, and enough memory, this is the sort of C42 and C43. -/
theorem C89_same (cmp : α → α → Int) (next : α → α → σ → σ) (depth : Nat) (i k : Int) (a a' : List α) (prog : σ) (log : List (SortEv α)) :
    mgsort esize cmp depth a i k = .ok a' ↔
      ∃ s, mgsortW (plainEnv cmp next) esize depth i k ⟨a, prog, log⟩ = .ok s ∧ s.arr = a' := by
  have h := mgsortW_plain (esize := esize) cmp next depth i k ⟨a, prog, log⟩
  revert h
  cases mgsortW (plainEnv cmp next) esize depth i k ⟨a, prog, log⟩ with
  | error e =>
    cases e with
    | fault f => intro h; dsimp only at h; rw [h]; simp
    | panic w => exact fun h => h.elim
    | left w => exact fun h => h.elim
  | ok s => intro h; dsimp only at h; rw [h]; simp

/-! ### examples -/

/-- What a run shows: the array, the number of comparisons, the memory in use, and how it ended. -/
def sortShows : SortM α σ (SortSt α σ) → Option (String × List α × Nat × Int)
  | .ok s => some ("returned", s.arr, comparisons s.log, bytesHeld s.log)
  | .error (.panic s) => some ("panic", s.arr, comparisons s.log, bytesHeld s.log)
  | .error (.left s) => some ("left", s.arr, comparisons s.log, bytesHeld s.log)
  | .error (.fault _) => none

/-- The bound is reached: eight elements, 8 · 3 - 8 + 1 = 17 comparisons. -/
example : sortShows (mgsortW (plainEnv (fun a b : Nat => (a : Int) - b) (fun _ _ p => p)) 4 4 0 7 ⟨[0, 4, 2, 6, 1, 5, 3, 7], (), []⟩) =
    some ("returned", [0, 1, 2, 3, 4, 5, 6, 7], 17, 0) := by decide +kernel

/-- A function that contradicts itself, by saying less and not less in turn. -/
example : sortShows (mgsortW (⟨fun _ _ p => (some (if p then -1 else 1), !p), fun _ _ => true⟩ : SortEnv Nat Bool) 4 4 0 7
      ⟨[0, 1, 2, 3, 4, 5, 6, 7], true, []⟩) = some ("returned", [0, 6, 3, 5, 1, 7, 2, 4], 17, 0) := by decide +kernel

/-- The third request for memory is refused: two pairs are in order. -/
example : sortShows (mgsortW (⟨fun a b p => (some ((a : Int) - b), p), fun _ n => n < 16⟩ : SortEnv Nat Unit) 4 3 0 3
      ⟨[3, 1, 2, 0], (), []⟩) = some ("panic", [1, 3, 0, 2], 2, 0) := by decide +kernel

/-- **C89, a limit.**  If the comparison function does not return but leaves by `longjmp`, then the temporary block is never
released. -/
theorem C89_leak : sortShows (mgsortW (⟨fun a b p => (if p = 2 then none else some ((a : Int) - b), p + 1), fun _ _ => true⟩ : SortEnv Nat Nat) 4 3 0 3
      ⟨[3, 1, 2, 0], 0, []⟩) = some ("left", [1, 3, 0, 2], 3, 16) := by decide +kernel

end Argtable
