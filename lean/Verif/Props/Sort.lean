import Verif.Proofs.Sort

/-!
# `arg_mgsort` (C42, C43)
-/

namespace Argtable

open Spec

variable {α : Type} {cmp : α → α → Int} {esize : Nat}

/-- A comparison under which different elements can be equal. -/
def byFirst (a b : Nat × Nat) : Int := (a.1 : Int) - b.1

example : Comparison byFirst where
  flip := by intro a b; simp only [byFirst]; omega
  trans := by intro a b c; simp only [byFirst]; omega

/-- **C42.** `arg_mgsort(data, size, esize, i, k, cmp)` terminates without touching memory outside the
array.  The elements at positions `i` to `k` become an ascending permutation of themselves; those
before and after stay as they are.  (The sum `2 * k - 1` of the last two positions and the byte offset
`(k + 1) * esize` have to fit an `int`.) -/
theorem C42_sorts (hc : Comparison cmp) (before range after : List α)
    (hsize : 2 * (before.length + range.length) ≤ 2 ^ 31 + 2)
    (hbytes : (before.length + range.length) * esize < 2 ^ 31) {depth : Nat} (hd : range.length < depth) :
    ∃ range', mgsort esize cmp depth (before ++ range ++ after) before.length
        (before.length + range.length - 1) = .ok (before ++ range' ++ after) ∧
      range'.Perm range ∧ Ascending cmp range' := by
  obtain ⟨m, h1, h2, h3, _⟩ := mgsort_ok (esize := esize) hc (by omega) depth before range after (by omega) (by omega) (by omega)
    (by have : ((before.length + range.length : Nat) : Int) * esize < 2 ^ 31 := by exact_mod_cast hbytes
        push_cast at this; omega)
  exact ⟨m, h1, h2, h3⟩

example : mgsort 8 byFirst 9 [(9, 0), (3, 1), (1, 2), (3, 3), (2, 4), (0, 5)] 1 4 =
    .ok [(9, 0), (1, 2), (2, 4), (3, 3), (3, 1), (0, 5)] := by decide +kernel

/-- **C42.** Sorting a whole array. -/
theorem C42_sorts_all (hc : Comparison cmp) (a : List α) (hsize : 2 * a.length ≤ 2 ^ 31 + 2)
    (hbytes : a.length * esize < 2 ^ 31) :
    ∃ a', mgsort esize cmp (a.length + 1) a 0 (a.length - 1) = .ok a' ∧ a'.Perm a ∧ Ascending cmp a' := by
  obtain ⟨m, h1, h2, h3⟩ := C42_sorts hc [] a [] (by simpa using hsize) (by simpa using hbytes) (depth := a.length + 1) (by omega)
  exact ⟨m, by simpa using h1, h2, h3⟩

/-- **C42.** These bounds are exact: an array of two or more elements is sorted if and only if they are met. -/
theorem C42_exact (hc : Comparison cmp) (a : List α) (h2 : 2 ≤ a.length) {depth : Nat} (hd : a.length < depth) :
    (∃ a', mgsort esize cmp depth a 0 (a.length - 1) = .ok a') ↔ 2 * a.length ≤ 2 ^ 31 + 2 ∧ a.length * esize < 2 ^ 31 := by
  constructor
  · rintro ⟨a', h⟩
    obtain ⟨h1, h3⟩ := mgsort_positions depth a a' 0 (a.length - 1) (by omega) (by omega) h
    have e : ((a.length : Int) - 1 - 0 + 1) * esize = ((a.length * esize : Nat) : Int) := by
      push_cast; congr 1; omega
    rw [e] at h3
    omega
  · rintro ⟨h1, h3⟩
    obtain ⟨m, h, -⟩ := C42_sorts hc [] a [] (by simpa using h1) (by simpa using h3) (depth := depth) hd
    exact ⟨m, by simpa using h⟩

example : ∃ a', mgsort 8 byFirst 4 [(3, 0), (1, 1), (2, 2)] 0 2 = .ok a' :=
  (C42_exact (cmp := byFirst) ⟨by intro a b; simp only [byFirst]; omega, by intro a b c; simp only [byFirst]; omega⟩
    [(3, 0), (1, 1), (2, 2)] (by decide) (by decide)).2 (by decide)

/-- **C42.** The bound on the positions is needed: when `i + k` does not fit an `int`, the call overflows
at once, whatever the array. -/
theorem C42_overflow (a : List α) {i k : Int} (hik : i < k) (h : 2 ^ 31 - 1 < i + k) (depth : Nat) :
    ∃ m, mgsort esize cmp (depth + 1) a i k = .error (.ub m) := by
  rw [mgsort, if_pos hik, if_pos (by omega)]
  exact ⟨_, rfl⟩

example : (1 : Int) < 2 ^ 31 - 1 ∧ (2 : Int) ^ 31 - 1 < 1 + (2 ^ 31 - 1) := by decide

/-- **C43.** Elements that compare equal come out in the reverse of the order they had. -/
theorem C43_reverses (hc : Comparison cmp) (a : List α) (hsize : 2 * a.length ≤ 2 ^ 31 + 2)
    (hbytes : a.length * esize < 2 ^ 31) :
    ∃ a', mgsort esize cmp (a.length + 1) a 0 (a.length - 1) = .ok a' ∧
      ∀ x, a'.filter (fun y => cmp x y = 0) = (a.filter (fun y => cmp x y = 0)).reverse := by
  obtain ⟨m, h1, _, _, h4⟩ := mgsort_ok (esize := esize) hc (by omega) (a.length + 1) [] a [] (by omega) (by omega)
    (by simp only [List.length_nil]; omega)
    (by have : ((a.length : Nat) : Int) * esize < 2 ^ 31 := by exact_mod_cast hbytes
        simp only [List.length_nil, Int.natCast_zero, Int.zero_add]; omega)
  exact ⟨m, by simpa using h1, h4⟩

/-- **C43.** So the sort is not stable: two equal elements are exchanged. -/
theorem C43_not_stable :
    ¬ ∀ (cmp : Nat × Nat → Nat × Nat → Int), Comparison cmp → ∀ a a',
      mgsort 8 cmp (a.length + 1) a 0 (a.length - 1) = .ok a' →
        ∀ x, a'.filter (fun y => cmp x y = 0) = a.filter (fun y => cmp x y = 0) := by
  intro h
  have := h byFirst ⟨by intro a b; simp only [byFirst]; omega, by intro a b c; simp only [byFirst]; omega⟩
    [(1, 0), (1, 1)] [(1, 1), (1, 0)] (by decide +kernel) (1, 0)
  exact absurd this (by decide +kernel)

end Argtable
