import Verif.Spec.Layout
import Verif.Model.Objects
import Mathlib.Tactic.Linarith
import Mathlib.Tactic.Ring
/-!
# The arrays of an `arg_xxx` object (C62)
-/

namespace Argtable

open Spec

variable {a : Abi} {p : Nat} {n : Int}

theorem sizeT_eq {k : Int} (h0 : 0 ≤ k) (h1 : k < 2 ^ a.bits) : (a.sizeT k : Int) = k := by
  unfold Abi.sizeT
  rw [Int.emod_eq_of_lt h0 h1, Int.toNat_of_nonneg h0]

theorem sizeT_mul {k : Int} {s h : Nat} (h0 : 0 ≤ k) (hs : 0 < s) (h1 : h + k * s < 2 ^ a.bits) :
    (a.sizeT (h + a.sizeT (a.sizeT k * s)) : Int) = h + k * s := by
  have hs' : (1 : Int) ≤ s := by exact_mod_cast hs
  have h2 : k ≤ k * s := by nlinarith
  have h3 : (0 : Int) ≤ h := by positivity
  have h4 : 0 ≤ k * s := by positivity
  rw [sizeT_eq h0 (by linarith), sizeT_eq h4 (by linarith), sizeT_eq (by linarith) h1]

/-- C62 for `arg_lit` and `arg_rem`, which have no arrays. -/
theorem C62_plain : Inside (litBlock a p) ∧ Aligned (litBlock a p) ∧ Inside (remBlock a p) ∧ Aligned (remBlock a p) := by
  refine ⟨⟨Nat.le_refl _, ?_, ?_, .nil⟩, ?_, ⟨Nat.le_refl _, ?_, ?_, .nil⟩, ?_⟩ <;> (intro x hx; cases hx)

/-- C62 for `arg_int`: the array of values lies in the block, behind the struct, and is aligned. -/
theorem C62_int (ok : AbiOK a) (hp : Suits a p) (h0 : 0 ≤ n) (hfit : a.argInt + n * a.int < 2 ^ a.bits) :
    Inside (intBlock a p n) ∧ Aligned (intBlock a p n) := by
  have hs := sizeT_mul h0 ok.int.1 hfit
  lift n to Nat using h0
  have hs : a.sizeT (a.argInt + a.sizeT (a.sizeT n * a.int)) = a.argInt + n * a.int := by exact_mod_cast hs
  refine ⟨⟨?_, ?_, ?_, List.pairwise_singleton _ _⟩, ?_⟩
  · show a.argInt ≤ _; unfold intBlock; dsimp only; omega
  all_goals
    intro x hx
    simp only [intBlock, List.mem_singleton] at hx
    subst hx
    simp only [intBlock, Int.toNat_natCast]
  · omega
  · omega
  · exact (Nat.dvd_add hp.int ok.argInt)

/-- The block of `arg_strn`. -/
theorem C62_str (ok : AbiOK a) (hp : Suits a p) (h0 : 0 ≤ n) (hfit : a.argStr + n * a.ptr < 2 ^ a.bits) :
    Inside (strBlock a p n) ∧ Aligned (strBlock a p n) := by
  have hs := sizeT_mul h0 ok.ptr.1 hfit
  lift n to Nat using h0
  have hs : a.sizeT (a.argStr + a.sizeT (a.sizeT n * a.ptr)) = a.argStr + n * a.ptr := by exact_mod_cast hs
  refine ⟨⟨?_, ?_, ?_, List.pairwise_singleton _ _⟩, ?_⟩
  · show a.argStr ≤ _; unfold strBlock; dsimp only; omega
  all_goals
    intro x hx
    simp only [strBlock, List.mem_singleton] at hx
    subst hx
    simp only [strBlock, Int.toNat_natCast]
  · omega
  · omega
  · exact (Nat.dvd_add hp.ptr ok.argStr)

/-- The block of `arg_daten`. -/
theorem C62_date (ok : AbiOK a) (hp : Suits a p) (h0 : 0 ≤ n) (hfit : a.argDate + n * a.tm < 2 ^ a.bits) :
    Inside (dateBlock a p n) ∧ Aligned (dateBlock a p n) := by
  have hs := sizeT_mul h0 ok.tm.1 hfit
  lift n to Nat using h0
  have hs : a.sizeT (a.argDate + a.sizeT (a.sizeT n * a.tm)) = a.argDate + n * a.tm := by exact_mod_cast hs
  refine ⟨⟨?_, ?_, ?_, List.pairwise_singleton _ _⟩, ?_⟩
  · show a.argDate ≤ _; unfold dateBlock; dsimp only; omega
  all_goals
    intro x hx
    simp only [dateBlock, List.mem_singleton] at hx
    subst hx
    simp only [dateBlock, Int.toNat_natCast]
  · omega
  · omega
  · exact (Nat.dvd_add hp.tm ok.argDate)

/-- C62 for `arg_dbl`: the array starts at the next multiple of `sizeof(double)`, for which one element more is
allocated. -/
theorem C62_dbl (ok : AbiOK a) (h0 : 0 ≤ n) (hfit : a.argDbl + (n + 1) * a.dbl < 2 ^ a.bits) :
    Inside (dblBlock a p n) ∧ Aligned (dblBlock a p n) := by
  have hs := sizeT_mul (k := n + 1) (by omega) ok.dbl.1 hfit
  lift n to Nat using h0
  have hs : a.sizeT (a.argDbl + a.sizeT (a.sizeT (n + 1) * a.dbl)) = a.argDbl + (n + 1) * a.dbl := by exact_mod_cast hs
  have hm := Nat.mod_lt (p + a.argDbl) ok.dbl.1
  have hd := Nat.mod_add_div (p + a.argDbl) a.dbl
  have e : (n + 1) * a.dbl = n * a.dbl + a.dbl := by ring
  refine ⟨⟨?_, ?_, ?_, List.pairwise_singleton _ _⟩, ?_⟩
  · show a.argDbl ≤ _; unfold dblBlock; dsimp only; omega
  all_goals
    intro x hx
    simp only [dblBlock, List.mem_singleton] at hx
    subst hx
    simp only [dblBlock, Int.toNat_natCast]
  · omega
  · omega
  · refine ok.dbl.2.trans ?_
    refine ⟨(p + a.argDbl) / a.dbl + 1, ?_⟩
    rw [Nat.mul_add, Nat.mul_one]
    omega

/-- C62 for `arg_rex`: the private header and the array of strings. -/
theorem C62_rex (ok : AbiOK a) (hp : Suits a p) (h0 : 0 ≤ n) (hfit : a.argRex + a.privhdr + n * a.ptr < 2 ^ a.bits) :
    Inside (rexBlock a p n) ∧ Aligned (rexBlock a p n) := by
  have h1 : (0 : Int) ≤ n * a.ptr := by positivity
  have e : (a.sizeT (a.argRex + a.privhdr) : Int) = a.argRex + a.privhdr := sizeT_eq (by positivity) (by linarith)
  have hs := sizeT_mul (h := a.argRex + a.privhdr) h0 ok.ptr.1 (by push_cast; exact hfit)
  lift n to Nat using h0
  have e : a.sizeT (a.argRex + a.privhdr) = a.argRex + a.privhdr := by exact_mod_cast e
  have hs : a.sizeT (((a.argRex + a.privhdr : Nat) : Int) + a.sizeT (a.sizeT n * a.ptr)) = a.argRex + a.privhdr + n * a.ptr := by
    exact_mod_cast hs
  refine ⟨⟨?_, ?_, ?_, ?_⟩, ?_⟩
  · show a.argRex ≤ _; unfold rexBlock; dsimp only; rw [e]; omega
  · intro x hx
    simp only [rexBlock, List.mem_cons, List.not_mem_nil, or_false] at hx ⊢
    rcases hx with rfl | rfl <;> dsimp only <;> omega
  · intro x hx
    simp only [rexBlock, List.mem_cons, List.not_mem_nil, or_false] at hx ⊢
    rw [e, hs]
    rcases hx with rfl | rfl <;> simp only [Int.toNat_natCast] <;> omega
  · unfold rexBlock
    refine List.pairwise_pair.2 (Or.inl ?_)
    dsimp only; omega
  · intro x hx
    simp only [rexBlock, List.mem_cons, List.not_mem_nil, or_false] at hx
    rcases hx with rfl | rfl
    · exact Nat.dvd_add hp.ptr ok.argRex
    · exact Nat.dvd_add (Nat.dvd_add hp.ptr ok.argRex) ok.privhdr

/-- C62 for `arg_file`: three arrays of strings. -/
theorem C62_file (ok : AbiOK a) (hp : Suits a p) (h0 : 0 ≤ n) (hfit : a.argFile + 3 * (n * a.ptr) < 2 ^ a.bits) :
    Inside (fileBlock a p n) ∧ Aligned (fileBlock a p n) := by
  have h1 : (0 : Int) ≤ n * a.ptr := by positivity
  have hpt : (1 : Int) ≤ a.ptr := by exact_mod_cast ok.ptr.1
  have hle : n ≤ n * a.ptr := by nlinarith
  have hh : (0 : Int) ≤ a.argFile := by positivity
  have e0 : (a.sizeT (a.ptr * a.sizeT n) : Int) = n * a.ptr := by
    rw [sizeT_eq h0 (by linarith), mul_comm, sizeT_eq h1 (by linarith)]
  have hs : (a.sizeT (a.sizeT (a.sizeT (a.argFile + a.sizeT (a.ptr * a.sizeT n)) + a.sizeT (a.ptr * a.sizeT n))
      + a.sizeT (a.ptr * a.sizeT n)) : Int) = a.argFile + 3 * (n * a.ptr) := by
    rw [e0, sizeT_eq (k := a.argFile + n * a.ptr) (by linarith) (by linarith),
      sizeT_eq (k := a.argFile + n * a.ptr + n * a.ptr) (by linarith) (by linarith), sizeT_eq (by linarith) (by linarith)]
    ring
  lift n to Nat using h0
  have hs : a.sizeT (a.sizeT (a.sizeT (a.argFile + a.sizeT (a.ptr * a.sizeT n)) + a.sizeT (a.ptr * a.sizeT n))
      + a.sizeT (a.ptr * a.sizeT n)) = a.argFile + 3 * (n * a.ptr) := by exact_mod_cast hs
  have hd : a.alignPtr ∣ n * a.ptr := ok.ptr.2.mul_left n
  have h2 := Nat.dvd_add hp.ptr ok.argFile
  have h3 := Nat.dvd_add h2 hd
  refine ⟨⟨?_, ?_, ?_, ?_⟩, ?_⟩
  · show a.argFile ≤ _; unfold fileBlock; dsimp only; omega
  · intro x hx
    simp only [fileBlock, List.mem_cons, List.not_mem_nil, or_false] at hx ⊢
    rcases hx with rfl | rfl | rfl <;> dsimp only <;> omega
  · intro x hx
    simp only [fileBlock, List.mem_cons, List.not_mem_nil, or_false] at hx ⊢
    rw [hs]
    rcases hx with rfl | rfl | rfl <;> simp only [Int.toNat_natCast] <;> omega
  · simp only [fileBlock, List.pairwise_cons, List.mem_cons, List.not_mem_nil, or_false]
    refine ⟨?_, ?_, by simp⟩
    · rintro x (rfl | rfl) <;> dsimp only <;> omega
    · rintro x rfl; dsimp only; omega
  · intro x hx
    simp only [fileBlock, List.mem_cons, List.not_mem_nil, or_false, Int.toNat_natCast] at hx
    rcases hx with rfl | rfl | rfl
    · exact h2
    · exact h3
    · exact Nat.dvd_add h3 hd

/-- C62 for `arg_end`: the three arrays lie in the block and do not overlap. -/
theorem C62_end_partial (ok : AbiOK a) (h0 : 0 ≤ n) (hfit : a.argEnd + n * a.int + 2 * (n * a.ptr) < 2 ^ a.bits) :
    Inside (endBlock a p n) := by
  have h1 : (0 : Int) ≤ n * a.ptr := by positivity
  have h1' : (0 : Int) ≤ n * a.int := by positivity
  have hpt : (1 : Int) ≤ a.ptr := by exact_mod_cast ok.ptr.1
  have hle : n ≤ n * a.ptr := by nlinarith
  have hh : (0 : Int) ≤ a.argEnd := by positivity
  have e0 : (a.sizeT (a.sizeT n * a.ptr) : Int) = n * a.ptr := by
    rw [sizeT_eq h0 (by linarith), sizeT_eq h1 (by linarith)]
  have e1 : (a.sizeT (a.sizeT n * a.int) : Int) = n * a.int := by
    rw [sizeT_eq h0 (by linarith), sizeT_eq h1' (by linarith)]
  have hs : (a.sizeT (a.sizeT (a.sizeT (a.argEnd + a.sizeT (a.sizeT n * a.int)) + a.sizeT (a.sizeT n * a.ptr))
      + a.sizeT (a.sizeT n * a.ptr)) : Int) = a.argEnd + n * a.int + 2 * (n * a.ptr) := by
    rw [e0, e1, sizeT_eq (k := a.argEnd + n * a.int) (by linarith) (by linarith),
      sizeT_eq (k := a.argEnd + n * a.int + n * a.ptr) (by linarith) (by linarith), sizeT_eq (by linarith) (by linarith)]
    ring
  lift n to Nat using h0
  have hs : a.sizeT (a.sizeT (a.sizeT (a.argEnd + a.sizeT (a.sizeT n * a.int)) + a.sizeT (a.sizeT n * a.ptr))
      + a.sizeT (a.sizeT n * a.ptr)) = a.argEnd + n * a.int + 2 * (n * a.ptr) := by exact_mod_cast hs
  refine ⟨?_, ?_, ?_, ?_⟩
  · show a.argEnd ≤ _; unfold endBlock; dsimp only; omega
  · intro x hx
    simp only [endBlock, List.mem_cons, List.not_mem_nil, or_false] at hx ⊢
    rcases hx with rfl | rfl | rfl <;> dsimp only <;> omega
  · intro x hx
    simp only [endBlock, List.mem_cons, List.not_mem_nil, or_false] at hx ⊢
    rw [hs]
    rcases hx with rfl | rfl | rfl <;> simp only [Int.toNat_natCast] <;> omega
  · simp only [endBlock, List.pairwise_cons, List.mem_cons, List.not_mem_nil, or_false]
    refine ⟨?_, ?_, by simp⟩
    · rintro x (rfl | rfl) <;> dsimp only <;> omega
    · rintro x rfl; dsimp only; omega

/-- But the arrays of `arg_end` are aligned only if the array of `int`s happens to end at a multiple of the alignment of
pointers. -/
theorem C62_end_aligned (ok : AbiOK a) (hp : Suits a p) (h0 : 0 ≤ n) :
    Aligned (endBlock a p n) ↔ (a.alignPtr : Int) ∣ n * a.int := by
  lift n to Nat using h0
  have h2 := Nat.dvd_add hp.ptr ok.argEnd.2
  have hd : a.alignPtr ∣ n * a.ptr := ok.ptr.2.mul_left n
  have cast : ((a.alignPtr : Int) ∣ n * a.int) ↔ a.alignPtr ∣ n * a.int := by
    rw [← Int.natCast_dvd_natCast]; push_cast; rfl
  rw [cast]
  constructor
  · intro h
    have := h ⟨p + a.argEnd + n * a.int, a.ptr, a.alignPtr, n⟩ (by simp [endBlock])
    exact (Nat.dvd_add_right h2).1 this
  · intro h x hx
    simp only [endBlock, List.mem_cons, List.not_mem_nil, or_false, Int.toNat_natCast] at hx
    rcases hx with rfl | rfl | rfl
    · exact Nat.dvd_add hp.int ok.argEnd.1
    · exact Nat.dvd_add h2 h
    · exact Nat.dvd_add (Nat.dvd_add h2 h) hd

/-- With a negative `maxcount` the block is smaller than the struct (unless the size wraps around to one that cannot be
allocated). -/
theorem C62_negative (ok : AbiOK a) (hn : n < 0) (hfit : a.argInt < 2 ^ a.bits) (hk : -n * a.int ≤ a.argInt) :
    ¬ Inside (intBlock a p n) := by
  intro h
  have h1 : a.argInt ≤ (intBlock a p n).size := h.head
  have hi : (1 : Int) ≤ a.int := by exact_mod_cast ok.int.1
  have e : ((intBlock a p n).size : Int) = a.argInt + n * a.int := by
    have hfit' : (a.argInt : Int) < 2 ^ a.bits := by exact_mod_cast hfit
    have hlt : n * a.int < 0 := by nlinarith
    have key : ((intBlock a p n).size : Int) = (a.argInt + n * a.int) % 2 ^ a.bits := by
      have hpos : (2 : Int) ^ a.bits ≠ 0 := by positivity
      simp only [intBlock, Abi.sizeT]
      rw [Int.toNat_of_nonneg (Int.emod_nonneg _ hpos), Int.toNat_of_nonneg (Int.emod_nonneg _ hpos),
        Int.toNat_of_nonneg (Int.emod_nonneg _ hpos), Int.add_emod, Int.emod_emod, Int.mul_emod, Int.emod_emod, ← Int.mul_emod,
        ← Int.add_emod]
    rw [key, Int.emod_eq_of_lt (by linarith) (by linarith)]
  have hlt : n * a.int < 0 := by nlinarith
  have : (a.argInt : Int) ≤ (intBlock a p n).size := by exact_mod_cast h1
  linarith

/-! ## Linux on x86-64 -/

namespace Demo

/-- The sizes on Linux, x86-64. -/
def lp64 : Abi :=
  { bits := 64, int := 4, ptr := 8, dbl := 8, tm := 56, alignInt := 4, alignPtr := 8, alignDbl := 8, alignTm := 8,
    argLit := 104, argInt := 112, argDbl := 112, argStr := 112, argFile := 128, argDate := 120, argRex := 112,
    privhdr := 16, argRem := 96, argEnd := 128 }

theorem lp64_ok : AbiOK lp64 := by
  constructor <;> decide

end Demo

example : Inside (dblBlock Demo.lp64 4096 5) ∧ Aligned (dblBlock Demo.lp64 4096 5) ∧
    (dblBlock Demo.lp64 4096 5).arrays.map (·.addr) = [4096 + 112 + 8] :=
  ⟨(C62_dbl Demo.lp64_ok (by decide) (by decide)).1, (C62_dbl Demo.lp64_ok (by decide) (by decide)).2, by decide⟩

example : Inside (fileBlock Demo.lp64 4096 3) ∧ Aligned (fileBlock Demo.lp64 4096 3) :=
  C62_file Demo.lp64_ok ⟨by decide, by decide, by decide, by decide⟩ (by decide) (by decide)

/-- On Linux, x86-64, `arg_end(maxcount)` makes a misaligned array of pointers for every odd `maxcount`. -/
theorem C62_end_odd (hp : Suits Demo.lp64 p) (h0 : 0 ≤ n) : Aligned (endBlock Demo.lp64 p n) ↔ n % 2 = 0 := by
  rw [C62_end_aligned Demo.lp64_ok hp h0]
  show (8 : Int) ∣ n * 4 ↔ _
  omega

example : ¬ Aligned (endBlock Demo.lp64 4096 5) := by
  rw [C62_end_odd ⟨by decide, by decide, by decide, by decide⟩ (by decide)]
  decide

example : ¬ Inside (intBlock Demo.lp64 4096 (-1)) :=
  C62_negative Demo.lp64_ok (by decide) (by decide) (by decide)

end Argtable
