import Verif.Base

/-!
# Model of `arg_mgsort` (src/arg_utils.c:113-178)

The array is modelled by its elements; reading or writing outside the array or the temporary block is a
fault, and so is `int` overflow in the midpoint (`i + k - 1`), the byte offsets and the size of the block.
-/

namespace Argtable

variable {α : Type}

/-- The byte offset `n * esize`, an `int`.  (arg_utils.c:113-163.) -/
def byteOff (esize n : Int) : M Unit :=
  if -2147483648 ≤ n * esize ∧ n * esize ≤ 2147483647 then pure () else throw (.ub "signed overflow in a byte offset")

/-- Reading the element at `&a[i * esize]`.  (arg_utils.c:113-163.) -/
def elemGet (esize : Int) (a : List α) (i : Int) : M α := do
  byteOff esize i
  if i < 0 then throw (.ub "array read before its start")
  else match a[i.toNat]? with
    | some x => pure x
    | none => throw (.ub "array read past its end")

/-- Appending an element to the temporary block of `cap` elements: `memcpy(&m[mpos * esize], …)` with
`mpos` the number of elements written so far.  (arg_utils.c:113-163.) -/
def tempPut (esize cap : Int) (m : List α) (x : α) : M (List α) := do
  byteOff esize m.length
  if (m.length : Int) < cap then pure (m ++ [x]) else throw (.ub "temporary block overrun")

/-- The loop of `merge` (arg_utils.c:127-158).  Simplification: the two inner loops that copy the rest
of one division (130-134, 139-143) are unrolled into the outer one, whose tests stay the same. -/
def mergeLoop (esize : Int) (a : List α) (i j k : Int) (comparefn : α → α → Int) :
    Nat → Int → Int → List α → M (List α)
  | 0, _, _, _ => throw .fuel
  | fuel + 1, ipos, jpos, m =>
    if ipos ≤ j ∨ jpos ≤ k then
      if ipos > j then do
        let m ← tempPut esize (k - i + 1) m (← elemGet esize a jpos)
        mergeLoop esize a i j k comparefn fuel ipos (jpos + 1) m
      else if jpos > k then do
        let m ← tempPut esize (k - i + 1) m (← elemGet esize a ipos)
        mergeLoop esize a i j k comparefn fuel (ipos + 1) jpos m
      else do
        let x ← elemGet esize a ipos
        let y ← elemGet esize a jpos
        if comparefn x y < 0 then do
          let m ← tempPut esize (k - i + 1) m x
          mergeLoop esize a i j k comparefn fuel (ipos + 1) jpos m
        else do
          let m ← tempPut esize (k - i + 1) m y
          mergeLoop esize a i j k comparefn fuel ipos (jpos + 1) m
    else pure m

/-- `memcpy(&a[i * esize], m, esize * ((k - i) + 1))` (arg_utils.c:161). -/
def copyBack (esize : Int) (a : List α) (i k : Int) (m : List α) : M (List α) := do
  byteOff esize i
  byteOff esize (k - i + 1)
  if (m.length : Int) ≠ k - i + 1 then throw (.ub "uninitialised elements copied back")
  else if i < 0 ∨ k ≥ a.length then throw (.ub "array written out of bounds")
  else pure (a.take i.toNat ++ m ++ a.drop (i.toNat + m.length))

/-- `merge` (arg_utils.c:113-163). -/
def mergeRuns (esize : Int) (a : List α) (i j k : Int) (comparefn : α → α → Int) : M (List α) := do
  byteOff esize (k - i + 1)
  let m ← mergeLoop esize a i j k comparefn ((k - i + 1).toNat + 1) i (j + 1) []
  copyBack esize a i k m

/-- `arg_mgsort` (arg_utils.c:165-178).  The first argument bounds the depth of the recursion. -/
def mgsort (esize : Int) (comparefn : α → α → Int) : Nat → List α → Int → Int → M (List α)
  | 0, _, _, _ => throw .fuel
  | depth + 1, a, i, k =>
    if i < k then
      if i + k > 2147483647 then throw (.ub "signed overflow in the midpoint")
      else do
        let j := (i + k - 1).tdiv 2
        let a ← mgsort esize comparefn depth a i j
        let a ← mgsort esize comparefn depth a (j + 1) k
        mergeRuns esize a i j k comparefn
    else pure a

end Argtable
