import Verif.Model.Layout
/-!
# Well-placed arrays
-/

namespace Argtable.Spec

/-- What every C implementation guarantees: the size of a type is a positive multiple of its alignment, and a struct is
aligned for each of its members.  (`struct arg_xxx` has members of type `int` and pointers; it is assumed that `struct
tm`, whose members are integers and possibly pointers, needs no stricter alignment than `struct arg_date`.) -/
structure AbiOK (a : Abi) : Prop where
  int : 0 < a.int ∧ a.alignInt ∣ a.int
  ptr : 0 < a.ptr ∧ a.alignPtr ∣ a.ptr
  dbl : 0 < a.dbl ∧ a.alignDbl ∣ a.dbl
  tm : 0 < a.tm ∧ a.alignTm ∣ a.tm
  argInt : a.alignInt ∣ a.argInt
  argStr : a.alignPtr ∣ a.argStr
  argFile : a.alignPtr ∣ a.argFile
  argDate : a.alignTm ∣ a.argDate
  argRex : a.alignPtr ∣ a.argRex
  privhdr : a.alignPtr ∣ a.privhdr
  argEnd : a.alignInt ∣ a.argEnd ∧ a.alignPtr ∣ a.argEnd

/-- `malloc` returns an address that is aligned for every type. -/
structure Suits (a : Abi) (p : Nat) : Prop where
  int : a.alignInt ∣ p
  ptr : a.alignPtr ∣ p
  dbl : a.alignDbl ∣ p
  tm : a.alignTm ∣ p

/-- The struct and the arrays lie in the block and do not overlap. -/
structure Inside (b : Block) : Prop where
  head : b.head ≤ b.size
  after : ∀ x ∈ b.arrays, b.addr + b.head ≤ x.addr
  before : ∀ x ∈ b.arrays, x.addr + x.len * x.elem ≤ b.addr + b.size
  disjoint : b.arrays.Pairwise fun x y => x.addr + x.len * x.elem ≤ y.addr ∨ y.addr + y.len * y.elem ≤ x.addr

/-- Each array is aligned for its elements. -/
def Aligned (b : Block) : Prop := ∀ x ∈ b.arrays, x.align ∣ x.addr

end Argtable.Spec
