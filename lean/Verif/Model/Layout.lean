import Verif.Base
/-!
# The memory block of an `arg_xxx` object

Each constructor makes one allocation and puts its arrays behind the struct.  This file has the sizes and addresses that
the constructors compute, with `size_t` arithmetic; `Model/Objects.lean` has the contents.
-/

namespace Argtable

/-- The sizes and alignments that the C implementation chooses (`bits` is the width of `size_t`).  The members `argLit` …
`argEnd` are `sizeof(struct arg_lit)` … -/
structure Abi where
  bits : Nat
  int : Nat
  ptr : Nat
  dbl : Nat
  tm : Nat
  alignInt : Nat
  alignPtr : Nat
  alignDbl : Nat
  alignTm : Nat
  argLit : Nat
  argInt : Nat
  argDbl : Nat
  argStr : Nat
  argFile : Nat
  argDate : Nat
  argRex : Nat
  privhdr : Nat
  argRem : Nat
  argEnd : Nat

/-- The conversion `(size_t)n`, and the reduction of a sum or product of type `size_t`.
(as in arg_int.c:262-263 and the other constructors.) -/
def Abi.sizeT (a : Abi) (n : Int) : Nat := (n % 2 ^ a.bits).toNat

/-- An array of `len` elements at the address `addr`.
(`ival`, `sval` and the other arrays that the constructors place behind the struct, e.g. arg_int.c:262-287.) -/
structure Arr where
  addr : Nat
  elem : Nat
  align : Nat
  len : Nat

/-- An allocated block of `size` bytes with a struct of `head` bytes at its start and arrays behind it.
(e.g. arg_int.c:262-287.) -/
structure Block where
  addr : Nat
  size : Nat
  head : Nat
  arrays : List Arr

/-- `arg_litn`, arg_lit.c:98. -/
def litBlock (a : Abi) (p : Nat) : Block := ⟨p, a.argLit, a.argLit, []⟩

/-- `arg_rem`, arg_rem.c:42. -/
def remBlock (a : Abi) (p : Nat) : Block := ⟨p, a.argRem, a.argRem, []⟩

/-- `arg_intn`, arg_int.c:264-267 and 284, with the adjusted `maxcount`.  Here and below the length of an array is the
number of cells that the scan functions may use, `maxcount`. -/
def intBlock (a : Abi) (p : Nat) (maxcount : Int) : Block :=
  ⟨p, a.sizeT (a.argInt + a.sizeT (a.sizeT maxcount * a.int)), a.argInt,
   [⟨p + a.argInt, a.int, a.alignInt, maxcount.toNat⟩]⟩

/-- `arg_dbln`, arg_dbl.c:124-129 and 150-152. -/
def dblBlock (a : Abi) (p : Nat) (maxcount : Int) : Block :=
  let addr := p + a.argDbl
  let rem := addr % a.dbl
  ⟨p, a.sizeT (a.argDbl + a.sizeT (a.sizeT (maxcount + 1) * a.dbl)), a.argDbl,
   [⟨addr + a.dbl - rem, a.dbl, a.alignDbl, maxcount.toNat⟩]⟩

/-- `arg_strn`, arg_str.c:114-119 and 136. -/
def strBlock (a : Abi) (p : Nat) (maxcount : Int) : Block :=
  ⟨p, a.sizeT (a.argStr + a.sizeT (a.sizeT maxcount * a.ptr)), a.argStr,
   [⟨p + a.argStr, a.ptr, a.alignPtr, maxcount.toNat⟩]⟩

/-- `arg_filen`, arg_file.c:170-177 and 193-195. -/
def fileBlock (a : Abi) (p : Nat) (maxcount : Int) : Block :=
  let filename := p + a.argFile
  let basename := filename + maxcount.toNat * a.ptr
  let extension := basename + maxcount.toNat * a.ptr
  ⟨p, a.sizeT (a.sizeT (a.sizeT (a.argFile + a.sizeT (a.ptr * a.sizeT maxcount)) + a.sizeT (a.ptr * a.sizeT maxcount))
      + a.sizeT (a.ptr * a.sizeT maxcount)), a.argFile,
   [⟨filename, a.ptr, a.alignPtr, maxcount.toNat⟩, ⟨basename, a.ptr, a.alignPtr, maxcount.toNat⟩,
    ⟨extension, a.ptr, a.alignPtr, maxcount.toNat⟩]⟩

/-- `arg_daten`, arg_date.c:133-138 and 155. -/
def dateBlock (a : Abi) (p : Nat) (maxcount : Int) : Block :=
  ⟨p, a.sizeT (a.argDate + a.sizeT (a.sizeT maxcount * a.tm)), a.argDate,
   [⟨p + a.argDate, a.tm, a.alignTm, maxcount.toNat⟩]⟩

/-- `arg_rexn`, arg_rex.c:243-248 and 262-269; the first array is the private header (one element). -/
def rexBlock (a : Abi) (p : Nat) (maxcount : Int) : Block :=
  let priv := p + a.argRex
  ⟨p, a.sizeT (a.sizeT (a.argRex + a.privhdr) + a.sizeT (a.sizeT maxcount * a.ptr)), a.argRex,
   [⟨priv, a.privhdr, a.alignPtr, 1⟩, ⟨priv + a.privhdr, a.ptr, a.alignPtr, maxcount.toNat⟩]⟩

/-- `arg_end`, arg_end.c:82-86 and 102-109. -/
def endBlock (a : Abi) (p : Nat) (maxcount : Int) : Block :=
  let error := p + a.argEnd
  let parent := error + maxcount.toNat * a.int
  let argval := parent + maxcount.toNat * a.ptr
  ⟨p, a.sizeT (a.sizeT (a.sizeT (a.argEnd + a.sizeT (a.sizeT maxcount * a.int)) + a.sizeT (a.sizeT maxcount * a.ptr))
      + a.sizeT (a.sizeT maxcount * a.ptr)), a.argEnd,
   [⟨error, a.int, a.alignInt, maxcount.toNat⟩, ⟨parent, a.ptr, a.alignPtr, maxcount.toNat⟩,
    ⟨argval, a.ptr, a.alignPtr, maxcount.toNat⟩]⟩

end Argtable
