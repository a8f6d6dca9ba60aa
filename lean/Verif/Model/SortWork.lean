import Verif.Model.Sort

/-!
# `arg_mgsort` with any comparison function (src/arg_utils.c:82-90, 109-178)

`Model/Sort.lean` has a comparison function that is a function of its two arguments.  A program may pass any function: one
that reads and changes the state of the program, contradicts itself, or does not return (it may leave by `longjmp`).  Here is
the sort once more with such a function, with the temporary block, which may be refused, and with a list of what happened.
-/

namespace Argtable

variable {α σ : Type}

/-- What a sort does that can be seen from outside: it calls the comparison function, and allocates and releases memory.
(arg_utils.c:113-178.) -/
inductive SortEv (α : Type) where
  /-- `comparefn(&a[ipos * esize], &a[jpos * esize])`, arg_utils.c:147 -/
  | compare (x y : α)
  /-- `xmalloc` of so many bytes, arg_utils.c:124 -/
  | malloc (bytes : Int)
  /-- `xfree` of a block of so many bytes, arg_utils.c:162 -/
  | free (bytes : Int)

/-- The surroundings of a sort.  `compare` is the comparison function: it gets two elements and the state of the program, and
changes this state; `none` means that it does not return.  `malloc` says whether a request for memory is granted.
(the parameter `comparefn` and `xmalloc`, arg_utils.c:113-178.) -/
structure SortEnv (α σ : Type) where
  compare : α → α → σ → Option Int × σ
  malloc : σ → Int → Bool

/-- The array, the state of the rest of the program, and what has happened.  (arg_utils.c:113-178.) -/
structure SortSt (α σ : Type) where
  arr : List α
  prog : σ
  log : List (SortEv α)

/-- How a sort ends that does not return: by a fault, in the panic function, or in the comparison function.
(arg_utils.c:113-178.) -/
inductive SortStop (α σ : Type) where
  | fault (f : Fault)
  | panic (s : SortSt α σ)
  | left (s : SortSt α σ)

/-- The result of a part of a sort, arg_utils.c:113-178. -/
abbrev SortM (α σ : Type) := Except (SortStop α σ)

/-- An operation of `Model/Sort.lean`.  (arg_utils.c:113-163.) -/
def sortLift {β : Type} : M β → SortM α σ β
  | .ok b => .ok b
  | .error f => .error (.fault f)

/-- A call of the comparison function, arg_utils.c:147. -/
def callCompare (env : SortEnv α σ) (x y : α) (s : SortSt α σ) : SortM α σ (Int × SortSt α σ) :=
  match env.compare x y s.prog with
  | (some r, p) => .ok (r, { s with prog := p, log := s.log ++ [.compare x y] })
  | (none, p) => .error (.left { s with prog := p, log := s.log ++ [.compare x y] })

/-- The loop of `merge` (arg_utils.c:127-158), unrolled as in `mergeLoop`. -/
def mergeLoopW (env : SortEnv α σ) (esize i j k : Int) :
    Nat → Int → Int → List α → SortSt α σ → SortM α σ (List α × SortSt α σ)
  | 0, _, _, _, _ => .error (.fault .fuel)
  | fuel + 1, ipos, jpos, m, s =>
    if ipos ≤ j ∨ jpos ≤ k then
      if ipos > j then do
        let y ← sortLift (elemGet esize s.arr jpos)
        let m ← sortLift (tempPut esize (k - i + 1) m y)
        mergeLoopW env esize i j k fuel ipos (jpos + 1) m s
      else if jpos > k then do
        let x ← sortLift (elemGet esize s.arr ipos)
        let m ← sortLift (tempPut esize (k - i + 1) m x)
        mergeLoopW env esize i j k fuel (ipos + 1) jpos m s
      else do
        let x ← sortLift (elemGet esize s.arr ipos)
        let y ← sortLift (elemGet esize s.arr jpos)
        let rs ← callCompare env x y s
        if rs.1 < 0 then do
          let m ← sortLift (tempPut esize (k - i + 1) m x)
          mergeLoopW env esize i j k fuel (ipos + 1) jpos m rs.2
        else do
          let m ← sortLift (tempPut esize (k - i + 1) m y)
          mergeLoopW env esize i j k fuel ipos (jpos + 1) m rs.2
    else .ok (m, s)

/-- `m = (char*)xmalloc((size_t)(esize * ((k - i) + 1)))` (arg_utils.c:124) and `xmalloc` (82-90), for a panic function that
does not return. -/
def sortMalloc (env : SortEnv α σ) (bytes : Int) (s : SortSt α σ) : SortM α σ (SortSt α σ) :=
  if env.malloc s.prog bytes then .ok { s with log := s.log ++ [.malloc bytes] } else .error (.panic s)

/-- `merge` (arg_utils.c:113-163). -/
def mergeRunsW (env : SortEnv α σ) (esize i j k : Int) (s : SortSt α σ) : SortM α σ (SortSt α σ) := do
  sortLift (byteOff esize (k - i + 1))
  let s ← sortMalloc env ((k - i + 1) * esize) s
  let ms ← mergeLoopW env esize i j k ((k - i + 1).toNat + 1) i (j + 1) [] s
  let a ← sortLift (copyBack esize ms.2.arr i k ms.1)
  .ok { ms.2 with arr := a, log := ms.2.log ++ [.free ((k - i + 1) * esize)] }

/-- `arg_mgsort` (arg_utils.c:165-178).  The number bounds the depth of the recursion. -/
def mgsortW (env : SortEnv α σ) (esize : Int) : Nat → Int → Int → SortSt α σ → SortM α σ (SortSt α σ)
  | 0, _, _, _ => .error (.fault .fuel)
  | depth + 1, i, k, s =>
    if i < k then
      if i + k > 2147483647 then .error (.fault (.ub "signed overflow in the midpoint"))
      else do
        let j := (i + k - 1).tdiv 2
        let s ← mgsortW env esize depth i j s
        let s ← mgsortW env esize depth (j + 1) k s
        mergeRunsW env esize i j k s
    else .ok s

end Argtable
