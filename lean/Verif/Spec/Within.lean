import Verif.Model.ParsePtr
import Verif.Spec.Getopt
/-!
# Pointers into the arguments

`strAt m p`: the string that `p` points to, in the memory `m`.

`Within m argv p`: `p` points into one of the strings of the argument vector `argv`, at or behind the place the vector
points to, and not behind its terminating NUL.
-/

namespace Argtable.Spec

/-- The string at `p`. -/
def strAt (m : Strs) (p : CPtr) : CStr := (m.getD p.str []).drop p.off

/-- `p` points into a string, or to its terminating NUL. -/
def Valid (m : Strs) (p : CPtr) : Prop := ∃ s, m[p.str]? = some s ∧ p.off ≤ s.length

/-- `p` points into one of the strings of `argv`, not before the place `argv` points to. -/
def Within (m : Strs) (argv : List CPtr) (p : CPtr) : Prop :=
  Valid m p ∧ ∃ a ∈ argv, p.str = a.str ∧ a.off ≤ p.off

/-- `m` consists of C strings, `emsg` is the address of an empty one, and the elements of `argv` point to strings. -/
structure Strings (m : Strs) (emsg : CPtr) (argv : List CPtr) : Prop where
  noNul : ∀ s ∈ m, '\x00' ∉ s
  emsg : Valid m emsg ∧ strAt m emsg = []
  argv : ∀ p ∈ argv, Valid m p

/-- The variables of the scanner with strings instead of pointers. -/
def asText (m : Strs) (s : PtrState) : GState :=
  { optind := s.optind, opterr := s.opterr, optopt := s.optopt, optreset := s.optreset,
    optarg := s.optarg.map (strAt m), place := strAt m s.place, nonoptStart := s.nonoptStart,
    nonoptEnd := s.nonoptEnd, posixly := s.posixly, getoptval := s.getoptval, nargv := s.nargv.map (strAt m),
    stderr := s.stderr }

/-! ## Programs that use the getopt functions -/

/-- The call, with pointers. -/
def Getopt.Fn.callPtr (m : Strs) (emsg : CPtr) (fn : Getopt.Fn) (posixEnv : Bool) (nargc : Nat) (optstring : CStr)
    (s : PtrState) : M (Int × PtrState) :=
  match fn with
  | .getopt => getoptPtr m emsg posixEnv nargc optstring s
  | .getoptLong longs => getoptLongPtr m emsg posixEnv nargc optstring longs s
  | .getoptLongOnly longs => getoptLongOnlyPtr m emsg posixEnv nargc optstring longs s

/-- What a program does: call one of the functions; or start again, at any index. -/
inductive GetoptOp where
  | call (fn : Getopt.Fn) (posixEnv : Bool) (optstring : CStr)
  | restart (optind : Nat)

/-- The program: for each call the number returned and `optarg`. -/
def callsPtr (m : Strs) (emsg : CPtr) (nargc : Nat) : List GetoptOp → PtrState → M (List (Int × Option CPtr) × PtrState)
  | [], s => .ok ([], s)
  | .call fn env opts :: ops, s => do
    let (c, s) ← fn.callPtr m emsg env nargc opts s
    let (l, s') ← callsPtr m emsg nargc ops s
    .ok ((c, s.optarg) :: l, s')
  | .restart i :: ops, s => callsPtr m emsg nargc ops { s with optreset := true, optind := i }

/-- The same with strings. -/
def callsText (nargc : Nat) : List GetoptOp → GState → M (List (Int × Option CStr) × GState)
  | [], g => .ok ([], g)
  | .call fn env opts :: ops, g => do
    let (c, g) ← fn.call env nargc opts g
    let (l, g') ← callsText nargc ops g
    .ok ((c, g.optarg) :: l, g')
  | .restart i :: ops, g => callsText nargc ops { g with optreset := true, optind := i }

/-! ## Objects that keep pointers -/

variable {δ : Type}

/-- The cells `ps` hold pointers to the strings `vs`, as far as they point to strings at all. -/
def CellsShow (m : Strs) (ps : List CPtr) (vs : List CStr) : Prop :=
  ps.length = vs.length ∧ ∀ (i : Nat) p v, ps[i]? = some p → vs[i]? = some v → Valid m p → strAt m p = v

/-- The object with pointers `p` is the object with strings `o`. -/
inductive PtrShows (m : Strs) : PObj δ → Obj δ → Prop
  | plain (o : Obj δ) : PtrShows m (.plain o) o
  | str (p : PStrObj) (o : StrObj) : p.count = o.count → CellsShow m p.sval o.sval → PtrShows m (.str p) (.str o)
  | rex (p : PStrObj) (o : StrObj) : p.count = o.count → CellsShow m p.sval o.sval → PtrShows m (.rex p) (.rex o)
  | file (p : PFileObj) (o : FileObj) : p.count = o.count → CellsShow m p.filename o.filename →
      CellsShow m p.basename o.basename → CellsShow m p.extension o.extension → PtrShows m (.file p) (.file o)

/-- The objects that keep a pointer to an argument. -/
def keeps : Obj δ → Bool
  | .str _ => true
  | .file _ => true
  | .rex _ => true
  | _ => false

/-- An entry that keeps no pointer to an argument. -/
structure KeepsNone (h : Hdr (Obj δ)) : Prop where
  parent : keeps h.parent = false
  scan : ∀ f o a o' e, h.scanfn = some f → keeps o = false → f o a = .ok (o', e) → keeps o' = false
  reset : ∀ f o o', h.resetfn = some f → keeps o = false → f o = .ok o' → keeps o' = false

/-- `h'` and `f` are the header and scan function with pointers that belong to the header `h` with strings, made by a
public constructor. -/
inductive PtrEntry (m : Strs) (emsg : CPtr) : Hdr (Obj δ) → Hdr (PObj δ) → Option (ScanPtr (PObj δ)) → Prop
  | str {so lo dt : Option CStr} {mn mx : Int} {gl : Option CStr} {h : Hdr (Obj δ)} {ov : Bool} {p : PStrObj}
      {o : StrObj} : argStrn so lo dt mn mx gl = .ok h → PtrShows (δ := δ) m (.str p) (.str o) →
      PtrEntry m emsg { h with hasOptValue := ov, parent := .str o } (strHdrPtr emsg { h with hasOptValue := ov } p)
        (some (strFnPtr h.maxcount))
  | file {so lo dt : Option CStr} {mn mx : Int} {gl : Option CStr} {h : Hdr (Obj δ)} {ov : Bool} {p : PFileObj}
      {o : FileObj} : argFilen so lo dt mn mx gl = .ok h → PtrShows (δ := δ) m (.file p) (.file o) →
      PtrEntry m emsg { h with hasOptValue := ov, parent := .file o } (fileHdrPtr { h with hasOptValue := ov } p)
        (some (fileFnPtr m h.maxcount))
  | rex {so lo : Option CStr} {pat : CStr} {dt : Option CStr} {mn mx : Int} {ic : Bool} {gl : Option CStr}
      {h : Hdr (Obj δ)} {ov : Bool} {p : PStrObj} {o : StrObj} : argRexn so lo pat dt mn mx ic gl = .ok h →
      PtrShows (δ := δ) m (.rex p) (.rex o) →
      PtrEntry m emsg { h with hasOptValue := ov, parent := .rex o } (rexHdrPtr { h with hasOptValue := ov } p)
        (some (rexFnPtr m pat ic h.maxcount))
  | plain {h : Hdr (Obj δ)} : KeepsNone h → PtrEntry m emsg h (plainHdrPtr h) (h.scanfn.map (plainScanPtr m))

/-- The arrays of pointers in an object. -/
def arrays : PObj δ → List (List CPtr)
  | .plain _ => []
  | .str o => [o.sval]
  | .file o => [o.filename, o.basename, o.extension]
  | .rex o => [o.sval]

/-- Cell `k` of array `j`. -/
def cellOf (p : PObj δ) (j k : Nat) : Option CPtr := (arrays p)[j]?.bind (·[k]?)

/-- Every pointer in `new` was in the same cell of `old`, or is `emsg`, or points into the arguments. -/
def Points (m : Strs) (emsg : CPtr) (argv : List CPtr) (old new : PObj δ) : Prop :=
  ∀ j k p, cellOf new j k = some p → cellOf old j k = some p ∨ p = emsg ∨ Within m argv p

/-- The table with pointers `es'`, `fns` belongs to the table with strings `es`. -/
def PtrTable (m : Strs) (emsg : CPtr) (fns : List (Option (ScanPtr (PObj δ)))) (es' : List (Hdr (PObj δ)))
    (es : List (Hdr (Obj δ))) : Prop :=
  es'.length = fns.length ∧ es'.length = es.length ∧
    ∀ (i : Nat) h' h, es'[i]? = some h' → es[i]? = some h → PtrEntry m emsg h h' fns[i]?.join

/-- The recorded errors are the same; those that have an argument point to it, inside the argument vector. -/
structure ErrorsShow (m : Strs) (argv : List CPtr) (e' : PEnd) (e : EndTbl) : Prop where
  max : e'.maxcount = e.maxcount
  len : e'.slots.length = e.slots.length
  count : e'.count = e.count
  each : ∀ k, k < e.count → ∃ r' r, e'.slots[k]? = some r' ∧ e.slots[k]? = some r ∧ r'.error = r.error ∧
    r'.parent = r.parent ∧ r.argval = r'.argval.map (strAt m) ∧ ∀ p, r'.argval = some p → Within m argv p

end Argtable.Spec
