import Verif.Spec.Spelling
import Verif.Spec.Reorder
import Verif.Spec.Entered
/-!
# Writing a command line

What a program can say to an entry (`CanSay`), and how a program that starts another one can write it down safely, whatever
the values are: each option with its first letter (or else its first long name), a required value in an argument of its
own, and the operands after `--`.
-/

namespace Argtable.Spec

/-- The options can be told from each other: no two entries share a name, `-` is not an option letter, long names are not
empty and contain no `=` (and the names are C strings). -/
structure Clear (ds : List Decl) : Prop where
  apart : ds.Pairwise Apart
  letters : ∀ d ∈ ds, '-' ∉ d.short.getD [] ∧ '\x00' ∉ d.short.getD []
  names : ∀ d ∈ ds, ∀ n ∈ d.names, n ≠ [] ∧ '=' ∉ n ∧ '\x00' ∉ n

/-- The entry has an option by which it can be given the value `v` (`none`: no value). -/
def CanSay (d : Decl) : Option CStr → Prop
  | none => (d.short.getD [] ≠ [] ∧ d.shortKind ≠ .req) ∨ (d.names ≠ [] ∧ d.longKind ≠ .req)
  | some v => (d.short.getD [] ≠ [] ∧ d.shortKind = .req) ∨ (d.short.getD [] ≠ [] ∧ d.shortKind = .opt ∧ v ≠ []) ∨
      (d.names ≠ [] ∧ d.longKind ≠ .no ∧ (v = [] → d.hasValue = false))

/-- Each entry can be told what it is told. -/
def AllSaid (ds : List Decl) (gs : List (Nat × Option CStr)) : Prop :=
  ∀ g ∈ gs, ∃ d, ds[g.1]? = some d ∧ CanSay d g.2

/-- All values are C strings. -/
def CValues (gs : List (Nat × Option CStr)) : Prop := ∀ i v, (i, some v) ∈ gs → '\x00' ∉ v

/-- The argument or arguments that say it: `-c`, `-c` and the value, `-cvalue`, `--name` or `--name=value`. -/
def spell (d : Decl) (v : Option CStr) : List CStr :=
  match v, d.short.getD [], d.shortKind with
  | none, c :: _, .no => [['-', c]]
  | none, c :: _, .opt => [['-', c]]
  | some v, c :: _, .req => [['-', c], v]
  | some (x :: v), c :: _, .opt => ['-' :: c :: x :: v]
  | none, _, _ => [cs "--" ++ d.names.headD []]
  | some v, _, _ => [cs "--" ++ d.names.headD [] ++ '=' :: v]

/-- The whole command line: the options, `--`, and the operands. -/
def write (ds : List Decl) (gs : List (Nat × Option CStr)) (ops : List CStr) : List CStr :=
  gs.flatMap (fun g => (ds[g.1]?.map (spell · g.2)).getD []) ++ cs "--" :: ops

/-- The values `gs` for the options and the division `segs` of the operands suit the entries `es`: each entry can be told
what it is told and takes it, and is given enough; an operand goes to the first entry that takes it. -/
structure CanHold (lc : Libc δ) (es : List (Hdr (Obj δ))) (gs : List (Nat × Option CStr)) (segs : List (List CStr)) : Prop where
  said : AllSaid (es.map declOf) gs
  spread : Spread es segs.flatten segs
  greedy : Greedy lc es gs segs
  takes : ∀ (i : Nat) (h : Hdr (Obj δ)) (seg : List CStr), es[i]? = some h → segs[i]? = some seg →
    Takes lc h (given gs i ++ seg.map some)
  enough : ∀ (i : Nat) (h : Hdr (Obj δ)) (seg : List CStr), es[i]? = some h → segs[i]? = some seg →
    isRem h.parent = false → h.mincount ≤ (given gs i ++ seg.map some).length

end Argtable.Spec
