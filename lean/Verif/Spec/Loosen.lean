import Verif.Spec.Stored
import Verif.Spec.Usage
/-!
# The same entry with other bounds
-/

namespace Argtable.Spec

variable {δ : Type}

/-- `Rebound lc h h'`: the entries `h` and `h'` were made by the same constructor from the same arguments, except for the
bounds `mincount` and `maxcount` (and the texts that are only printed).  Both are in any state that they can be in later
(`Live`). -/
inductive Rebound (lc : Libc δ) : Hdr (Obj δ) → Hdr (Obj δ) → Prop
  | lit (so lo gl gl' : Option CStr) (mn mx mn' mx' : Int) (ov : Bool) (c c' : Nat) :
      c ≤ (foolproof mn mx).toNat → c' ≤ (foolproof mn' mx').toNat →
      Rebound lc { argLitn so lo mn mx gl with hasOptValue := ov, parent := .lit c }
        { argLitn so lo mn' mx' gl' with hasOptValue := ov, parent := .lit c' }
  | int (so lo dt dt' gl gl' : Option CStr) (mn mx mn' mx' : Int) (h h' : Hdr (Obj δ)) (ov : Bool) (o o' : IntObj) :
      argIntn so lo dt mn mx gl = .ok h → argIntn so lo dt' mn' mx' gl' = .ok h' →
      (o.count : Int) ≤ h.maxcount → (o.ival.length : Int) = h.maxcount →
      (o'.count : Int) ≤ h'.maxcount → (o'.ival.length : Int) = h'.maxcount →
      Rebound lc { h with hasOptValue := ov, parent := .int o } { h' with hasOptValue := ov, parent := .int o' }
  | dbl (ad ad' : Nat) (so lo dt dt' gl gl' : Option CStr) (mn mx mn' mx' : Int) (h h' : Hdr (Obj δ)) (ov : Bool)
      (o o' : DblObj δ) : argDbln lc ad so lo dt mn mx gl = .ok h → argDbln lc ad' so lo dt' mn' mx' gl' = .ok h' →
      (o.count : Int) ≤ h.maxcount → (o.dval.length : Int) = h.maxcount →
      (o'.count : Int) ≤ h'.maxcount → (o'.dval.length : Int) = h'.maxcount →
      Rebound lc { h with hasOptValue := ov, parent := .dbl o } { h' with hasOptValue := ov, parent := .dbl o' }
  | str (so lo dt dt' gl gl' : Option CStr) (mn mx mn' mx' : Int) (h h' : Hdr (Obj δ)) (ov : Bool) (o o' : StrObj) :
      argStrn so lo dt mn mx gl = .ok h → argStrn so lo dt' mn' mx' gl' = .ok h' →
      (o.count : Int) ≤ h.maxcount → (o.sval.length : Int) = h.maxcount →
      (o'.count : Int) ≤ h'.maxcount → (o'.sval.length : Int) = h'.maxcount →
      Rebound lc { h with hasOptValue := ov, parent := .str o } { h' with hasOptValue := ov, parent := .str o' }
  | file (so lo dt dt' gl gl' : Option CStr) (mn mx mn' mx' : Int) (h h' : Hdr (Obj δ)) (ov : Bool) (o o' : FileObj) :
      argFilen so lo dt mn mx gl = .ok h → argFilen so lo dt' mn' mx' gl' = .ok h' →
      (o.count : Int) ≤ h.maxcount → (o.filename.length : Int) = h.maxcount →
      (o.basename.length : Int) = h.maxcount → (o.extension.length : Int) = h.maxcount →
      (o'.count : Int) ≤ h'.maxcount → (o'.filename.length : Int) = h'.maxcount →
      (o'.basename.length : Int) = h'.maxcount → (o'.extension.length : Int) = h'.maxcount →
      Rebound lc { h with hasOptValue := ov, parent := .file o } { h' with hasOptValue := ov, parent := .file o' }
  | date (so lo fm dt dt' gl gl' : Option CStr) (mn mx mn' mx' : Int) (h h' : Hdr (Obj δ)) (ov : Bool) (o o' : DateObj) :
      argDaten lc so lo fm dt mn mx gl = .ok h → argDaten lc so lo fm dt' mn' mx' gl' = .ok h' →
      (o.count : Int) ≤ h.maxcount → (o.tmval.length : Int) = h.maxcount →
      (o'.count : Int) ≤ h'.maxcount → (o'.tmval.length : Int) = h'.maxcount →
      Rebound lc { h with hasOptValue := ov, parent := .date o } { h' with hasOptValue := ov, parent := .date o' }
  | rex (so lo : Option CStr) (pat : CStr) (ic : Bool) (dt dt' gl gl' : Option CStr) (mn mx mn' mx' : Int)
      (h h' : Hdr (Obj δ)) (ov : Bool) (o o' : StrObj) :
      argRexn so lo pat dt mn mx ic gl = .ok h → argRexn so lo pat dt' mn' mx' ic gl' = .ok h' →
      (o.count : Int) ≤ h.maxcount → (o.sval.length : Int) = h.maxcount →
      (o'.count : Int) ≤ h'.maxcount → (o'.sval.length : Int) = h'.maxcount →
      Rebound lc { h with hasOptValue := ov, parent := .rex o } { h' with hasOptValue := ov, parent := .rex o' }
  | rem (dt gl dt' gl' : Option CStr) : Rebound lc (argRem dt gl) (argRem dt' gl')

/-- `Begins p q`: the objects `p` and `q` hold the same number of values, and the arrays of `p` are the beginnings of those of
`q`. -/
inductive Begins : Obj δ → Obj δ → Prop
  | lit (c : Nat) : Begins (.lit c) (.lit c)
  | int (c : Nat) {a b : List (Option Int)} : a <+: b → Begins (.int ⟨c, a⟩) (.int ⟨c, b⟩)
  | dbl (c : Nat) {a b : List (Option δ)} : a <+: b → Begins (.dbl ⟨c, a⟩) (.dbl ⟨c, b⟩)
  | str (c : Nat) {a b : List CStr} : a <+: b → Begins (.str ⟨c, a⟩) (.str ⟨c, b⟩)
  | file (c : Nat) {a b d a' b' d' : List CStr} : a <+: a' → b <+: b' → d <+: d' →
      Begins (.file ⟨c, a, b, d⟩) (.file ⟨c, a', b', d'⟩)
  | date (c : Nat) {a b : List Tm} : a <+: b → Begins (.date ⟨c, a⟩) (.date ⟨c, b⟩)
  | rex (c : Nat) {a b : List CStr} : a <+: b → Begins (.rex ⟨c, a⟩) (.rex ⟨c, b⟩)
  | rem : Begins .rem .rem

/-- `h'` is the entry `h` with an upper bound that allows as much or more (and any lower bound), preset to the same values as
far as `h` has room for them. -/
structure Roomier (lc : Libc δ) (h h' : Hdr (Obj δ)) : Prop where
  same : Rebound lc h h'
  most : h.maxcount ≤ h'.maxcount
  start : Begins (presets h.parent) (presets h'.parent)

/-- The entries `es'` are the entries `es` with upper bounds that allow as much or more.  The upper bound of an entry for
operands may be raised only if no other entry for operands comes behind it. -/
structure RoomierTable (lc : Libc δ) (es es' : List (Hdr (Obj δ))) : Prop where
  each : List.Forall₂ (Roomier lc) es es'
  last : ∀ (i : Nat) (h h' : Hdr (Obj δ)), es[i]? = some h → es'[i]? = some h' → tagged h = true ∨ h'.maxcount = h.maxcount ∨
    ∀ k ∈ es.drop (i + 1), tagged k = true ∨ isRem k.parent = true

/-- The number of entries with fewer values than their lower bound. -/
def tooFew (es : List (Hdr (Obj δ))) : Nat :=
  es.countP fun h => !isRem h.parent && decide ((h.parent.count : Int) < h.mincount)

/-- `InBounds es es'`: in `es'`, the entries (remarks aside) have as many values as the bounds in `es` allow (an upper
bound below 0, which only `arg_litn` lets pass, means 0). -/
def InBounds (es es' : List (Hdr (Obj δ))) : Prop :=
  List.Forall₂ (fun h k : Hdr (Obj δ) => isRem k.parent = false → h.mincount ≤ k.parent.count ∧ (k.parent.count : Int) ≤ max h.maxcount 0)
    es es'

end Argtable.Spec
