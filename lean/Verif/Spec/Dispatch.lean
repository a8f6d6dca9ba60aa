import Verif.Model.Dispatch
import Verif.Spec.Cmd
/-!
# What a program with commands does

The registry is described by the history of the calls of `arg_cmd_register` and `arg_cmd_unregister`, whoever made them.
-/

namespace Argtable.Spec

variable {P C σ : Type}

/-- The history of the registry, what was written to the string object, and the memory of the program. -/
structure CmdLog (P C σ : Type) where
  evs : List (CmdEvent P C)
  out : CStr
  mem : σ

/-- `CarriesOut code x s r s'`: from `s`, the calls `x` come to an end with the result `r`, and leave `s'`.  A command that is
dispatched is the one that the latest registration of its name gives, at the time of the dispatch; what it does happens before
what follows in its caller. -/
inductive CarriesOut (code : P → C → List CStr → Script P C σ) : Script P C σ → CmdLog P C σ → Int → CmdLog P C σ → Prop
  | done {r : Int} {s : CmdLog P C σ} : CarriesOut code (.done r) s r s
  | write {text : CStr} {x : Script P C σ} {s s' : CmdLog P C σ} {r : Int} :
      CarriesOut code x { s with out := s.out ++ text } r s' → CarriesOut code (.write text x) s r s'
  | look {f : σ → Script P C σ} {s s' : CmdLog P C σ} {r : Int} : CarriesOut code (f s.mem) s r s' → CarriesOut code (.look f) s r s'
  | store {m : σ} {x : Script P C σ} {s s' : CmdLog P C σ} {r : Int} :
      CarriesOut code x { s with mem := m } r s' → CarriesOut code (.store m x) s r s'
  | register {name : CStr} {p : Option P} {d : CStr} {c : C} {x : Script P C σ} {s s' : CmdLog P C σ} {r : Int} :
      name.length < 100 → d.length < 256 → CarriesOut code x { s with evs := s.evs ++ [.register name p d c] } r s' →
      CarriesOut code (.register name p d c x) s r s'
  | unregister {name : CStr} {x : Script P C σ} {s s' : CmdLog P C σ} {r : Int} :
      CarriesOut code x { s with evs := s.evs ++ [.unregister name] } r s' → CarriesOut code (.unregister name x) s r s'
  | info {name : CStr} {f : Option (CmdInfo P C) → Script P C σ} {s s' : CmdLog P C σ} {r : Int} :
      CarriesOut code (f (latest s.evs name)) s r s' → CarriesOut code (.info name f) s r s'
  | count {f : Nat → Script P C σ} {s s' : CmdLog P C σ} {r : Int} :
      CarriesOut code (f (registered s.evs).length) s r s' → CarriesOut code (.count f) s r s'
  | dispatch {name : CStr} {argv : List CStr} {f : Int → Script P C σ} {s s1 s' : CmdLog P C σ} {r1 r : Int}
      {i : CmdInfo P C} {p : P} : latest s.evs name = some i → i.proc = some p → CarriesOut code (code p i.ctx argv) s r1 s1 →
      CarriesOut code (f r1) s1 r s' → CarriesOut code (.dispatch name argv f) s r s'

/-- `Misuses code x s`: from `s`, the calls `x` come to one that is not allowed: the dispatch of a name that is not registered or was
registered with NULL for its procedure, or the registration of a name or description that is too long. -/
inductive Misuses (code : P → C → List CStr → Script P C σ) : Script P C σ → CmdLog P C σ → Prop
  | long {name : CStr} {p : Option P} {d : CStr} {c : C} {x : Script P C σ} {s : CmdLog P C σ} :
      100 ≤ name.length ∨ 256 ≤ d.length → Misuses code (.register name p d c x) s
  | unknown {name : CStr} {argv : List CStr} {f : Int → Script P C σ} {s : CmdLog P C σ} :
      (∀ i p, latest s.evs name = some i → i.proc ≠ some p) → Misuses code (.dispatch name argv f) s
  | inside {name : CStr} {argv : List CStr} {f : Int → Script P C σ} {s : CmdLog P C σ} {i : CmdInfo P C} {p : P} :
      latest s.evs name = some i → i.proc = some p → Misuses code (code p i.ctx argv) s → Misuses code (.dispatch name argv f) s
  | behind {name : CStr} {argv : List CStr} {f : Int → Script P C σ} {s s1 : CmdLog P C σ} {r1 : Int} {i : CmdInfo P C} {p : P} :
      latest s.evs name = some i → i.proc = some p → CarriesOut code (code p i.ctx argv) s r1 s1 → Misuses code (f r1) s1 →
      Misuses code (.dispatch name argv f) s
  | write {text : CStr} {x : Script P C σ} {s : CmdLog P C σ} :
      Misuses code x { s with out := s.out ++ text } → Misuses code (.write text x) s
  | look {f : σ → Script P C σ} {s : CmdLog P C σ} : Misuses code (f s.mem) s → Misuses code (.look f) s
  | store {m : σ} {x : Script P C σ} {s : CmdLog P C σ} : Misuses code x { s with mem := m } → Misuses code (.store m x) s
  | register {name : CStr} {p : Option P} {d : CStr} {c : C} {x : Script P C σ} {s : CmdLog P C σ} :
      name.length < 100 → d.length < 256 → Misuses code x { s with evs := s.evs ++ [.register name p d c] } →
      Misuses code (.register name p d c x) s
  | unregister {name : CStr} {x : Script P C σ} {s : CmdLog P C σ} :
      Misuses code x { s with evs := s.evs ++ [.unregister name] } → Misuses code (.unregister name x) s
  | info {name : CStr} {f : Option (CmdInfo P C) → Script P C σ} {s : CmdLog P C σ} :
      Misuses code (f (latest s.evs name)) s → Misuses code (.info name f) s
  | count {f : Nat → Script P C σ} {s : CmdLog P C σ} :
      Misuses code (f (registered s.evs).length) s → Misuses code (.count f) s

/-- The registry of the program `w` has the history of `s`, and string object and memory are those of `s`. -/
structure Follow (limit : Nat → Nat) (w : CmdWorld P C σ) (s : CmdLog P C σ) : Prop where
  fits : ∀ e ∈ s.evs, e.fits
  reg : runEvents limit (cmdInit limit) s.evs = .ok w.reg
  out : w.out = s.out
  mem : w.mem = s.mem

end Argtable.Spec
