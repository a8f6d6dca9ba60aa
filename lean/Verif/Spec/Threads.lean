import Verif.Model.Threads
import Verif.Spec.Outcome
/-!
# Threads: what each would see without the others
-/

namespace Argtable.Spec

variable {σ : Type}

/-- A program with one thread does the actions one after the other: what it sees, and the table and the variables of getopt at the end. -/
inductive OneByOne : List (ThrAct σ) → Table σ → GState → List (Seen σ) → Table σ → GState → Prop
  | nil (t g) : OneByOne [] t g [] t g
  | parse {env argv t g n t1 g1 acts seen t' g'} : Returns env argv t g (n, t1, g1) → OneByOne acts t1 g1 seen t' g' →
      OneByOne (.parse env argv :: acts) t g (.parsed n t1.entries (t1.fin.slots.take t1.fin.count) :: seen) t' g'
  | read {f t g s acts seen t' g'} : f t.entries (t.fin.slots.take t.fin.count) = .ok s → OneByOne acts t g seen t' g' →
      OneByOne (.read f :: acts) t g (.text s :: seen) t' g'

/-- A thread before it begins: its table is one made by the constructors as far as the option names are concerned, its command lines are C strings. -/
structure ThrReady (th : Thr σ) : Prop where
  table : ∃ m, EndOK m th.table.fin ∧ WF (th.table.entries.map declOf)
  args : ∀ env argv, ThrAct.parse env argv ∈ th.prog → CArgs argv.tail
  out : th.place = .out
  seen : th.seen = []

/-- The first `n` decisions of a scheduler. -/
def firstOf (sched : Nat → Nat) : Nat → List Nat
  | 0 => []
  | n + 1 => sched 0 :: firstOf (fun k => sched (k + 1)) n

/-- Each of the `k` threads gets the processor again and again. -/
def FairFor (k : Nat) (sched : Nat → Nat) : Prop := ∀ i, i < k → ∀ n, ∃ m, n ≤ m ∧ sched m = i

end Argtable.Spec
