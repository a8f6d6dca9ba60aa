import Verif.Model.SortWork

/-!
# What a sort may cost
-/

namespace Argtable.Spec

variable {α : Type}

/-- How many comparisons a log has. -/
def comparisons : List (SortEv α) → Nat
  | [] => 0
  | .compare _ _ :: l => comparisons l + 1
  | _ :: l => comparisons l

/-- How many requests for memory. -/
def requests : List (SortEv α) → Nat
  | [] => 0
  | .malloc _ :: l => requests l + 1
  | _ :: l => requests l

/-- How many bytes are allocated at the end of a log and were not at its start. -/
def bytesHeld : List (SortEv α) → Int
  | [] => 0
  | .compare _ _ :: l => bytesHeld l
  | .malloc b :: l => b + bytesHeld l
  | .free b :: l => bytesHeld l - b

/-- At no moment more than `bytes` bytes are allocated (and never more is released than was allocated). -/
def NeverMore (bytes : Int) (l : List (SortEv α)) : Prop := ∀ n, 0 ≤ bytesHeld (l.take n) ∧ bytesHeld (l.take n) ≤ bytes

/-- What the comparison function makes of the state of the program, when it is called as the log says. -/
def progAfter {σ : Type} (env : SortEnv α σ) (p : σ) : List (SortEv α) → σ
  | [] => p
  | .compare x y :: l => progAfter env (env.compare x y p).2 l
  | _ :: l => progAfter env p l

/-- The last entry of the log is a call of the comparison function, which did not return. -/
def LeftIn {σ : Type} (env : SortEnv α σ) (p : σ) (l : List (SortEv α)) : Prop :=
  ∃ l0 x y, l = l0 ++ [.compare x y] ∧ (env.compare x y (progAfter env p l0)).1 = none

/-- A function that compares and always returns, and memory that is never refused. -/
def plainEnv {σ : Type} (cmp : α → α → Int) (next : α → α → σ → σ) : SortEnv α σ := ⟨fun x y p => (some (cmp x y), next x y p), fun _ _ => true⟩

end Argtable.Spec
