import Verif.Spec.Free
import Verif.Proofs.Print
import Mathlib.Data.List.Nodup
/-!
# Proofs about `arg_nullcheck`, `arg_free`, `arg_freetable`
-/

namespace Argtable

open Spec

theorem slot_ok {t : List (Option Nat)} {i : Nat} {x : Option Nat} (h : t[i]? = some x) :
    slot t i = .ok x := by rw [slot, h]

theorem slot_err {t : List (Option Nat)} {i : Nat} (h : t[i]? = none) :
    slot t i = .error (.ub "argtable index out of range") := by rw [slot, h]

theorem nullcheckLoop_skip (heap : FlagHeap) (t : List (Option Nat)) (k : Nat) :
    ∀ (i fuel : Nat), (∀ j, i ≤ j → j < i + k → ∃ p, t[j]? = some (some p) ∧ heap p = some false) →
      nullcheckLoop heap t (fuel + k) i = nullcheckLoop heap t fuel (i + k) := by
  induction k with
  | zero => intro i fuel _; rfl
  | succ k ih =>
    intro i fuel h
    obtain ⟨p, h1, h2⟩ := h i (by omega) (by omega)
    rw [show fuel + (k + 1) = (fuel + k) + 1 by omega, nullcheckLoop, slot_ok h1, pbind_ok]
    dsimp only
    rw [termFlag, h2]
    dsimp only
    rw [pbind_ok, if_neg (by decide), ih (i + 1) fuel (fun j h1 h2 => h j (by omega) (by omega))]
    congr 1; omega

theorem nullcheck_at (heap : FlagHeap) (t : List (Option Nat)) (i : Nat) (h : AllOrdinary heap t i)
    (hi : i ≤ t.length) :
    argNullcheck heap (some t) = nullcheckLoop heap t (t.length + 1 - i) i := by
  rw [argNullcheck, show t.length + 1 = (t.length + 1 - i) + i by omega,
    nullcheckLoop_skip heap t i 0 _ (fun j _ h2 => h j (by omega)), Nat.zero_add,
    show t.length + 1 - i + i - i = t.length + 1 - i by omega]

theorem nullcheck_null (heap : FlagHeap) (t : List (Option Nat)) (i : Nat) (h : AllOrdinary heap t i)
    (hn : t[i]? = some none) : argNullcheck heap (some t) = .ok 1 := by
  have hi := (List.getElem?_eq_some_iff.1 hn).1
  rw [nullcheck_at heap t i h (by omega), show t.length + 1 - i = (t.length - i) + 1 by omega,
    nullcheckLoop, slot_ok hn, pbind_ok]

theorem nullcheck_term (heap : FlagHeap) (t : List (Option Nat)) (i : Nat) (h : AllOrdinary heap t i)
    {p : Nat} (hn : t[i]? = some (some p)) (hp : heap p = some true) :
    argNullcheck heap (some t) = .ok 0 := by
  have hi := (List.getElem?_eq_some_iff.1 hn).1
  rw [nullcheck_at heap t i h (by omega), show t.length + 1 - i = (t.length - i) + 1 by omega,
    nullcheckLoop, slot_ok hn, pbind_ok]
  dsimp only
  rw [termFlag, hp]
  rfl

/-- The four ways a table can begin. -/
theorem table_cases (heap : FlagHeap) (t : List (Option Nat)) :
    (∃ i, AllOrdinary heap t i ∧ t[i]? = some none) ∨
    (∃ i p, AllOrdinary heap t i ∧ t[i]? = some (some p) ∧ heap p = some true) ∨
    (∃ i p, AllOrdinary heap t i ∧ t[i]? = some (some p) ∧ heap p = none) ∨
    AllOrdinary heap t t.length := by
  by_cases hall : AllOrdinary heap t t.length
  · exact Or.inr (Or.inr (Or.inr hall))
  · have hex : ∃ j, j < t.length ∧ ¬ ∃ p, t[j]? = some (some p) ∧ heap p = some false := by
      by_contra hno
      push Not at hno
      exact hall (fun j hj => hno j hj)
    classical
    let i := Nat.find hex
    have hi := Nat.find_spec hex
    have hmin : AllOrdinary heap t i := by
      intro j hj
      have := Nat.find_min hex hj
      by_contra hc
      exact this ⟨lt_trans hj hi.1, hc⟩
    have hget : t[i]? = some t[i] := List.getElem?_eq_getElem hi.1
    cases hx : t[i] with
    | none => exact Or.inl ⟨i, hmin, by rw [hget, hx]⟩
    | some p =>
      rw [hx] at hget
      cases hp : heap p with
      | none => exact Or.inr (Or.inr (Or.inl ⟨i, p, hmin, hget, hp⟩))
      | some b =>
        cases b with
        | true => exact Or.inr (Or.inl ⟨i, p, hmin, hget, hp⟩)
        | false => exact absurd ⟨p, hget, hp⟩ hi.2

theorem nullcheck_dangling (heap : FlagHeap) (t : List (Option Nat)) (i : Nat) (h : AllOrdinary heap t i)
    {p : Nat} (hn : t[i]? = some (some p)) (hp : heap p = none) :
    argNullcheck heap (some t) = .error (.ub "use after free") := by
  have hi := (List.getElem?_eq_some_iff.1 hn).1
  rw [nullcheck_at heap t i h (by omega), show t.length + 1 - i = (t.length - i) + 1 by omega,
    nullcheckLoop, slot_ok hn, pbind_ok]
  dsimp only
  rw [termFlag, hp]
  rfl

theorem nullcheck_end (heap : FlagHeap) (t : List (Option Nat)) (h : AllOrdinary heap t t.length) :
    argNullcheck heap (some t) = .error (.ub "argtable index out of range") := by
  rw [nullcheck_at heap t _ h (Nat.le_refl _), show t.length + 1 - t.length = 0 + 1 by omega,
    nullcheckLoop, slot_err (List.getElem?_eq_none (Nat.le_refl _))]
  rfl

/-! ### freeing -/

theorem freetable_loop : ∀ (k i : Nat) (s : FreeState) (pre : List (Option Nat)) (mid post : List (Option Nat)),
    s.table = pre ++ mid ++ post → pre.length = i → mid.length = k →
    (mid.filterMap id).Nodup → (∀ p ∈ mid.filterMap id, s.heap p ≠ none) →
    argFreetableLoop k i s = .ok
      { table := pre ++ List.replicate k none ++ post, heap := without s.heap (mid.filterMap id),
        freed := s.freed ++ mid.filterMap id } := by
  intro k
  induction k with
  | zero =>
    intro i s pre mid post ht hp hm _ _
    have : mid = [] := List.length_eq_zero_iff.1 hm
    subst this
    rw [argFreetableLoop]
    obtain ⟨tb, hp, fr⟩ := s
    simp only at ht
    subst ht
    have : without hp [] = hp := by funext q; simp [without]
    simp [this]
  | succ k ih =>
    intro i s pre mid post ht hp hm hnd hl
    cases mid with
    | nil => simp at hm
    | cons x mid =>
      have hget : s.table[i]? = some x := by
        rw [ht]
        simp [← hp]
      rw [argFreetableLoop, slot_ok hget, pbind_ok]
      cases x with
      | none =>
        have := ih (i + 1) s (pre ++ [none]) mid post (by simp [ht]) (by simp [hp]) (by simpa using hm)
          (by simpa using hnd) (by simpa using hl)
        dsimp only
        rw [this]
        simp [List.replicate_succ]
      | some p =>
        have hnd' : p ∉ mid.filterMap id ∧ (mid.filterMap id).Nodup := by simpa using hnd
        have hpl : s.heap p ≠ none := hl p (by simp)
        dsimp only
        rw [xfreeObj]
        cases hv : s.heap p with
        | none => exact absurd hv hpl
        | some b =>
          dsimp only
          rw [pbind_ok]
          have := ih (i + 1) (clearSlot { s with heap := fun q => if q = p then none else s.heap q, freed := s.freed ++ [p] } i)
            (pre ++ [none]) mid post (by
              simp only [clearSlot, ht, ← hp]
              simp) (by simp [hp]) (by simpa using hm) hnd'.2 (by
              intro q hq
              have hqp : q ≠ p := fun he => hnd'.1 (he ▸ hq)
              simp only [clearSlot, if_neg hqp]
              exact hl q (by simp only [List.filterMap_cons, id]; exact List.mem_cons_of_mem _ hq))
          rw [this]
          congr 1
          have hh : without (fun q => if q = p then none else s.heap q) (mid.filterMap id)
              = without s.heap ((some p :: mid).filterMap id) := by
            funext q
            simp only [without, List.filterMap_cons, id, List.mem_cons]
            by_cases h1 : q = p <;> by_cases h2 : q ∈ List.filterMap (fun x => x) mid <;> simp [h1, h2]
          simp only [clearSlot]
          rw [hh]
          simp [List.replicate_succ]

theorem free_loop : ∀ (k i : Nat) (s : FreeState) (pre : List (Option Nat)) (mid : List Nat)
    (post : List (Option Nat)) (last : Nat) (fuel : Nat),
    s.table = pre ++ mid.map some ++ some last :: post → pre.length = i → mid.length = k → k + 1 ≤ fuel →
    (mid ++ [last]).Nodup → (∀ p ∈ mid, s.heap p = some false) → s.heap last = some true →
    argFreeLoop fuel i s = .ok
      { table := pre ++ List.replicate (k + 1) none ++ post, heap := without s.heap (mid ++ [last]),
        freed := s.freed ++ (mid ++ [last]) } := by
  intro k
  induction k with
  | zero =>
    intro i s pre mid post last fuel ht hp hm hf hnd hl hlast
    have : mid = [] := List.length_eq_zero_iff.1 hm
    subst this
    obtain ⟨fuel, rfl⟩ : ∃ f, fuel = f + 1 := ⟨fuel - 1, by omega⟩
    have hget : s.table[i]? = some (some last) := by rw [ht]; simp [← hp]
    rw [argFreeLoop, slot_ok hget, pbind_ok]
    dsimp only
    rw [termFlag, hlast]
    dsimp only
    rw [pbind_ok, xfreeObj, hlast]
    dsimp only
    rw [pbind_ok]
    simp only [clearSlot, if_true]
    congr 1
    have hh : (fun q => if q = last then none else s.heap q) = without s.heap ([] ++ [last]) := by
      funext q; simp [without]
    rw [hh, ht, ← hp]
    simp
  | succ k ih =>
    intro i s pre mid post last fuel ht hp hm hf hnd hl hlast
    obtain ⟨fuel, rfl⟩ : ∃ f, fuel = f + 1 := ⟨fuel - 1, by omega⟩
    cases mid with
    | nil => simp at hm
    | cons p mid =>
      have hget : s.table[i]? = some (some p) := by rw [ht]; simp [← hp]
      have hp0 := hl p List.mem_cons_self
      have hnd' : p ∉ mid ++ [last] ∧ (mid ++ [last]).Nodup := by
        rw [List.cons_append, List.nodup_cons] at hnd; exact hnd
      rw [argFreeLoop, slot_ok hget, pbind_ok]
      dsimp only
      rw [termFlag, hp0]
      dsimp only
      rw [pbind_ok, xfreeObj, hp0]
      dsimp only
      rw [pbind_ok, if_neg (by decide)]
      have hne : ∀ q ∈ mid ++ [last], q ≠ p := fun q hq he => hnd'.1 (he ▸ hq)
      have := ih (i + 1) (clearSlot { s with heap := fun q => if q = p then none else s.heap q, freed := s.freed ++ [p] } i)
        (pre ++ [none]) mid post last fuel (by
          simp only [clearSlot, ht, ← hp]
          simp) (by simp [hp]) (by simpa using hm) (by omega) hnd'.2 (by
          intro q hq
          simp only [clearSlot, if_neg (hne q (List.mem_append_left _ hq))]
          exact hl q (List.mem_cons_of_mem _ hq)) (by
          simp only [clearSlot, if_neg (hne last (by simp))]
          exact hlast)
      rw [this]
      congr 1
      have hh : without (fun q => if q = p then none else s.heap q) (mid ++ [last])
          = without s.heap (p :: mid ++ [last]) := by
        funext q
        simp only [without, List.cons_append, List.mem_cons]
        by_cases h1 : q = p <;> by_cases h2 : q ∈ mid ++ [last] <;> simp [h1, h2]
      simp only [clearSlot]
      rw [hh]
      simp [List.replicate_succ]

theorem free_loop_null : ∀ (k i : Nat) (s : FreeState) (pre : List (Option Nat)) (mid : List Nat)
    (post : List (Option Nat)) (fuel : Nat),
    s.table = pre ++ mid.map some ++ none :: post → pre.length = i → mid.length = k → k + 1 ≤ fuel →
    mid.Nodup → (∀ p ∈ mid, s.heap p = some false) →
    argFreeLoop fuel i s = .ok
      { table := pre ++ List.replicate k none ++ none :: post, heap := without s.heap mid,
        freed := s.freed ++ mid } := by
  intro k
  induction k with
  | zero =>
    intro i s pre mid post fuel ht hp hm hf hnd hl
    have : mid = [] := List.length_eq_zero_iff.1 hm
    subst this
    obtain ⟨fuel, rfl⟩ : ∃ f, fuel = f + 1 := ⟨fuel - 1, by omega⟩
    have hget : s.table[i]? = some none := by rw [ht]; simp [← hp]
    rw [argFreeLoop, slot_ok hget, pbind_ok]
    dsimp only
    obtain ⟨tb, hp', fr⟩ := s
    simp only at ht
    subst ht
    have : without hp' [] = hp' := by funext q; simp [without]
    simp [this]
  | succ k ih =>
    intro i s pre mid post fuel ht hp hm hf hnd hl
    obtain ⟨fuel, rfl⟩ : ∃ f, fuel = f + 1 := ⟨fuel - 1, by omega⟩
    cases mid with
    | nil => simp at hm
    | cons p mid =>
      have hget : s.table[i]? = some (some p) := by rw [ht]; simp [← hp]
      have hp0 := hl p List.mem_cons_self
      have hnd' : p ∉ mid ∧ mid.Nodup := List.nodup_cons.1 hnd
      rw [argFreeLoop, slot_ok hget, pbind_ok]
      dsimp only
      rw [termFlag, hp0]
      dsimp only
      rw [pbind_ok, xfreeObj, hp0]
      dsimp only
      rw [pbind_ok, if_neg (by decide)]
      have hne : ∀ q ∈ mid, q ≠ p := fun q hq he => hnd'.1 (he ▸ hq)
      have := ih (i + 1) (clearSlot { s with heap := fun q => if q = p then none else s.heap q, freed := s.freed ++ [p] } i)
        (pre ++ [none]) mid post fuel (by
          simp only [clearSlot, ht, ← hp]
          simp) (by simp [hp]) (by simpa using hm) (by omega) hnd'.2 (by
          intro q hq
          simp only [clearSlot, if_neg (hne q hq)]
          exact hl q (List.mem_cons_of_mem _ hq))
      rw [this]
      congr 1
      have hh : without (fun q => if q = p then none else s.heap q) mid = without s.heap (p :: mid) := by
        funext q
        simp only [without, List.mem_cons]
        by_cases h1 : q = p <;> by_cases h2 : q ∈ mid <;> simp [h1, h2]
      simp only [clearSlot]
      rw [hh]
      simp [List.replicate_succ]

end Argtable
