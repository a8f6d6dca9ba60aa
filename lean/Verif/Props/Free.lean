import Verif.Proofs.Free
import Verif.Model.Makers
import Verif.Proofs.Live
/-!
# `arg_nullcheck`, `arg_free`, `arg_freetable` (C49, C50) and the constructors (C51)
-/

namespace Argtable

open Spec

/-! ## C49 -/

/-- C49.  `arg_nullcheck` returns 1 iff the table is NULL or has a NULL entry preceded by ordinary
entries only (in particular before the terminator). -/
theorem C49_one (heap : FlagHeap) (t : Option (List (Option Nat))) :
    argNullcheck heap t = .ok 1 ↔
      ∀ l, t = some l → ∃ i, AllOrdinary heap l i ∧ l[i]? = some none := by
  cases t with
  | none => exact ⟨fun _ l h => (by cases h), fun _ => rfl⟩
  | some l =>
    constructor
    · intro h l' hl'
      cases hl'
      rcases table_cases heap l with h1 | ⟨i, p, h1, h2, h3⟩ | ⟨i, p, h1, h2, h3⟩ | h1
      · exact h1
      · rw [nullcheck_term heap l i h1 h2 h3] at h; cases h
      · rw [nullcheck_dangling heap l i h1 h2 h3] at h; cases h
      · rw [nullcheck_end heap l h1] at h; cases h
    · intro h
      obtain ⟨i, h1, h2⟩ := h l rfl
      exact nullcheck_null heap l i h1 h2

/-- C49.  It returns 0 iff the table has a terminator preceded by ordinary entries only. -/
theorem C49_zero (heap : FlagHeap) (t : Option (List (Option Nat))) :
    argNullcheck heap t = .ok 0 ↔
      ∃ l i p, t = some l ∧ AllOrdinary heap l i ∧ l[i]? = some (some p) ∧ heap p = some true := by
  cases t with
  | none => exact ⟨fun h => by simp [argNullcheck] at h, fun ⟨_, _, _, h, _⟩ => by cases h⟩
  | some l =>
    constructor
    · intro h
      rcases table_cases heap l with ⟨i, h1, h2⟩ | ⟨i, p, h1, h2, h3⟩ | ⟨i, p, h1, h2, h3⟩ | h1
      · rw [nullcheck_null heap l i h1 h2] at h; cases h
      · exact ⟨l, i, p, rfl, h1, h2, h3⟩
      · rw [nullcheck_dangling heap l i h1 h2 h3] at h; cases h
      · rw [nullcheck_end heap l h1] at h; cases h
    · rintro ⟨l', i, p, hl', h1, h2, h3⟩
      cases hl'
      exact nullcheck_term heap l i h1 h2 h3

/-- C49.  It never looks behind the terminator or the first NULL: with the array cut off there the
result is the same, and it is always 0 or 1. -/
theorem C49_stops (heap : FlagHeap) (front back : List (Option Nat)) (x : Option Nat)
    (hf : AllOrdinary heap front front.length) (hx : x = none ∨ ∃ p, x = some p ∧ heap p = some true) :
    argNullcheck heap (some (front ++ x :: back)) = argNullcheck heap (some (front ++ [x])) ∧
    (argNullcheck heap (some (front ++ [x])) = .ok 0 ∨ argNullcheck heap (some (front ++ [x])) = .ok 1) := by
  have ho : ∀ l, AllOrdinary heap (front ++ l) front.length := by
    intro l j hj
    obtain ⟨p, h1, h2⟩ := hf j hj
    exact ⟨p, by rw [List.getElem?_append_left hj]; exact h1, h2⟩
  have hg : ∀ l, (front ++ x :: l)[front.length]? = some x := by intro l; simp
  rcases hx with rfl | ⟨p, rfl, hp⟩
  · rw [nullcheck_null heap _ _ (ho _) (hg _), nullcheck_null heap _ _ (ho _) (hg _)]
    exact ⟨rfl, Or.inr rfl⟩
  · rw [nullcheck_term heap _ _ (ho _) (hg _) hp, nullcheck_term heap _ _ (ho _) (hg _) hp]
    exact ⟨rfl, Or.inl rfl⟩

/-- A heap for the examples: objects at 10, 20, 30 (ordinary) and 99 (terminator). -/
def sampleHeap : FlagHeap := fun p =>
  if p = 99 then some true else if p = 10 ∨ p = 20 ∨ p = 30 then some false else none

example : argNullcheck sampleHeap (some [some 10, some 20, some 99]) = .ok 0 := by decide
example : argNullcheck sampleHeap (some [some 10, none, some 20, some 99]) = .ok 1 := by decide
example : AllOrdinary sampleHeap [some 10, none, some 20, some 99] 1 := by
  intro j hj
  have : j = 0 := by omega
  subst this
  exact ⟨10, rfl, by decide⟩
/-- A NULL behind the terminator is not seen. -/
example : argNullcheck sampleHeap (some [some 10, some 99, none]) = .ok 0 := by decide

/-! ## C50 -/

/-- C50.  `arg_freetable(table, n)` frees every non-NULL pointer among the first `n` entries exactly
once, in order, touches no other object, and sets these entries to NULL.  The pointers have to be
distinct and allocated. -/
theorem C50_freetable (s : FreeState) (n : Nat) (hn : n ≤ s.table.length)
    (hd : (pointers (s.table.take n)).Nodup) (hl : ∀ p ∈ pointers (s.table.take n), s.heap p ≠ none) :
    ∃ s', argFreetable n s = .ok s' ∧ s'.freed = s.freed ++ pointers (s.table.take n) ∧
      s'.table = List.replicate n none ++ s.table.drop n ∧
      s'.heap = without s.heap (pointers (s.table.take n)) := by
  have := freetable_loop n 0 s [] (s.table.take n) (s.table.drop n)
    (by simp) rfl (by simp; omega) hd hl
  exact ⟨_, this, rfl, by simp, rfl⟩

/-- C50.  Nothing allocated is left of a table whose objects are the whole heap. -/
theorem C50_no_leak (s : FreeState) (hd : (pointers s.table).Nodup)
    (hl : ∀ p, s.heap p ≠ none ↔ p ∈ pointers s.table) :
    ∃ s', argFreetable s.table.length s = .ok s' ∧ ∀ p, s'.heap p = none := by
  obtain ⟨s', h1, _, _, h4⟩ := C50_freetable s s.table.length (Nat.le_refl _)
    (by rw [List.take_length]; exact hd) (by rw [List.take_length]; exact fun p hp => (hl p).2 hp)
  refine ⟨s', h1, fun p => ?_⟩
  rw [h4, List.take_length, without]
  split
  · rfl
  · rename_i hp
    by_contra hc
    exact hp ((hl p).1 hc)

/-- C50.  A second call with the same arguments does nothing. -/
theorem C50_twice (s : FreeState) (n : Nat) (hn : n ≤ s.table.length)
    (hd : (pointers (s.table.take n)).Nodup) (hl : ∀ p ∈ pointers (s.table.take n), s.heap p ≠ none)
    {s' : FreeState} (h : argFreetable n s = .ok s') : argFreetable n s' = .ok s' := by
  obtain ⟨s1, h1, h2, h3, h4⟩ := C50_freetable s n hn hd hl
  rw [h] at h1
  cases h1
  have ht : s'.table.take n = List.replicate n none := by rw [h3]; simp
  have hp : pointers (s'.table.take n) = [] := by
    rw [ht, pointers]; simp
  obtain ⟨s2, h1, h2', h3', h4'⟩ := C50_freetable s' n (by rw [h3]; simp) (by rw [hp]; simp)
    (by rw [hp]; simp)
  rw [h1]
  rw [hp] at h2' h4'
  obtain ⟨t2, hp2, f2⟩ := s2
  obtain ⟨t1, hp1, f1⟩ := s'
  dsimp only at *
  have e1 : t2 = t1 := by rw [h3', h3]; simp
  have e2 : hp2 = hp1 := by rw [h4']; funext q; simp [without]
  have e3 : f2 = f1 := by simpa using h2'
  rw [e1, e2, e3]

/-- C50.  `arg_free` does the same for the entries up to and including the terminator, if none of
them is NULL. -/
theorem C50_free (s : FreeState) (objs : List Nat) (last : Nat) (rest : List (Option Nat))
    (ht : s.table = objs.map some ++ some last :: rest) (hd : (objs ++ [last]).Nodup)
    (ho : ∀ p ∈ objs, s.heap p = some false) (hlast : s.heap last = some true) :
    ∃ s', argFree s = .ok s' ∧ s'.freed = s.freed ++ (objs ++ [last]) ∧
      s'.table = List.replicate (objs.length + 1) none ++ rest ∧
      s'.heap = without s.heap (objs ++ [last]) := by
  have := free_loop objs.length 0 s [] objs rest last (s.table.length + 1) (by simpa using ht) rfl rfl
    (by rw [ht]; simp) hd ho hlast
  exact ⟨_, this, rfl, by simp, rfl⟩

/-- C50, the documented flaw: `arg_free` stops at the first NULL entry, so the objects behind it stay
allocated. -/
theorem C50_free_leaks (s : FreeState) (objs : List Nat) (rest : List (Option Nat))
    (ht : s.table = objs.map some ++ none :: rest) (hd : objs.Nodup)
    (ho : ∀ p ∈ objs, s.heap p = some false) :
    ∃ s', argFree s = .ok s' ∧ s'.freed = s.freed ++ objs ∧
      ∀ p, p ∉ objs → s'.heap p = s.heap p := by
  have := free_loop_null objs.length 0 s [] objs rest (s.table.length + 1) (by simpa using ht) rfl rfl
    (by rw [ht]; simp) hd ho
  exact ⟨_, this, rfl, fun p hp => by simp [without, hp]⟩

/-- A table with a failed allocation in the middle. -/
def sampleState : FreeState := ⟨[some 10, none, some 20, some 99], sampleHeap, []⟩

example : ∃ s', argFreetable 4 sampleState = .ok s' ∧ s'.freed = [10, 20, 99] := by
  obtain ⟨s', h1, h2, _⟩ := C50_freetable sampleState 4 (by decide) (by decide) (by decide)
  exact ⟨s', h1, h2⟩
example : ∃ s', argFree sampleState = .ok s' ∧ s'.freed = [10] ∧ s'.heap 20 ≠ none := by
  obtain ⟨s', h1, h2, h3⟩ := C50_free_leaks sampleState [10] [some 20, some 99] rfl (by decide) (by decide)
  exact ⟨s', h1, h2, by rw [h3 20 (by decide)]; decide⟩
example : ∃ s', argFree ⟨[some 30, some 10, some 99, some 20], sampleHeap, []⟩ = .ok s' ∧
    s'.freed = [30, 10, 99] := by
  obtain ⟨s', h1, h2, _⟩ := C50_free ⟨[some 30, some 10, some 99, some 20], sampleHeap, []⟩ [30, 10] 99
    [some 20] rfl (by decide) (by decide) (by decide)
  exact ⟨s', h1, h2⟩
/-- The same pointer twice is a double free. -/
example : (argFreetable 2 ⟨[some 10, some 10], sampleHeap, []⟩).isOk = false := by decide

/-! ## C51 -/

variable {δ : Type}

theorem foolproof_max (mn mx : Int) : foolproof mn mx = max mn mx := by
  unfold foolproof; split <;> omega

theorem arrayCells_ok {n : Int} (h : 0 ≤ n) : arrayCells n = .ok n.toNat := by
  rw [arrayCells, if_neg (by omega)]

theorem dblCells_eq (addr n : Nat) : dblCells addr n = n := by
  unfold dblCells
  omega

/-- C51, `arg_litn`: the counts as documented; no occurrence counted yet. -/
theorem C51_lit (so lo gl : Option CStr) (mn mx : Int) :
    let h : Hdr (Obj δ) := argLitn so lo mn mx gl
    h.mincount = mn ∧ h.maxcount = max mn mx ∧ h.parent = .lit 0 ∧
      h.shortopts = so ∧ h.longopts = lo ∧ h.datatype = none ∧ h.glossary = gl ∧ h.hasValue = false :=
  ⟨rfl, foolproof_max mn mx, rfl, rfl, rfl, rfl, rfl, rfl⟩

/-- C51, `arg_intn`: room for exactly `max mincount maxcount` values, none stored, the data type
defaults to `<int>`. -/
theorem C51_int (so lo dt gl : Option CStr) (mn mx : Int) (hpos : 0 ≤ max mn mx) :
    ∃ (h : Hdr (Obj δ)) (ival : List (Option Int)), argIntn so lo dt mn mx gl = .ok h ∧ h.mincount = mn ∧
      h.maxcount = max mn mx ∧ h.parent = .int ⟨0, ival⟩ ∧ (ival.length : Int) = max mn mx ∧
      h.shortopts = so ∧ h.longopts = lo ∧ h.datatype = some (dt.getD (cs "<int>")) ∧ h.glossary = gl ∧ h.hasValue = true := by
  rw [← foolproof_max] at hpos ⊢
  refine ⟨_, _, by unfold argIntn; dsimp only; rw [arrayCells_ok hpos]; rfl, rfl, rfl, rfl, ?_, rfl, rfl, rfl, rfl, rfl⟩
  rw [List.length_replicate]; omega

/-- C51, `arg_dbln`: wherever `malloc` puts the object, the aligned array has exactly
`max mincount maxcount` cells. -/
theorem C51_dbl (lc : Libc δ) (addr : Nat) (so lo dt gl : Option CStr) (mn mx : Int) (hpos : 0 ≤ max mn mx) :
    ∃ (h : Hdr (Obj δ)) (dval : List (Option δ)), argDbln lc addr so lo dt mn mx gl = .ok h ∧
      h.mincount = mn ∧ h.maxcount = max mn mx ∧ h.parent = .dbl ⟨0, dval⟩ ∧
      (dval.length : Int) = max mn mx ∧
      h.shortopts = so ∧ h.longopts = lo ∧ h.datatype = some (dt.getD (cs "<double>")) ∧ h.glossary = gl ∧ h.hasValue = true := by
  rw [← foolproof_max] at hpos ⊢
  refine ⟨_, _, by unfold argDbln; dsimp only; rw [arrayCells_ok hpos]; rfl, rfl, rfl, rfl, ?_, rfl, rfl, rfl, rfl, rfl⟩
  rw [List.length_replicate, dblCells_eq]; omega

/-- C51, `arg_strn`: every value starts as the empty string. -/
theorem C51_str (so lo dt gl : Option CStr) (mn mx : Int) (hpos : 0 ≤ max mn mx) :
    ∃ h : Hdr (Obj δ), argStrn so lo dt mn mx gl = .ok h ∧ h.mincount = mn ∧
      h.maxcount = max mn mx ∧ h.parent = .str ⟨0, List.replicate (max mn mx).toNat []⟩ ∧
      h.shortopts = so ∧ h.longopts = lo ∧ h.datatype = some (dt.getD (cs "<string>")) ∧ h.glossary = gl ∧ h.hasValue = true := by
  rw [← foolproof_max] at hpos ⊢
  exact ⟨_, by unfold argStrn; dsimp only; rw [arrayCells_ok hpos]; rfl, rfl, rfl, rfl, rfl, rfl, rfl, rfl, rfl⟩

/-- C51, `arg_filen`: all three arrays, filled with empty strings. -/
theorem C51_file (so lo dt gl : Option CStr) (mn mx : Int) (hpos : 0 ≤ max mn mx) :
    ∃ h : Hdr (Obj δ), argFilen so lo dt mn mx gl = .ok h ∧ h.mincount = mn ∧
      h.maxcount = max mn mx ∧ h.parent = .file ⟨0, List.replicate (max mn mx).toNat [],
        List.replicate (max mn mx).toNat [], List.replicate (max mn mx).toNat []⟩ ∧
      h.shortopts = so ∧ h.longopts = lo ∧ h.datatype = some (dt.getD (cs "<file>")) ∧ h.glossary = gl ∧ h.hasValue = true := by
  rw [← foolproof_max] at hpos ⊢
  exact ⟨_, by unfold argFilen; dsimp only; rw [arrayCells_ok hpos]; rfl, rfl, rfl, rfl, rfl, rfl, rfl, rfl, rfl⟩

/-- C51, `arg_daten`: all-zero times; the format defaults to `%x`, the data type to the format. -/
theorem C51_date (lc : Libc δ) (so lo fm dt gl : Option CStr) (mn mx : Int) (hpos : 0 ≤ max mn mx) :
    ∃ h : Hdr (Obj δ), argDaten lc so lo fm dt mn mx gl = .ok h ∧ h.mincount = mn ∧
      h.maxcount = max mn mx ∧ h.parent = .date ⟨0, List.replicate (max mn mx).toNat {}⟩ ∧
      h.shortopts = so ∧ h.longopts = lo ∧ h.datatype = some (dt.getD (fm.getD (cs "%x"))) ∧
      h.glossary = gl ∧ h.hasValue = true := by
  rw [← foolproof_max] at hpos ⊢
  exact ⟨_, by unfold argDaten; dsimp only; rw [arrayCells_ok hpos]; rfl, rfl, rfl, rfl, rfl, rfl, rfl, rfl, rfl⟩

/-- C51, `arg_rexn`, for a pattern on which the compiler does not misbehave (valid or not): empty
strings; the data type defaults to the pattern. -/
theorem C51_rex (so lo : Option CStr) (pat : CStr) (dt gl : Option CStr) (mn mx : Int) (ic : Bool)
    (hpos : 0 ≤ max mn mx) (hpat : ∃ r, rexCompile pat = .ok r) :
    ∃ h : Hdr (Obj δ), argRexn so lo pat dt mn mx ic gl = .ok h ∧ h.mincount = mn ∧
      h.maxcount = max mn mx ∧ h.parent = .rex ⟨0, List.replicate (max mn mx).toNat []⟩ ∧
      h.shortopts = so ∧ h.longopts = lo ∧ h.datatype = some (dt.getD pat) ∧ h.glossary = gl ∧ h.hasValue = true := by
  rw [← foolproof_max] at hpos ⊢
  obtain ⟨r, hr⟩ := hpat
  exact ⟨_, by unfold argRexn; dsimp only; rw [arrayCells_ok hpos, hr]; rfl, rfl, rfl, rfl, rfl, rfl, rfl, rfl, rfl⟩

/-- C51.  `arg_end(n)` has room for exactly `n` errors; the member `count` is left uninitialised. -/
theorem C51_end (n : Nat) (junk : ErrRec) (c : Nat) :
    ∃ e, argEnd n junk c = .ok e ∧ e.maxcount = n ∧ e.slots.length = n ∧ e.count = c := by
  refine ⟨_, by unfold argEnd; rw [arrayCells_ok (by omega)]; rfl, rfl, ?_, rfl⟩
  simp

/-- C51.  The `0` and `1` variants make an entry with counts 0..1 and 1..1, with the given options and
glossary, and a default data type. -/
theorem C51_fixed (lc : Libc δ) (addr : Nat) (so lo dt fm gl : Option CStr) :
    (∀ x ∈ [((argLit0 so lo gl : Hdr (Obj δ)), (0 : Int)), (argLit1 so lo gl, 1)],
      x.1.mincount = x.2 ∧ x.1.maxcount = 1 ∧ x.1.parent = .lit 0 ∧
        x.1.shortopts = so ∧ x.1.longopts = lo ∧ x.1.datatype = none ∧ x.1.glossary = gl ∧ x.1.hasValue = false) ∧
    ∀ x ∈ [((argInt0 so lo dt gl : M (Hdr (Obj δ))), (0 : Int), cs "<int>", (.int ⟨0, [none]⟩ : Obj δ)),
        (argInt1 so lo dt gl, 1, cs "<int>", .int ⟨0, [none]⟩),
        (argDbl0 lc addr so lo dt gl, 0, cs "<double>", .dbl ⟨0, [none]⟩),
        (argDbl1 lc addr so lo dt gl, 1, cs "<double>", .dbl ⟨0, [none]⟩),
        (argStr0 so lo dt gl, 0, cs "<string>", .str ⟨0, [[]]⟩),
        (argStr1 so lo dt gl, 1, cs "<string>", .str ⟨0, [[]]⟩),
        (argFile0 so lo dt gl, 0, cs "<file>", .file ⟨0, [[]], [[]], [[]]⟩),
        (argFile1 so lo dt gl, 1, cs "<file>", .file ⟨0, [[]], [[]], [[]]⟩),
        (argDate0 lc so lo fm dt gl, 0, fm.getD (cs "%x"), .date ⟨0, [{}]⟩),
        (argDate1 lc so lo fm dt gl, 1, fm.getD (cs "%x"), .date ⟨0, [{}]⟩)],
      ∃ h, x.1 = .ok h ∧ h.mincount = x.2.1 ∧ h.maxcount = 1 ∧ h.parent = x.2.2.2 ∧
        h.shortopts = so ∧ h.longopts = lo ∧ h.datatype = some (dt.getD x.2.2.1) ∧ h.glossary = gl ∧ h.hasValue = true := by
  constructor
  · intro x hx
    simp only [List.mem_cons, List.not_mem_nil, or_false] at hx
    rcases hx with rfl | rfl <;> exact ⟨rfl, rfl, rfl, rfl, rfl, rfl, rfl, rfl⟩
  · intro x hx
    simp only [List.mem_cons, List.not_mem_nil, or_false] at hx
    rcases hx with rfl | rfl | rfl | rfl | rfl | rfl | rfl | rfl | rfl | rfl
    case inr.inr.inl =>
      refine ⟨_, rfl, rfl, rfl, ?_, rfl, rfl, rfl, rfl, rfl⟩
      show Obj.dbl ⟨0, List.replicate (dblCells addr 1) none⟩ = _
      rw [dblCells_eq]; rfl
    case inr.inr.inr.inl =>
      refine ⟨_, rfl, rfl, rfl, ?_, rfl, rfl, rfl, rfl, rfl⟩
      show Obj.dbl ⟨0, List.replicate (dblCells addr 1) none⟩ = _
      rw [dblCells_eq]; rfl
    all_goals exact ⟨_, rfl, rfl, rfl, rfl, rfl, rfl, rfl, rfl, rfl⟩

/-- C51.  The same for regular expressions. -/
theorem C51_fixed_rex (so lo dt gl : Option CStr) (pat : CStr) (ic : Bool) (hpat : ∃ r, rexCompile pat = .ok r) :
    ∀ x ∈ [((argRex0 so lo pat dt ic gl : M (Hdr (Obj δ))), (0 : Int)), (argRex1 so lo pat dt ic gl, 1)],
      ∃ h, x.1 = .ok h ∧ h.mincount = x.2 ∧ h.maxcount = 1 ∧ h.parent = .rex ⟨0, [[]]⟩ ∧
        h.shortopts = so ∧ h.longopts = lo ∧ h.datatype = some (dt.getD pat) ∧ h.glossary = gl ∧ h.hasValue = true := by
  obtain ⟨r, hr⟩ := hpat
  intro x hx
  simp only [List.mem_cons, List.not_mem_nil, or_false] at hx
  rcases hx with rfl | rfl
  · exact ⟨_, by dsimp only [argRex0]; unfold argRexn; dsimp only; rw [arrayCells_ok (by decide), hr]; rfl,
      rfl, rfl, rfl, rfl, rfl, rfl, rfl, rfl⟩
  · exact ⟨_, by dsimp only [argRex1]; unfold argRexn; dsimp only; rw [arrayCells_ok (by decide), hr]; rfl,
      rfl, rfl, rfl, rfl, rfl, rfl, rfl, rfl⟩

/-- C51.  A negative count makes every constructor with an array write outside its allocation. -/
theorem C51_negative (lc : Libc δ) (addr : Nat) (so lo dt fm gl : Option CStr) (pat : CStr) (ic : Bool)
    (mn mx : Int) (hneg : max mn mx < 0) :
    ∀ x ∈ [(argIntn so lo dt mn mx gl : M (Hdr (Obj δ))), argDbln lc addr so lo dt mn mx gl,
        argStrn so lo dt mn mx gl, argFilen so lo dt mn mx gl, argDaten lc so lo fm dt mn mx gl,
        argRexn so lo pat dt mn mx ic gl],
      x = .error (.ub "allocation smaller than the struct") := by
  have hc : arrayCells (foolproof mn mx) = .error (.ub "allocation smaller than the struct") := by
    rw [foolproof_max, arrayCells, if_pos hneg]
  intro x hx
  simp only [List.mem_cons, List.not_mem_nil, or_false] at hx
  rcases hx with rfl | rfl | rfl | rfl | rfl | rfl
  · unfold argIntn; dsimp only; rw [hc]; rfl
  · unfold argDbln; dsimp only; rw [hc]; rfl
  · unfold argStrn; dsimp only; rw [hc]; rfl
  · unfold argFilen; dsimp only; rw [hc]; rfl
  · unfold argDaten; dsimp only; rw [hc]; rfl
  · unfold argRexn; dsimp only; rw [hc]; rfl

example : (0 : Int) ≤ max 3 1 := by decide
example : ∃ r, rexCompile (cs "[a-z]+") = .ok r := by
  cases h : rexCompile (cs "[a-z]+") with
  | ok r => exact ⟨r, rfl⟩
  | error e =>
    have : (rexCompile (cs "[a-z]+")).isOk = true := by decide +kernel
    rw [h] at this; cases this

end Argtable
