import Verif.Proofs.Cells
import Verif.Proofs.Free
import Verif.Props.Print
import Verif.Props.Free
import Verif.Props.Demo
/-!
# The array that the client passes as a table (C85)
-/

namespace Argtable

open Spec

variable {σ : Type} {mem : ObjMem σ} {table : List (Option Nat)} {es : List (Hdr σ)}

/-- C85.  `arg_print_syntax` prints the line for the entries before the first NULL pointer or `arg_end`, whatever comes
after it. -/
theorem C85_syntax {e : TabEnd} (ht : TableAt mem table es e) (suffix : Option CStr) (hc : ∀ h ∈ es, CHdr h)
    (hl : ∀ h ∈ es, (fullOption h.shortopts h.longopts h.datatype h.hasOptValue).length ≤ 198) :
    printSyntaxTab mem table suffix = .ok (switchText es ++
      (es.filter (fun h => !Switch h)).flatMap (fun h =>
        let full := fullOption h.shortopts h.longopts h.datatype h.hasOptValue
        if full = [] then [] else entryText h full) ++ suffix.getD []) := by
  rw [← C45_syntax_exact es suffix hc hl, printSyntaxTab, printGnuswitchTab_eq ht, bind_ok,
    syntaxTab_eq ht 0 _ rfl (Nat.lt_succ_of_lt ht.length_lt)]
  rfl

/-- C85.  So does `arg_print_syntaxv`. -/
theorem C85_syntaxv {e : TabEnd} (ht : TableAt mem table es e) (suffix : Option CStr) (hc : ∀ h ∈ es, CHdr h)
    (hl : ∀ h ∈ es, (fullOptionv h.shortopts h.longopts h.datatype h.hasOptValue (cs "|")).length ≤ 198) :
    printSyntaxvTab mem table suffix = .ok (es.flatMap (fun h => entryText h
        (fullOptionv h.shortopts h.longopts h.datatype h.hasOptValue (cs "|"))) ++ suffix.getD []) := by
  rw [← C45_syntaxv_exact es suffix hc hl, printSyntaxvTab, syntaxvTab_eq ht 0 _ rfl (Nat.lt_succ_of_lt ht.length_lt)]
  rfl

/-- C85.  `arg_print_glossary` lists the entries before the first `arg_end` that have a description, whatever comes after it, if no
NULL pointer comes before it. -/
theorem C85_glossary {e : EndTbl} (ht : TableAt mem table es (.fin e)) (fmt2 : CStr → CStr → CStr) (hc : ∀ h ∈ es, CHdr h)
    (hl : ∀ h ∈ es, (fullOptionv h.shortopts h.longopts h.datatype h.hasOptValue (cs ", ")).length ≤ 198) :
    printGlossaryTab mem table fmt2 = .ok ((es.filter (fun h => h.glossary.isSome)).flatMap
      (fun h => fmt2 (fullOptionv h.shortopts h.longopts h.datatype h.hasOptValue (cs ", "))
        (h.glossary.getD []))) := by
  rw [← C47_glossary_exact fmt2 es hc hl, printGlossaryTab, glossaryTab_eq fmt2 ht rfl 0 _ rfl (Nat.lt_succ_of_lt ht.length_lt)]

/-- C85.  So does `arg_print_glossary_gnu`. -/
theorem C85_gnu {e : EndTbl} (ht : TableAt mem table es (.fin e)) (hc : ∀ h ∈ es, CHdr h) (fuel : Nat)
    (hg : ∀ h ∈ es, ∀ g, h.glossary = some g → g.length < 2 ^ 32 - 1 ∧ g.length < fuel) :
    ∃ ts, List.Forall₂ GnuEntry (es.filter (fun h => h.glossary.isSome)) ts ∧
      printGlossaryGnuTab mem table fuel = .ok (ts.flatten ++ cs "\n") := by
  obtain ⟨ts, h, e⟩ := C47_gnu es hc fuel hg
  refine ⟨ts, h, ?_⟩
  rw [← e, printGlossaryGnuTab, gnuTab_eq fuel ht rfl 0 _ rfl (Nat.lt_succ_of_lt ht.length_lt)]
  rfl

/-- C85.  `arg_parse` works with the entries before the first `arg_end`, and with this `arg_end`, whatever comes after it, if no NULL
pointer comes before it. -/
theorem C85_parse {e : EndTbl} (ht : TableAt mem table es (.fin e)) (env : Bool) (fuel : Nat) (argv : List CStr) (g : GState) :
    argParseTab mem env fuel argv table g = argParse env fuel argv ⟨es, e⟩ g := by
  rw [argParseTab, walkTab_eq ht rfl 0 _ rfl (Nat.lt_succ_of_lt ht.length_lt)]
  rfl

/-- C85.  (The limit.)  If a NULL pointer comes before the first `arg_end` then `arg_parse` reads through it, and neither function
for the glossary gets to an end. -/
theorem C85_hole (ht : TableAt mem table es .null) :
    (∀ env fuel argv g, argParseTab mem env fuel argv table g = .error (.ub "NULL pointer in the table")) ∧
    (∀ fmt2 out, printGlossaryTab mem table fmt2 ≠ .ok out) ∧
    ∀ fuel out, printGlossaryGnuTab mem table fuel ≠ .ok out := by
  refine ⟨fun env fuel argv g => ?_, fun fmt2 out h => ?_, fun fuel out h => ?_⟩
  · rw [argParseTab, walkTab_null ht rfl 0 _ rfl (Nat.lt_succ_of_lt ht.length_lt)]
    rfl
  · obtain ⟨es', e, h'⟩ := glossaryTab_shows fmt2 _ _ _ h
    cases (ht.unique h').2
  · rw [printGlossaryGnuTab] at h
    obtain ⟨o, ho, h⟩ := mbind_ok_inv h
    obtain ⟨es', e, h'⟩ := gnuTab_shows fuel _ _ _ ho
    cases (ht.unique h').2

/-- C85.  (The limit.)  The array must have an `arg_end` or a NULL pointer, and all pointers before it must be those of objects, for
the two functions for the syntax to be defined; and an `arg_end` for the others. -/
theorem C85_needed :
    ((∃ suffix out, printSyntaxTab mem table suffix = .ok out) → ∃ es e, TableAt mem table es e) ∧
    ((∃ suffix out, printSyntaxvTab mem table suffix = .ok out) → ∃ es e, TableAt mem table es e) ∧
    ((∃ fmt2 out, printGlossaryTab mem table fmt2 = .ok out) → ∃ es e, TableAt mem table es (.fin e)) ∧
    ((∃ fuel out, printGlossaryGnuTab mem table fuel = .ok out) → ∃ es e, TableAt mem table es (.fin e)) ∧
    ((∃ env fuel argv g r, argParseTab mem env fuel argv table g = .ok r) → ∃ es e, TableAt mem table es (.fin e)) := by
  refine ⟨fun ⟨s, o, h⟩ => ?_, fun ⟨s, o, h⟩ => ?_, fun ⟨s, o, h⟩ => glossaryTab_shows s _ _ _ h, fun ⟨s, o, h⟩ => ?_,
    fun ⟨env, fuel, argv, g, r, h⟩ => ?_⟩
  · rw [printSyntaxTab] at h
    obtain ⟨o, ho, h⟩ := mbind_ok_inv h
    rw [printGnuswitchTab] at ho
    obtain ⟨o', ho', _⟩ := mbind_ok_inv ho
    exact gnuswitchTab_shows _ _ _ _ _ ho'
  · rw [printSyntaxvTab] at h
    obtain ⟨o, ho, h⟩ := mbind_ok_inv h
    exact syntaxvTab_shows _ _ _ ho
  · rw [printGlossaryGnuTab] at h
    obtain ⟨o, ho, h⟩ := mbind_ok_inv h
    exact gnuTab_shows _ _ _ _ ho
  · rw [argParseTab] at h
    obtain ⟨o, ho, h⟩ := mbind_ok_inv h
    exact ⟨_, _, walkTab_shows _ _ _ ho⟩

/-- What `arg_nullcheck` returns. -/
def nullResult : TabEnd → Int
  | .null => 1
  | .fin _ => 0

theorem nullcheck_table {es : List (Hdr σ)} {e : TabEnd} {l : List (Option Nat)} (h : TableAt mem l es e) :
    ∀ (i fuel : Nat), table.drop i = l → es.length < fuel →
      nullcheckLoop mem.flags table fuel i = .ok (nullResult e) := by
  induction h with
  | null rest =>
    intro i fuel hl hf
    obtain ⟨n, rfl⟩ : ∃ n, fuel = n + 1 := ⟨fuel - 1, by simp at hf; omega⟩
    rw [nullcheckLoop, slot_head hl]; rfl
  | fin rest hp =>
    intro i fuel hl hf
    obtain ⟨n, rfl⟩ : ∃ n, fuel = n + 1 := ⟨fuel - 1, by simp at hf; omega⟩
    rw [nullcheckLoop, slot_head hl, bind_ok]
    simp only [termFlag, ObjMem.flags, hp]; rfl
  | @entry q x rest es e hp _ ih =>
    intro i fuel hl hf
    obtain ⟨n, rfl⟩ : ∃ n, fuel = n + 1 := ⟨fuel - 1, by simp at hf; omega⟩
    have hn : es.length < n := by simp at hf; omega
    rw [nullcheckLoop, slot_head hl, bind_ok, ← ih _ n (drop_head hl).2 hn]
    simp only [termFlag, ObjMem.flags, hp]; rfl

theorem nullcheck_shows : ∀ (fuel i : Nat) (r : Int), nullcheckLoop mem.flags table fuel i = .ok r →
    ∃ es e, TableAt mem (table.drop i) es e
  | 0, _, _, h => by cases h
  | fuel + 1, i, r, h => by
    rw [nullcheckLoop] at h
    obtain ⟨o, ho, h⟩ := mbind_ok_inv h
    have hd : table.drop i = o :: table.drop (i + 1) := by
      unfold slot at ho
      cases hi : table[i]? with
      | none => rw [hi] at ho; cases ho
      | some q =>
        rw [hi] at ho; cases ho
        obtain ⟨hlt, he⟩ := List.getElem?_eq_some_iff.1 hi
        rw [← he]; exact List.drop_eq_getElem_cons hlt
    cases o with
    | none => exact ⟨[], .null, by rw [hd]; exact .null _⟩
    | some p =>
      simp only at h
      obtain ⟨b, hb, h⟩ := mbind_ok_inv h
      cases hp : mem p with
      | none => simp only [termFlag, ObjMem.flags, hp] at hb; cases hb
      | some x =>
        cases x with
        | fin e => exact ⟨[], .fin e, by rw [hd]; exact .fin _ hp⟩
        | entry x =>
          simp only [termFlag, ObjMem.flags, hp] at hb
          cases hb
          obtain ⟨es, e, hs⟩ := nullcheck_shows fuel (i + 1) r h
          exact ⟨x :: es, e, by rw [hd]; exact .entry hp hs⟩

/-- C85.  `arg_nullcheck` tells the two cases apart: it returns 1 iff a NULL pointer ends the table, and 0 iff an `arg_end` does. -/
theorem C85_nullcheck :
    (argNullcheck mem.flags (some table) = .ok 1 ↔ ∃ es, TableAt mem table es .null) ∧
    (argNullcheck mem.flags (some table) = .ok 0 ↔ ∃ es e, TableAt mem table es (.fin e)) := by
  have key : ∀ r, argNullcheck mem.flags (some table) = .ok r → ∃ es e, TableAt mem table es e := fun r h =>
    nullcheck_shows _ _ _ h
  have val : ∀ es e, TableAt mem table es e →
      argNullcheck mem.flags (some table) = .ok (nullResult e) := fun es e ht =>
    nullcheck_table ht 0 _ rfl (Nat.lt_succ_of_lt ht.length_lt)
  refine ⟨⟨fun h => ?_, fun ⟨es, ht⟩ => val _ _ ht⟩, ⟨fun h => ?_, fun ⟨es, e, ht⟩ => val _ _ ht⟩⟩
  · obtain ⟨es, e, ht⟩ := key _ h
    rw [val _ _ ht] at h
    cases e with
    | null => exact ⟨es, ht⟩
    | fin e => cases h
  · obtain ⟨es, e, ht⟩ := key _ h
    rw [val _ _ ht] at h
    cases e with
    | null => cases h
    | fin e => exact ⟨es, e, ht⟩

/-- C85.  A program that goes on only if `arg_nullcheck` returned 0 never has a NULL pointer read by `arg_parse`, and the table it
parses with is the one of which it can print the syntax. -/
theorem C85_checked (h : argNullcheck mem.flags (some table) = .ok 0) :
    ∃ es e, TableAt mem table es (.fin e) ∧
      (∀ env fuel argv g, argParseTab mem env fuel argv table g = argParse env fuel argv ⟨es, e⟩ g) ∧
      ∀ more env fuel argv g, argParseTab mem env fuel argv (table ++ more) g = argParseTab mem env fuel argv table g := by
  obtain ⟨es, e, ht⟩ := C85_nullcheck.2.1 h
  refine ⟨es, e, ht, fun env fuel argv g => C85_parse ht env fuel argv g, fun more env fuel argv g => ?_⟩
  rw [C85_parse ht, C85_parse (ht.append more)]

namespace CellsDemo

/-- Two objects, and an `arg_end` at address 9. -/
def heap : ObjMem (Obj Unit) := fun p =>
  if p = 3 then some (.entry Demo.a) else if p = 5 then some (.entry Demo.f) else if p = 9 then some (.fin Demo.fin) else none

/-- After the `arg_end` come a NULL pointer and a dangling one. -/
def whole : List (Option Nat) := [some 3, some 5, some 9, none, some 77]

/-- A table with a hole: `arg_file1` failed, say. -/
def holed : List (Option Nat) := [some 3, none, some 9]

theorem whole_at : TableAt heap whole [Demo.a, Demo.f] (.fin Demo.fin) :=
  .entry (p := 3) rfl (.entry (p := 5) rfl (.fin (p := 9) _ rfl))

theorem holed_at : TableAt heap holed [Demo.a] .null := .entry (p := 3) rfl (.null _)

example : printSyntaxvTab heap whole none = .ok (cs " [-a|--all|--almost] [-a|--all|--almost] FILE [FILE] [FILE]") := by
  decide +kernel

example : printSyntaxvTab heap holed (some (cs "\n")) = .ok (cs " [-a|--all|--almost] [-a|--all|--almost]\n") := by
  decide +kernel

example : printSyntaxTab heap holed none = .ok (cs " [-a]") := by decide +kernel

example : argNullcheck heap.flags (some whole) = .ok 0 ∧ argNullcheck heap.flags (some holed) = .ok 1 := by decide +kernel

/-- The hypotheses of `C85_syntax`, `C85_syntaxv` and `C85_glossary`. -/
example : ∀ h ∈ [Demo.a, Demo.f], CHdr h ∧
    (fullOption h.shortopts h.longopts h.datatype h.hasOptValue).length ≤ 198 ∧
    (fullOptionv h.shortopts h.longopts h.datatype h.hasOptValue (cs "|")).length ≤ 198 ∧
    (fullOptionv h.shortopts h.longopts h.datatype h.hasOptValue (cs ", ")).length ≤ 198 := by decide +kernel

/-- That of `C85_gnu`. -/
example : ∀ h ∈ [Demo.a, Demo.f], ∀ g, h.glossary = some g → g.length < 2 ^ 32 - 1 ∧ g.length < 1000 := by
  intro h hh g hg
  have key : ∀ h ∈ [Demo.a, Demo.f], (h.glossary.getD []).length < 1000 := by decide +kernel
  have := key h hh
  rw [hg] at this
  exact ⟨by simp at this; omega, this⟩

example : ∀ out, printGlossaryTab heap holed defaultGlossary ≠ .ok out := (C85_hole holed_at).2.1 _

end CellsDemo

end Argtable
