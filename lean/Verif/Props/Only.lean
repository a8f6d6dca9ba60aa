import Verif.Proofs.OnlyContext
import Verif.Proofs.Checks
import Verif.Props.Demo
import Verif.Props.Parse
/-!
# C69: a build with `ARG_LONG_ONLY`
-/

namespace Argtable
open Spec

variable {σ δ : Type} {env : Bool} {t : Table σ} {m : Nat}

/-- C69.  In a build with `ARG_LONG_ONLY` the outcome of `arg_parse` is that of reading the command line from left to
right, where an option argument is first read as a long option (`tokenizeOnly`): `arg_parse` returns exactly when the
meaning of the reading is defined, and leaves exactly that meaning behind. -/
theorem C69_refinement (hend : EndOK m t.fin) (hwf : WF (t.entries.map declOf)) {argv : List CStr}
    (hargs : CArgs argv.tail) {evs : List Ev} {ops : List CStr}
    (htok : tokenizeOnly (t.entries.map declOf) env argv.tail = some (evs, ops)) :
    ReadsAsOnly env t m argv evs ops ∧
    ∀ g r, ReturnsOnly env argv t g r →
      ∃ es errs, meaning t.entries evs ops = .ok (es, errs) ∧ Shows m argv g es errs r :=
  ⟨readsAsOnly_of_tokenize hend hwf hargs htok,
   fun g _ hr => returns_invOnly env t m hend hwf argv hargs g htok hr⟩

/-- The only command lines without a reading are those on which `arg_parse` does not return. -/
theorem C69_complete (hend : EndOK m t.fin) (hwf : WF (t.entries.map declOf)) {argv : List CStr}
    (hargs : CArgs argv.tail) {g : GState} {r : Nat × Table σ × GState}
    (h : ReturnsOnly env argv t g r) :
    ∃ evs ops es errs, tokenizeOnly (t.entries.map declOf) env argv.tail = some (evs, ops) ∧
      meaning t.entries evs ops = .ok (es, errs) ∧ Shows m argv g es errs r := by
  cases htok : tokenizeOnly (t.entries.map declOf) env argv.tail with
  | none => exact absurd h (argParse_hungOnly env t hwf argv hargs g htok r)
  | some p =>
    obtain ⟨es, errs, h1, h2⟩ := returns_invOnly env t m hend hwf argv hargs g htok h
    exact ⟨p.1, p.2, es, errs, rfl, h1, h2⟩

/-- `prog x -verb -number=3 -ou res -va --almost -p -n -4 -pred y -- -a`.  `-ou` is ambiguous although `out` and
`output` are the same option, so `res` is an operand. -/
example : ReadsAsOnly false Demo.table 4
    [cs "prog", cs "x", cs "-verb", cs "-number=3", cs "-ou", cs "res", cs "-va", cs "--almost", cs "-p", cs "-n",
     cs "-4", cs "-pred", cs "y", cs "--", cs "-a"]
    [.deliver 1 none, .deliver 2 (some (cs "3")), .fail ARG_ELONGOPT (some (cs "-ou")), .deliver 1 none,
     .deliver 0 none, .deliver 0 none, .deliver 4 none, .deliver 2 (some (cs "-4")), .deliver 4 (some (cs "red"))]
    [cs "x", cs "res", cs "y", cs "-a"] :=
  (C69_refinement Demo.finOK Demo.wf (by decide) (by decide)).1

/-- C69: with a table made by the constructors the call ends, by returning or by performing one of the undefined
operations in `Hazard`, if the command line has a reading. -/
theorem C69_terminates {t : Table (Obj δ)} (hend : EndOK m t.fin)
    (hwf : WF (t.entries.map declOf)) (hl : ∀ h ∈ t.entries, Live lc AnyPat h) (argv : List CStr)
    (hargs : CArgs argv.tail) (g : GState)
    (hst : tokenizeOnly (t.entries.map declOf) env argv.tail ≠ none) :
    (∃ r, ReturnsOnly env argv t g r) ∨ ∃ w, CrashesOnly env argv t g w ∧ Hazard (.ub w) := by
  cases htok : tokenizeOnly (t.entries.map declOf) env argv.tail with
  | none => exact absurd htok hst
  | some q =>
    have hread := readsAsOnly_of_tokenize (env := env) hend hwf hargs htok g
    have hg := meaning_good (lawful_live lc (R := AnyPat) (A := AnyArg) (E := Hazard)
      (Or.inl .overflow) (Or.inl ⟨.nullRegex, .pastText⟩)) hl (ops := q.2)
      (tokenizeOnly_evOK _ _ _ _ (Nat.le_refl _) _ _ htok) (argsIn_any q.1 q.2)
    cases hm : meaning t.entries q.1 q.2 with
    | ok p =>
      rw [hm] at hread
      obtain ⟨r, hr, _⟩ := hread
      exact Or.inl ⟨r, hr⟩
    | error e =>
      rw [hm] at hread hg
      have hg : Hazard e := hg
      cases hg with
      | overflow => exact Or.inr ⟨_, hread, .overflow⟩
      | nullRegex => exact Or.inr ⟨_, hread, .nullRegex⟩
      | pastText => exact Or.inr ⟨_, hread, .pastText⟩

example : (∃ r, ReturnsOnly false [cs "prog", cs "x", cs "-verb", cs "-ou", cs "res", cs "-an", cs "7"] Demo.table
      Demo.g0 r) ∨
    ∃ w, CrashesOnly false [cs "prog", cs "x", cs "-verb", cs "-ou", cs "res", cs "-an", cs "7"] Demo.table Demo.g0 w ∧
      Hazard (.ub w) :=
  C69_terminates Demo.finOK Demo.wf (Demo.live AnyPat) _ (by decide) _ (by decide)

/-- C69: a long option under its full name may be given with one dash or with two, whatever short options there are.
`l` is the first long option with this name. -/
theorem C69_single_dash (hend : EndOK m t.fin) (hwf : WF (t.entries.map declOf)) {l : Long}
    (hl : (longTable (t.entries.map declOf) 0).find? (fun k => k.name == l.name) = some l)
    (heq : '=' ∉ l.name) (hne : l.name ≠ []) (hd : l.name.head? ≠ some '-') (a0 : CStr) {pre post : List CStr}
    {body : CStr} (hpre : CompleteOnly env (t.entries.map declOf) pre) (hb : FullName l body post)
    (hargs : CArgs (pre ++ body :: post)) :
    SameEffectOnly env t (a0 :: (pre ++ ('-' :: body) :: post)) (a0 :: (pre ++ ('-' :: '-' :: body) :: post)) := by
  refine sameEffectOnly_of_tokenize env t m hend hwf _ _ ?_ ?_ ?_
  · intro b hb
    simp only [List.tail_cons, List.mem_append, List.mem_cons] at hb
    rcases hb with hb | rfl | hb
    · exact hargs b (by simp [hb])
    · intro h
      rcases List.mem_cons.1 h with h | h
      · exact absurd h (by decide)
      · exact hargs body (by simp) h
    · exact hargs b (by simp [hb])
  · intro b hb
    simp only [List.tail_cons, List.mem_append, List.mem_cons] at hb
    rcases hb with hb | rfl | hb
    · exact hargs b (by simp [hb])
    · intro h
      rcases List.mem_cons.1 h with h | h
      · exact absurd h (by decide)
      · rcases List.mem_cons.1 h with h | h
        · exact absurd h (by decide)
        · exact hargs body (by simp) h
    · exact hargs b (by simp [hb])
  · exact completeOnly_congr hpre (fullName_swap hl heq hne hd hb)

/-- `prog x -va -output res y` and `prog x -va --output res y`; `o` is also a short option with a value -/
example : SameEffectOnly false Demo.table [cs "prog", cs "x", cs "-va", cs "-output", cs "res", cs "y"]
    [cs "prog", cs "x", cs "-va", cs "--output", cs "res", cs "y"] :=
  C69_single_dash (m := 4) Demo.finOK Demo.wf (l := ⟨cs "output", 3, .req⟩) (by decide) (by decide) (by decide)
    (by decide) (cs "prog") (pre := [cs "x", cs "-va"]) (post := [cs "res", cs "y"]) (body := cs "output")
    (.operand (by decide) rfl (.option (evs := [.deliver 1 none, .deliver 0 none]) (by decide) (fun _ => rfl) .nil))
    (.separate (l := ⟨cs "output", 3, .req⟩) (cs "res") [cs "y"] rfl (by decide)) (by decide)

/-- C69: the build option changes nothing for a command line in which every option argument is either a long option
with two dashes whose name is complete or the beginning of at most one long name, or a cluster of declared letters no
end piece of which can be taken for a long name. -/
theorem C69_agrees (hend : EndOK m t.fin) (hwf : WF (t.entries.map declOf)) {argv : List CStr}
    (hargs : CArgs argv.tail) (h : Plain env (t.entries.map declOf) argv.tail) : SameInBoth env t argv :=
  sameInBoth_of_tokenize env t m hend hwf argv hargs (tokenizeOnly_eq h)

/-- `prog x -va --num=3 -p --output -verb -n -4 -pred y -- -out` -/
example : SameInBoth false Demo.table
    [cs "prog", cs "x", cs "-va", cs "--num=3", cs "-p", cs "--output", cs "-verb", cs "-n", cs "-4", cs "-pred", cs "y",
     cs "--", cs "-out"] := by
  have hl : ∀ {c : Char} {tl : CStr} (i : Nat) (k : ValKind), c ≠ '-' →
      namedOnly (longTable (Demo.table.entries.map declOf) 0) true ((c :: tl).takeWhile (· ≠ '=')) = .unknown →
      shortLookup c (Demo.table.entries.map declOf) 0 = some (i, k) →
      (k = .no → Letters (Demo.table.entries.map declOf) tl) → Letters (Demo.table.entries.map declOf) (c :: tl) :=
    fun i k h1 h2 h3 h4 => ⟨h1, h2, i, k, h3, h4⟩
  refine C69_agrees (m := 4) Demo.finOK Demo.wf (by decide) ?_
  refine .operand (by decide) fun _ => ?_
  refine .option (by decide) (Or.inr (hl 1 .no (by decide) (by decide) (by decide)
      (fun _ => hl 0 .no (by decide) (by decide) (by decide) (fun _ => trivial)))) (by decide) ?_
  refine .option (by decide) (Or.inl ⟨cs "num=3", rfl, Or.inr (by decide)⟩) (by decide) ?_
  refine .option (by decide) (Or.inr (hl 4 .opt (by decide) (by decide) (by decide) (by simp))) (by decide) ?_
  refine .withValue (by decide)
    (Or.inl ⟨cs "output", rfl, Or.inl ⟨⟨cs "output", 3, .req⟩, by decide, rfl⟩⟩) (by decide) ?_
  refine .withValue (by decide) (Or.inr (hl 2 .req (by decide) (by decide) (by decide) (by simp))) (by decide) ?_
  refine .option (by decide) (Or.inr (hl 4 .opt (by decide) (by decide) (by decide) (by simp))) (by decide) ?_
  exact .operand (by decide) fun _ => .dashDash _

/-- C69: the infinite loop of C01 is not affected by the build option: `prog -a-` with a flag `-a`. -/
theorem C69_hangs : ∀ r, ¬ ReturnsOnly false [cs "prog", cs "-a-"] Demo.flagTable Demo.g0 r := by
  refine argParse_hungOnly false Demo.flagTable ?_ _ (by decide) _ (by decide)
  have e : Demo.flagTable.entries.map declOf = [⟨false, false, some (cs "a"), none⟩] := rfl
  rw [e]
  intro d hd
  simp only [List.mem_singleton] at hd
  subst hd
  exact ⟨by intro s h; cases h; decide, by intro s h; cases h⟩

/-- The condition on the end pieces of a cluster in `C69_agrees` is needed: in `-vout` the letter `v` is followed by the
long name `out`, so the build option turns the value `ut` of `-o` into the next argument. -/
theorem C69_swallowed :
    ReadsAs false Demo.table 4 [cs "prog", cs "-vout", cs "x"] [.deliver 1 none, .deliver 3 (some (cs "ut"))] [cs "x"] ∧
    ReadsAsOnly false Demo.table 4 [cs "prog", cs "-vout", cs "x"] [.deliver 1 none, .deliver 3 (some (cs "x"))] [] :=
  ⟨readsAs_of_tokenize Demo.finOK Demo.wf (by decide) (by decide),
   (C69_refinement Demo.finOK Demo.wf (by decide) (by decide)).1⟩

end Argtable
