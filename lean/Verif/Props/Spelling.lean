import Verif.Proofs.Spelling
import Verif.Props.Cmdline
import Verif.Props.Stored
/-!
# Spelling and order of options (C58, C59)
-/

namespace Argtable

open Spec

variable {σ δ : Type} {env : Bool} {m : Nat} {t : Table σ}

/-- C58.  Options may be spelled in any way: if the option arguments `as` and `bs` give the same values to the same
entries in the same order, then `as` may be replaced by `bs` anywhere before `--` (and before the first operand, under
POSIXLY_CORRECT) without any effect on the outcome of `arg_parse`.  Short and long names, abbreviations, clusters,
attached and separate values are all covered. -/
theorem C58_spelling (hend : EndOK m t.fin) (hwf : WF (t.entries.map declOf)) (a0 : CStr) (pre as bs post : List CStr)
    (hpre : stillOn env (t.entries.map declOf) pre = true) {gs : List (Nat × Option CStr)}
    (has : Options (t.entries.map declOf) as gs) (hbs : Options (t.entries.map declOf) bs gs)
    (hargs : CArgs (pre ++ (as ++ post))) (hargs' : CArgs (pre ++ (bs ++ post))) :
    SameEffect env t (a0 :: (pre ++ (as ++ post))) (a0 :: (pre ++ (bs ++ post))) := by
  refine sameEffect_of_tokenize env t m hend hwf _ _ hargs hargs' ?_
  rw [List.tail_cons, List.tail_cons, stillOn_append hpre, stillOn_append hpre, options_tokenize has,
    options_tokenize hbs]

namespace Demo

theorem denotes_demo {q : CStr} {l : Long} (h : resolve (longTable (table.entries.map declOf) 0) q = some l) :
    Denotes (longTable (table.entries.map declOf) 0) q l := denotes_of_resolve h

/-- `-vao x.txt -n 3`. -/
theorem spelled_short : Options (table.entries.map declOf) [cs "-vao", cs "x.txt", cs "-n", cs "3"]
    [(1, none), (0, none), (3, some (cs "x.txt")), (2, some (cs "3"))] := by
  refine .optionValue (body := cs "vao") (g := [(1, none), (0, none), (3, some (cs "x.txt"))]) ?_ ?_
  · exact .flag (by decide) (by decide) (.flag (by decide) (by decide) (.separate (by decide) (by decide)))
  · refine .optionValue (body := cs "n") (g := [(2, some (cs "3"))]) (.separate (by decide) (by decide)) .nil

/-- `--verb --all --out=x.txt --number 3`. -/
theorem spelled_long : Options (table.entries.map declOf)
    [cs "--verb", cs "--all", cs "--out=x.txt", cs "--number", cs "3"]
    [(1, none), (0, none), (3, some (cs "x.txt")), (2, some (cs "3"))] := by
  refine .option (body := cs "-verb") (g := [(1, none)]) (by decide) ?_ ?_
  · exact .long (l := ⟨cs "verbose", 1, .no⟩) (by decide) (by decide) (denotes_demo (by decide)) (by decide)
  refine .option (body := cs "-all") (g := [(0, none)]) (by decide) ?_ ?_
  · exact .long (l := ⟨cs "all", 0, .no⟩) (by decide) (by decide) (denotes_demo (by decide)) (by decide)
  refine .option (body := cs "-out=x.txt") (g := [(3, some (cs "x.txt"))]) (by decide) ?_ ?_
  · exact .longValue (p := cs "out") (v := cs "x.txt") (l := ⟨cs "out", 3, .req⟩) (by decide) (denotes_demo (by decide))
      (by decide) (by intro h; cases h)
  refine .optionValue (body := cs "-number") (g := [(2, some (cs "3"))]) ?_ .nil
  exact .longSeparate (l := ⟨cs "number", 2, .req⟩) (by decide) (by decide) (denotes_demo (by decide)) rfl
    (by intro h; cases h)

/-- `-n3 -ox.txt -av`, another order. -/
theorem spelled_other : Options (table.entries.map declOf) [cs "-n3", cs "-ox.txt", cs "-av"]
    [(2, some (cs "3")), (3, some (cs "x.txt")), (0, none), (1, none)] := by
  refine .option (body := cs "n3") (g := [(2, some (cs "3"))]) (by decide) ?_ ?_
  · exact .attached (k := .req) (by decide) (by decide) (by decide) (by decide)
  refine .option (body := cs "ox.txt") (g := [(3, some (cs "x.txt"))]) (by decide) ?_ ?_
  · exact .attached (k := .req) (by decide) (by decide) (by decide) (by decide)
  refine .option (body := cs "av") (g := [(0, none), (1, none)]) (by decide) ?_ .nil
  exact .flag (by decide) (by decide) (.flag (by decide) (by decide) .stop)

end Demo

example : SameEffect false Demo.table
    [cs "prog", cs "in", cs "-v", cs "-vao", cs "x.txt", cs "-n", cs "3", cs "-p"]
    [cs "prog", cs "in", cs "-v", cs "--verb", cs "--all", cs "--out=x.txt", cs "--number", cs "3", cs "-p"] :=
  C58_spelling Demo.finOK Demo.wf (cs "prog") [cs "in", cs "-v"] _ _ [cs "-p"] (by decide) Demo.spelled_short
    Demo.spelled_long (by decide) (by decide)

/-- C59.  The order of options matters only among the options of one entry: if the option arguments `as` and `bs`
give each entry the same values in the same order, then replacing `as` by `bs` changes neither the return value of
`arg_parse` nor what any entry holds. -/
theorem C59_order (hend : EndOK m t.fin) (hwf : WF (t.entries.map declOf)) (a0 : CStr) (pre as bs post : List CStr)
    (hpre : stillOn env (t.entries.map declOf) pre = true) {gs gs' : List (Nat × Option CStr)}
    (has : Options (t.entries.map declOf) as gs) (hbs : Options (t.entries.map declOf) bs gs')
    (hsame : ∀ i, given gs i = given gs' i)
    (hargs : CArgs (pre ++ (as ++ post))) (hargs' : CArgs (pre ++ (bs ++ post))) (g g' : GState)
    {r : Nat × Table σ × GState} (hr : Returns env (a0 :: (pre ++ (as ++ post))) t g r) :
    ∃ r', Returns env (a0 :: (pre ++ (bs ++ post))) t g' r' ∧ r'.1 = r.1 ∧ r'.2.1.entries = r.2.1.entries := by
  obtain ⟨evs, ops, es, errs, h1, h2, h3⟩ := C02_complete hend hwf (argv := a0 :: (pre ++ (as ++ post))) hargs hr
  rw [List.tail_cons, stillOn_append hpre, options_tokenize has] at h1
  unfold joinRead at h1
  cases h4 : tokenize (t.entries.map declOf) env pre with
  | none => rw [h4] at h1; cases h1
  | some p =>
    cases h5 : tokenize (t.entries.map declOf) env post with
    | none => rw [h4, h5] at h1; cases h1
    | some q =>
      rw [h4, h5] at h1
      cases h1
      obtain ⟨errs', h6, h7⟩ := meaning_rearranged hsame h2
      have htok : tokenize (t.entries.map declOf) env (a0 :: (pre ++ (bs ++ post))).tail
          = some (p.1 ++ (gs'.map dlv ++ q.1), p.2 ++ q.2) := by
        rw [List.tail_cons, stillOn_append hpre, options_tokenize hbs, h4, h5]
        rfl
      have hread := readsAs_of_tokenize (env := env) hend hwf (argv := a0 :: (pre ++ (bs ++ post))) hargs' htok g'
      rw [h6] at hread
      obtain ⟨r', hr', hs'⟩ := hread
      exact ⟨r', hr', by rw [hs'.ret, h3.ret, h7], by rw [hs'.entries, h3.entries]⟩

example : ∃ r, Returns false [cs "prog", cs "in", cs "-n3", cs "-ox.txt", cs "-av", cs "-n4"] Demo.table Demo.g0 r ∧ r.1 = 0 ∧
    r.2.1.entries.map (·.parent.count) = [1, 1, 2, 1, 0, 0, 1] := by
  obtain ⟨r0, h0, hs⟩ := readsAs_of_tokenize (t := Demo.table) (env := false) Demo.finOK Demo.wf
    (argv := cs "prog" :: ([cs "in"] ++ ([cs "-vao", cs "x.txt", cs "-n", cs "3"] ++ [cs "-n4"]))) (by decide)
    (evs := [.deliver 1 none, .deliver 0 none, .deliver 3 (some (cs "x.txt")), .deliver 2 (some (cs "3")),
      .deliver 2 (some (cs "4"))]) (ops := [cs "in"]) (by decide) Demo.g0
  obtain ⟨r, h1, h2, h3⟩ := C59_order (t := Demo.table) (env := false) Demo.finOK Demo.wf (cs "prog") [cs "in"]
    _ _ [cs "-n4"] (by decide) Demo.spelled_short Demo.spelled_other (fun i => by
      match i with
      | 0 => rfl
      | 1 => rfl
      | 2 => rfl
      | 3 => rfl
      | i + 4 => simp [given]) (by decide) (by decide) Demo.g0 Demo.g0 h0
  exact ⟨r, h1, by rw [h2, hs.ret]; rfl, by rw [h3, hs.entries]; rfl⟩

end Argtable
