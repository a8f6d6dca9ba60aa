import Verif.Proofs.Usage
import Verif.Props.Print
import Verif.Props.Express
import Verif.Props.Spelling
/-!
# Following the usage line (C92)
-/

namespace Argtable

open Spec

variable {σ δ : Type} {lc : Libc δ} {env : Bool} {m : Nat}

/-- C92.  The usage line shows each mention of an entry as the arguments that a plan writes for it, with the data type (in
brackets if the value may be left out) in place of the value. -/
theorem C92_printed (es : List (Hdr σ)) (suffix : Option CStr) (hc : ∀ h ∈ es, CHdr h)
    (hl : ∀ h ∈ es, (fullOption h.shortopts h.longopts h.datatype h.hasOptValue).length ≤ 198) :
    printSyntax es suffix = .ok (switchText es ++
      (es.filter (fun h => !Switch h)).flatMap (fun h =>
        let m := [' '].intercalate (mentionArgs h (h.datatype.map fun d => valueText d h.hasOptValue))
        if m = [] then [] else entryText h m) ++ suffix.getD []) := by
  rw [C45_syntax_exact es suffix hc hl]
  simp only [fullOption_mention]

/-- C92.  If nothing is optional, the usage line is itself the command line of a plan: each argument after a blank, each value
shown as its data type. -/
theorem C92_literal (es : List (Hdr σ)) (hc : ∀ h ∈ es, CHdr h)
    (hl : ∀ h ∈ es, (fullOption h.shortopts h.longopts h.datatype h.hasOptValue).length ≤ 198)
    (hs : ∀ h ∈ es, Switch h = true → 1 ≤ h.mincount) (he : ∀ h ∈ es, Switch h = false → h.maxcount = h.mincount)
    (hn : ∀ h ∈ es, h.shortopts ≠ some [] ∧ h.datatype ≠ some []) :
    printSyntax es none = .ok (spaced (followed (es.map fun h =>
      (h, if Switch h then [none]
          else List.replicate h.mincount.toNat (h.datatype.map fun d => valueText d h.hasOptValue))))) := by
  rw [C92_printed es none hc hl]
  simp only [literal_eq es hs he hn, Option.getD_none, List.append_nil]

/-- C92.  Following the usage line works.  Take any plan that obeys the usage line, with values that the entries admit and
operands that are not wanted by an entry before (or refused for lack of a place): the command line is accepted, and each
entry stores exactly the values that were written for it.  Under POSIXLY_CORRECT the operands must come last in the table. -/
theorem C92_follow {plan : List (Hdr (Obj δ) × List (Option CStr))} {fin : EndTbl} (hend : EndOK m fin)
    (hwf : WF (plan.map fun p => declOf p.1)) (hc : Clear (plan.map fun p => declOf p.1))
    (hl : ∀ p ∈ plan, Live lc AnyPat p.1) (hrx : ∀ p ∈ plan, RexDecidable p.1)
    (hh : ∀ p ∈ plan, Honest p.1) (h1 : ∀ p ∈ plan, Switch p.1 = true → p.1.mincount ≤ 1)
    (ho : ∀ p ∈ plan, Obeys p.1 p.2) (ht : ∀ p ∈ plan, Takes lc p.1 p.2)
    (hg : Greedy lc (plan.map (·.1)) [] (operandsOf plan)) (hdm : NoOverflow (plan.map (·.1)) [] (operandsOf plan))
    (hp : env = true → plan.Pairwise fun x y => tagged y.1 = true → tagged x.1 = true)
    (hargs : CArgs (followed plan)) (hlen : ∀ a ∈ followed plan, a.length ≤ 65535) (a0 : CStr) (g : GState) :
    ∃ r, Returns env (a0 :: followed plan) ⟨plan.map (·.1), fin⟩ g r ∧ r.1 = 0 ∧
      ∀ (i : Nat) (h : Hdr (Obj δ)) (vs : List (Option CStr)), plan[i]? = some (h, vs) →
        ∃ q, r.2.1.entries[i]? = some { h with parent := q } ∧ Stores lc h vs q := by
  have hds : (plan.map (·.1)).map declOf = plan.map fun p => declOf p.1 := by simp
  have hat : ∀ (i : Nat) (h : Hdr (Obj δ)) (seg : List CStr), (plan.map (·.1))[i]? = some h →
      (operandsOf plan)[i]? = some seg → ∃ p, plan[i]? = some p ∧ h = p.1 ∧
        seg = (if tagged p.1 then [] else p.2.filterMap id) ∧
        given (planGives plan) i ++ seg.map some = p.2 := by
    intro i h seg h2 h3
    rw [List.getElem?_map] at h2
    rw [operandsOf, List.getElem?_map] at h3
    cases hi : plan[i]? with
    | none => rw [hi] at h2; cases h2
    | some p =>
      rw [hi] at h2 h3
      cases h2
      cases h3
      refine ⟨p, rfl, rfl, rfl, ?_⟩
      rw [plan_given ho hi]
      have hpo := ho p (List.mem_of_getElem? hi)
      rcases Bool.eq_false_or_eq_true (tagged p.1) with h | h
      · simp [h]
      · simp only [h, Bool.false_eq_true, if_false, List.nil_append]
        exact (mention_operands h hpo).2.2.symm
  have hgiven : ∀ i (h : Hdr (Obj δ)), (plan.map (·.1))[i]? = some h → h.shortopts = none → h.longopts = none →
      given (planGives plan) i = [] := by
    intro i h h2 h3 h4
    rw [List.getElem?_map] at h2
    cases hi : plan[i]? with
    | none => rw [hi] at h2; cases h2
    | some p =>
      rw [hi] at h2
      cases h2
      rw [plan_given ho hi, tagged, h3, h4]; rfl
  have hright : Right lc env (plan.map (·.1)) (followed plan) (planGives plan) (operandsOf plan) := by
    refine ⟨by rw [hds]; exact plan_line hc hh ho env hp, ⟨by simp [operandsOf], rfl, ?_⟩, ?_, ?_, ?_⟩
    · intro i h seg h2 h3 h4
      obtain ⟨p, -, rfl, rfl, -⟩ := hat i h seg h2 h3
      have : tagged p.1 = true := by simpa [tagged] using h4
      simp [this]
    · intro i h seg a h2 h3 h4 h5 h6
      rw [hgiven i h h2 h4 h5]
      exact hg i h seg a h2 h3 h4 h5 h6
    · intro i h seg h2 h3
      obtain ⟨p, h4, rfl, -, h5⟩ := hat i h seg h2 h3
      rw [h5]
      exact ht p (List.mem_of_getElem? h4)
    · intro i h seg h2 h3 h4
      obtain ⟨p, h5, rfl, -, h6⟩ := hat i h seg h2 h3
      rw [h6]
      have hpm := List.mem_of_getElem? h5
      have hpo := ho p hpm
      rcases Bool.eq_false_or_eq_true (Switch p.1) with h7 | h7
      · have := h1 p hpm h7
        rcases hpo.switch h7 with h8 | ⟨h8, h9⟩
        · rw [h8]; simpa using this
        · rw [h8]; simpa using h9
      · exact hpo.least h7 h4
  obtain ⟨r, hr, h0, hst⟩ := C57_complete (t := ⟨plan.map (·.1), fin⟩) (env := env) hend (by rw [hds]; exact hwf)
    (by
      intro h hm
      obtain ⟨p, h2, rfl⟩ := List.mem_map.1 hm
      exact hl p h2)
    (by
      intro h hm
      obtain ⟨p, h2, rfl⟩ := List.mem_map.1 hm
      exact hrx p h2)
    (a0 :: followed plan) hargs hlen (gs := planGives plan) (segs := operandsOf plan)
    (by
      intro i h o seg a h2 h3 h4 h5 h6 h7 h8
      rw [hgiven i h h2 h5 h6] at h8
      exact hdm i h o seg a h2 h3 h4 h5 h6 h7 h8) hright g
  refine ⟨r, hr, h0, fun i h vs hi => ?_⟩
  have h2 : (plan.map (·.1))[i]? = some h := by rw [List.getElem?_map, hi]; rfl
  have h3 : (operandsOf plan)[i]? = some (if tagged h then [] else vs.filterMap id) := by
    rw [operandsOf, List.getElem?_map, hi]; rfl
  obtain ⟨q, h4, h5⟩ := hst i h _ h2 h3
  obtain ⟨p, h6, -, -, h7⟩ := hat i h _ h2 h3
  rw [hi] at h6
  cases h6
  rw [h7] at h5
  exact ⟨q, h4, h5⟩

/-- C92.  The alternatives that `arg_print_syntaxv` and the glossaries list for an option are interchangeable, wherever options
are read: a switch by any of its letters and names; an option with a value by any of its letters and names before the value,
or by `--name=value`. -/
theorem C92_alternatives {t : Table σ} (hend : EndOK m t.fin) (hwf : WF (t.entries.map declOf))
    (hc : Clear (t.entries.map declOf)) {h : Hdr σ} (hm : h ∈ t.entries) (hov : h.hasOptValue = false) {v : Option CStr}
    (hv : v.isSome = h.hasValue) (hne : v ≠ some []) {as bs : List CStr} (ha : Alternative h v as) (hb : Alternative h v bs)
    (a0 : CStr) (pre post : List CStr) (hpre : stillOn env (t.entries.map declOf) pre = true)
    (hargs : CArgs (pre ++ (as ++ post))) (hargs' : CArgs (pre ++ (bs ++ post))) :
    SameEffect env t (a0 :: (pre ++ (as ++ post))) (a0 :: (pre ++ (bs ++ post))) := by
  obtain ⟨i, hi⟩ := List.getElem?_of_mem hm
  have hi : (t.entries.map declOf)[i]? = some (declOf h) := by rw [List.getElem?_map, hi]; rfl
  exact C58_spelling hend hwf a0 pre as bs post hpre (alternative_options hc hi hov hv hne ha)
    (alternative_options hc hi hov hv hne hb) hargs hargs'

/-- C92.  All letters and names are listed, in the order of their declaration. -/
theorem C92_listed (h : Hdr σ) (sep : CStr) (hs : h.shortopts ≠ some [])
    (hl : ∀ lo, h.longopts = some lo → lo ≠ [] ∧ lo.getLast? ≠ some ',') :
    fullOptionv h.shortopts h.longopts h.datatype h.hasOptValue sep = sep.intercalate (namesShown h) ++
      (match h.datatype with
       | some d => (if h.longopts.isSome then cs "=" else if h.shortopts.isSome then cs " " else []) ++
          valueText d h.hasOptValue
       | none => []) := by
  rw [fullOptionv.eq_def]
  congr 1
  unfold namesShown
  cases hso : h.shortopts with
  | none =>
    cases hlo : h.longopts with
    | none => simp [List.intercalate]
    | some lo => simp [longsText, (hl lo hlo).2]
  | some so =>
    cases hlo : h.longopts with
    | none => simp [shortsText]
    | some lo =>
      have h1 : so.map (fun c => ['-', c]) ≠ [] := by
        intro e
        rw [List.map_eq_nil_iff] at e
        exact hs (by rw [hso, e])
      have h2 : (namesOf lo).map (cs "--" ++ ·) ≠ [] := by
        intro e
        rw [List.map_eq_nil_iff] at e
        exact namesOf_ne_nil (hl lo hlo).1 e
      simp only [Option.isSome_some, and_self, if_true, longsText, (hl lo hlo).2, if_false, List.append_nil,
        Option.getD_some, Option.map_some, shortsText]
      rw [intercalate_append sep h1 h2]

/-- C92.  (Defect.)  A switch that must be given twice or more is shown once: no command line that follows the usage line is
accepted. -/
theorem C92_twice {plan : List (Hdr (Obj δ) × List (Option CStr))} {fin : EndTbl} (hend : EndOK m fin)
    (hwf : WF (plan.map fun p => declOf p.1)) (hc : Clear (plan.map fun p => declOf p.1))
    (hl : ∀ p ∈ plan, Live lc AnyPat p.1) (hrx : ∀ p ∈ plan, RexDecidable p.1)
    (hh : ∀ p ∈ plan, Honest p.1) (ho : ∀ p ∈ plan, Obeys p.1 p.2)
    {p : Hdr (Obj δ) × List (Option CStr)} (hpm : p ∈ plan) (hs : Switch p.1 = true) (h2 : 2 ≤ p.1.mincount)
    (hp : env = true → plan.Pairwise fun x y => tagged y.1 = true → tagged x.1 = true)
    (hargs : CArgs (followed plan)) (hlen : ∀ a ∈ followed plan, a.length ≤ 65535) (a0 : CStr) (g : GState)
    (r : Nat × Table (Obj δ) × GState) (hr : Returns env (a0 :: followed plan) ⟨plan.map (·.1), fin⟩ g r) : r.1 ≠ 0 := by
  intro h0
  have hds : (plan.map (·.1)).map declOf = plan.map fun p => declOf p.1 := by simp
  obtain ⟨gs, segs, h3, -, -⟩ := C57_sound (t := ⟨plan.map (·.1), fin⟩) (env := env) hend (by rw [hds]; exact hwf)
    (by
      intro h hm
      obtain ⟨p, h2, rfl⟩ := List.mem_map.1 hm
      exact hl p h2)
    (by
      intro h hm
      obtain ⟨p, h2, rfl⟩ := List.mem_map.1 hm
      exact hrx p h2)
    (a0 :: followed plan) hargs hlen g r hr h0
  have e1 := line_tokenize h3.line
  have e2 := line_tokenize (plan_line hc hh ho env hp)
  rw [hds, List.tail_cons] at e1
  rw [e1] at e2
  have hgs : gs = planGives plan := dlv_map_inj (Prod.mk.inj (Option.some.inj e2)).1
  obtain ⟨i, hi⟩ := List.getElem?_of_mem hpm
  have hi' : (plan.map (·.1))[i]? = some p.1 := by rw [List.getElem?_map, hi]; rfl
  have hlt : i < segs.length := by
    rw [h3.spread.length, List.length_map]
    exact (List.getElem?_eq_some_iff.1 hi).1
  have hseg := List.getElem?_eq_getElem hlt
  have hso : p.1.shortopts.isSome = true := by
    simp only [Switch, Bool.and_eq_true] at hs
    exact hs.1
  have hnil := h3.spread.tagged i p.1 _ hi' hseg (Or.inl hso)
  have hnr : isRem p.1.parent = false := by
    rcases Bool.eq_false_or_eq_true (isRem p.1.parent) with h | h
    · rcases (ho p hpm).switch hs with h4 | ⟨-, h4⟩
      · rw [(ho p hpm).remark h] at h4; cases h4
      · omega
    · exact h
  have := h3.enough i p.1 _ hi' hseg hnr
  rw [hnil, hgs, plan_given ho hi] at this
  rcases (ho p hpm).switch hs with h4 | ⟨-, h4⟩
  · have h5 : tagged p.1 = true := by simp [tagged, hso]
    rw [h4, h5] at this
    simp at this
    omega
  · omega

/-- C92.  (Defect.)  An optional value of a short option is shown as `-c [VALUE]`, but `-c value` is not read that way: it
means the same as `value -c`, the option without a value and an operand. -/
theorem C92_detached {t : Table σ} (hend : EndOK m t.fin) (hwf : WF (t.entries.map declOf)) {i : Nat} {c : Char}
    (hc : c ≠ '-') (hi : shortLookup c (t.entries.map declOf) 0 = some (i, .opt)) (a0 : CStr) (pre post : List CStr)
    (hpre : stillOn false (t.entries.map declOf) pre = true) {v : CStr} (hv : isOperand v = true)
    (hargs : CArgs (pre ++ ['-', c] :: v :: post)) :
    SameEffect false t (a0 :: (pre ++ ['-', c] :: v :: post)) (a0 :: (pre ++ v :: ['-', c] :: post)) := by
  refine sameEffect_of_tokenize false t m hend hwf _ _ hargs ?_ ?_
  · intro a ha
    refine hargs a ?_
    rw [List.tail_cons] at ha
    simp only [List.mem_append, List.mem_cons] at ha ⊢
    tauto
  · rw [List.tail_cons, List.tail_cons, stillOn_append hpre, stillOn_append hpre,
      tokenize_bare hc hi, tokenize_permuted hv, tokenize_permuted hv, tokenize_bare hc hi]
    cases tokenize (t.entries.map declOf) false post <;> rfl

/-- C92.  (Defect.)  An optional value of a long option is shown as `--name=[VALUE]`, but leaving out just the value is an
error: `arg_parse` accepts no command line with `--name=`. -/
theorem C92_emptied {t : Table (Obj δ)} (hend : EndOK m t.fin) (hwf : WF (t.entries.map declOf))
    (hl : ∀ h ∈ t.entries, Live lc AnyPat h) (hrx : ∀ h ∈ t.entries, RexDecidable h) {n : CStr} {l : Long}
    (hn : '=' ∉ n) (hd : Denotes (longTable (t.entries.map declOf) 0) n l)
    (hi : (t.entries.map declOf)[l.entry]?.map (·.hasValue) = some true) (a0 : CStr) (pre post : List CStr)
    (hpre : stillOn env (t.entries.map declOf) pre = true) (hargs : CArgs (pre ++ (cs "--" ++ n ++ cs "=") :: post))
    (hlen : ∀ a ∈ pre ++ (cs "--" ++ n ++ cs "=") :: post, a.length ≤ 65535) (g : GState)
    (r : Nat × Table (Obj δ) × GState) (hr : Returns env (a0 :: (pre ++ (cs "--" ++ n ++ cs "=") :: post)) t g r) :
    r.1 ≠ 0 := by
  intro h0
  obtain ⟨gs, segs, h3, -, -⟩ := C57_sound hend hwf hl hrx
    (a0 :: (pre ++ (cs "--" ++ n ++ cs "=") :: post)) hargs hlen g r hr h0
  have e1 := line_tokenize h3.line
  rw [List.tail_cons, stillOn_append hpre] at e1
  unfold joinRead at e1
  cases e4 : tokenize (t.entries.map declOf) env pre with
  | none => rw [e4] at e1; cases e1
  | some x =>
    cases e5 : tokenize (t.entries.map declOf) env ((cs "--" ++ n ++ cs "=") :: post) with
    | none => rw [e4, e5] at e1; cases e1
    | some y =>
      rw [e4, e5] at e1
      have e6 := (Prod.mk.inj (Option.some.inj e1)).1
      obtain ⟨code, a, e7⟩ := tokenize_emptied hn hd hi post y e5
      have : Ev.fail code a ∈ gs.map dlv := by
        rw [← e6]
        exact List.mem_append_right _ e7
      obtain ⟨x, -, hx⟩ := List.mem_map.1 this
      cases hx

namespace Demo

/-- `arg_lit1("k", "keep", NULL)`. -/
def k : Hdr (Obj Unit) := argLitn (some (cs "k")) (some (cs "keep")) 1 1 none

/-- `arg_strn(NULL, "mode", "MODE", 1, 1, NULL)` with an optional value. -/
def md : Hdr (Obj Unit) := { made (argStrn none (some (cs "mode")) (some (cs "MODE")) 1 1 none) with hasOptValue := true }

def obedient : List (Hdr (Obj Unit) × List (Option CStr)) :=
  [(k, [none]), (v, []), (a, [none]), (n, [some (cs "-3")]), (md, [none]), (r, []), (f, [some (cs "in"), some (cs "out")])]

/-- The usage line of the table: ` -k[va] [-n <int>]... --mode=[MODE] FILE [FILE]...` (the data type of `n` is `<int>`). -/
example : printSyntax (obedient.map (·.1)) none
    = .ok (cs " -k[va] [-n <int>] [-n <int>] --mode=[MODE] FILE [FILE] [FILE]") := by decide +kernel

/-- The command line of the plan. -/
example : followed obedient = [cs "-ka", cs "-n", cs "-3", cs "--mode", cs "in", cs "out"] := by decide +kernel

theorem obedient_decls : obedient.map (fun p => declOf p.1) =
    [⟨false, false, some (cs "k"), some (cs "keep")⟩, ⟨false, false, some (cs "vw"), some (cs "verbose")⟩,
     ⟨false, false, some (cs "a"), some (cs "all,almost")⟩, ⟨true, false, some (cs "n"), some (cs "number")⟩,
     ⟨true, true, none, some (cs "mode")⟩, ⟨false, false, none, none⟩, ⟨true, false, none, none⟩] := rfl

theorem obedient_wf : WF (obedient.map fun p => declOf p.1) := by
  rw [obedient_decls]
  intro d hd
  simp only [List.mem_cons, List.not_mem_nil, or_false] at hd
  rcases hd with rfl | rfl | rfl | rfl | rfl | rfl | rfl <;>
    exact ⟨by intro s h; cases h <;> decide, by intro s h; cases h <;> decide⟩

theorem obedient_clear : Clear (obedient.map fun p => declOf p.1) where
  apart := by decide
  letters := by decide
  names := by decide

theorem obedient_live : ∀ p ∈ obedient, Live Demo.lc AnyPat p.1 := by
  intro p hp
  simp only [obedient, List.mem_cons, List.not_mem_nil, or_false] at hp
  rcases hp with rfl | rfl | rfl | rfl | rfl | rfl | rfl
  · exact Live.lit _ _ 1 1 _ false 0 (by decide)
  · exact Live.lit _ _ 0 3 _ false 0 (by decide)
  · exact Live.lit _ _ 0 2 _ false 0 (by decide)
  · exact Live.int (some (cs "n")) (some (cs "number")) none 0 2 (some (cs "how many")) n false
      ⟨0, [none, none]⟩ rfl (by decide) rfl
  · exact Live.str none (some (cs "mode")) (some (cs "MODE")) 1 1 none
      (made (argStrn none (some (cs "mode")) (some (cs "MODE")) 1 1 none)) true ⟨0, [[]]⟩ rfl (by decide) rfl
  · exact Live.rem _ _
  · exact Live.file none none (some (cs "FILE")) 1 3 (some (cs "input files")) f false
      ⟨0, [[], [], []], [[], [], []], [[], [], []]⟩ rfl (by decide) rfl rfl rfl

theorem obedient_honest : ∀ p ∈ obedient, Honest p.1 := by
  intro p hp
  simp only [obedient, List.mem_cons, List.not_mem_nil, or_false] at hp
  rcases hp with rfl | rfl | rfl | rfl | rfl | rfl | rfl <;>
    exact ⟨by decide, by decide, by decide, by intro lo h; cases h <;> decide⟩

theorem obedient_obeys : ∀ p ∈ obedient, Obeys p.1 p.2 := by
  intro p hp
  simp only [obedient, List.mem_cons, List.not_mem_nil, or_false] at hp
  rcases hp with rfl | rfl | rfl | rfl | rfl | rfl | rfl <;>
    exact ⟨by decide, by decide, by decide, by decide, by decide, by decide, by
      first
      | (intro ht; exfalso; revert ht; decide)
      | (intro _ v hv; simp at hv; rcases hv with rfl | rfl <;> decide)
      | (intro _ v hv; simp at hv)⟩

theorem obedient_takes : ∀ p ∈ obedient, Takes Demo.lc p.1 p.2 := by
  intro p hp
  simp only [obedient, List.mem_cons, List.not_mem_nil, or_false] at hp
  rcases hp with rfl | rfl | rfl | rfl | rfl | rfl | rfl
  · exact ⟨Or.inr (by decide), fun j a h => .lit rfl⟩
  · exact ⟨Or.inl rfl, fun j a h => by simp at h⟩
  · exact ⟨Or.inr (by decide), fun j a h => .lit rfl⟩
  · refine ⟨Or.inr (by decide), fun j a h => ?_⟩
    match j with
    | 0 =>
      cases h
      exact .int (o := ⟨0, [none, none]⟩) (n := -3) rfl
        (.plain _ _ (IntText.mk [] (cs "-") [] (cs "3") [] [] (-1) 10 3 1 (by decide) .minus .dec
          (.one '3' 3 (Or.inl rfl) (by decide)) .none (by decide))) (by decide)
    | j + 1 => simp at h
  · exact ⟨Or.inr (by decide), fun j a h => .str rfl⟩
  · exact ⟨Or.inl rfl, fun j a h => by simp at h⟩
  · exact ⟨Or.inr (by decide), fun j a h => .file rfl⟩

theorem obedient_greedy : Greedy Demo.lc (obedient.map (·.1)) [] (operandsOf obedient) := by
  intro i h seg x h1 h2 h3 h4 h5 h6
  match i with
  | 0 => cases h1; cases h3
  | 1 => cases h1; cases h3
  | 2 => cases h1; cases h3
  | 3 => cases h1; cases h3
  | 4 => cases h1; cases h4
  | 5 =>
    cases h1
    cases h2
    have := h6.text 0 x rfl
    cases this with
    | date h7 _ _ => have := (give_date h7).2.2.1; cases this
    | rex h7 _ _ => have := (give_rex h7).2.2.1; cases this
    | lit h7 => cases h7
    | int h7 _ _ => cases h7
    | dbl h7 _ => cases h7
    | str h7 => cases h7
    | file h7 => cases h7
  | 6 => cases h5
  | i + 7 => simp [obedient] at h1

/-- Following the usage line with `-ka -n -3 --mode in out`, with and without POSIXLY_CORRECT. -/
example (env : Bool) : ∃ r q, Returns env [cs "prog", cs "-ka", cs "-n", cs "-3", cs "--mode", cs "in", cs "out"]
    ⟨obedient.map (·.1), fin⟩ g0 r ∧ r.1 = 0 ∧ r.2.1.entries[3]? = some { n with parent := q } ∧
    Stores Demo.lc n [some (cs "-3")] q := by
  obtain ⟨r, h1, h2, h3⟩ := C92_follow (lc := Demo.lc) (env := env) (plan := obedient) finOK obedient_wf obedient_clear
    obedient_live
    (by
      intro p hp o ho
      simp only [obedient, List.mem_cons, List.not_mem_nil, or_false] at hp
      rcases hp with rfl | rfl | rfl | rfl | rfl | rfl | rfl <;> cases ho)
    obedient_honest (by decide) obedient_obeys obedient_takes obedient_greedy
    (by
      intro i h o seg x h1 h2 h3 h4 h5 h6
      match i with
      | 0 => cases h1; cases h4
      | 1 => cases h1; cases h4
      | 2 => cases h1; cases h4
      | 3 => cases h1; cases h4
      | 4 => cases h1; cases h5
      | 5 => cases h1; cases h3
      | 6 => cases h6
      | i + 7 => simp [obedient] at h1)
    (by intro _; decide) (by decide) (by decide) (cs "prog") g0
  obtain ⟨q, h4, h5⟩ := h3 3 n _ rfl
  exact ⟨r, q, h1, h2, h4, h5⟩

/-- A table without optional parts: its usage line is the command line with the data types as values. -/
example : printSyntax [k, made (argStrn (some (cs "o")) none (some (cs "OUT")) 1 1 none),
      made (argFilen none none (some (cs "FILE")) 2 2 none)] none = .ok (cs " -k -o OUT FILE FILE") := by
  rw [C92_literal _ (by
    intro h hh
    simp only [List.mem_cons, List.not_mem_nil, or_false] at hh
    rcases hh with rfl | rfl | rfl <;>
      exact ⟨by intro t ht; cases ht <;> decide, by intro t ht; cases ht <;> decide, by intro t ht; cases ht <;> decide⟩)
    (by decide +kernel) (by decide) (by decide) (by decide)]
  decide +kernel

/-- `-o`, `--out` and `--output` with the value `x` mean the same. -/
example : SameEffect true table [cs "prog", cs "-v", cs "-o", cs "x", cs "in"] [cs "prog", cs "-v", cs "--output=x", cs "in"] :=
  C92_alternatives (t := table) (h := o) (v := some (cs "x")) finOK wf clear (by simp [table, entries]) rfl rfl (by decide)
    (Or.inl ⟨'o', by decide, rfl⟩) (Or.inr (Or.inr ⟨cs "output", by decide, cs "x", rfl, rfl⟩)) (cs "prog") [cs "-v"]
    [cs "in"] (by decide) (by decide) (by decide)

/-- They are all listed. -/
example : fullOptionv o.shortopts o.longopts o.datatype o.hasOptValue (cs ", ") = cs "-o, --out, --output=<string>" := by
  rw [C92_listed o (cs ", ") (by decide) (by intro lo h; cases h; decide)]
  decide +kernel

/-- `arg_litn("v", NULL, 2, 2, NULL)`. -/
def vv : Hdr (Obj Unit) := argLitn (some (cs "v")) none 2 2 none

/-- The usage line shows ` -v`, but `-v` is one too few. -/
example : printSyntax [vv] none = .ok (cs " -v") ∧
    ∀ r, Returns false [cs "prog", cs "-v"] ⟨[vv], fin⟩ g0 r → r.1 ≠ 0 := by
  refine ⟨by decide +kernel, fun r hr => ?_⟩
  refine C92_twice (lc := Demo.lc) (env := false) (plan := [(vv, [none])]) (p := (vv, [none])) finOK ?_ ⟨by decide, by decide, by decide⟩
    ?_ ?_ ?_ ?_ (by simp) (by decide) (by decide) (by decide) (by decide) (by decide) (cs "prog") g0 r hr
  · intro d hd
    rw [List.mem_singleton.1 hd]
    exact ⟨by intro s h; cases h <;> decide, by intro s h; cases h <;> decide⟩
  · intro p hp
    rw [List.mem_singleton.1 hp]
    exact Live.lit _ _ 2 2 _ false 0 (by decide)
  · intro p hp o ho
    rw [List.mem_singleton.1 hp] at ho
    cases ho
  · intro p hp
    rw [List.mem_singleton.1 hp]
    exact ⟨by decide, by decide, by decide, by intro lo h; cases h⟩
  · intro p hp
    rw [List.mem_singleton.1 hp]
    exact ⟨by decide, by decide, by decide, by decide, by decide, by decide, by intro h; cases h⟩

/-- The usage line shows `[-p [<string>]]`, but in `-p red` the word `red` is an operand, as in `red -p`. -/
example : (fullOption p.shortopts p.longopts p.datatype p.hasOptValue = cs "-p [<string>]") ∧
    SameEffect false table [cs "prog", cs "-v", cs "-p", cs "red"] [cs "prog", cs "-v", cs "red", cs "-p"] :=
  ⟨by decide +kernel, C92_detached (t := table) (i := 4) (c := 'p') (v := cs "red") finOK wf (by decide) (by decide)
    (cs "prog") [cs "-v"] [] (by decide) (by decide) (by decide)⟩

/-- The long usage line shows `[-p|--paint=[<string>]]`, but `--paint=` is not accepted. -/
example (r : Nat × Table (Obj Unit) × GState)
    (hr : Returns false [cs "prog", cs "in", cs "--paint=", cs "-v"] table g0 r) : r.1 ≠ 0 :=
  C92_emptied (t := table) (lc := Demo.lc) (n := cs "paint") (l := ⟨cs "paint", 4, .opt⟩) finOK wf (live AnyPat) no_rex
    (by decide) (denotes_demo (by decide)) (by decide) (cs "prog") [cs "in"] [cs "-v"] (by decide) (by decide) (by decide) g0
    r hr

end Demo

end Argtable
