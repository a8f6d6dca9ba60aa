import Verif.Proofs.Reading
import Verif.Props.Demo
/-!
# How command lines are read (C02–C07, C19, C20)

Every theorem speaks about `argParse`, the model of `arg_parse`, through `SameEffect` (two command
lines are indistinguishable) or `ReadsAs` (the outcome is that of a given sequence of deliveries).
`pre` and `post` are the surrounding arguments, `a0` is the program name.
-/

namespace Argtable

open Spec

variable {σ : Type} {env : Bool} {t : Table σ} {m : Nat}

/-! ## C02 -/

/-- C02.  The outcome of `arg_parse` is that of reading the command line from left to right: if the
command line reads as the deliveries `evs` and the operands `ops`, then `arg_parse` returns exactly
when their meaning is defined, and leaves exactly that meaning behind. -/
theorem C02_refinement (hend : EndOK m t.fin) (hwf : WF (t.entries.map declOf)) {argv : List CStr}
    (hargs : CArgs argv.tail) {evs : List Ev} {ops : List CStr}
    (htok : tokenize (t.entries.map declOf) env argv.tail = some (evs, ops)) :
    ReadsAs env t m argv evs ops ∧
    ∀ g r, Returns env argv t g r →
      ∃ es errs, meaning t.entries evs ops = .ok (es, errs) ∧ Shows m argv g es errs r :=
  ⟨readsAs_of_tokenize hend hwf hargs htok,
   fun g _ hr => returns_inv env t m hend hwf argv hargs g htok hr⟩

/-- The only command lines without a reading are those on which `arg_parse` does not return (C01). -/
theorem C02_complete (hend : EndOK m t.fin) (hwf : WF (t.entries.map declOf)) {argv : List CStr}
    (hargs : CArgs argv.tail) {g : GState} {r : Nat × Table σ × GState}
    (h : Returns env argv t g r) :
    ∃ evs ops es errs, tokenize (t.entries.map declOf) env argv.tail = some (evs, ops) ∧
      meaning t.entries evs ops = .ok (es, errs) ∧ Shows m argv g es errs r := by
  cases htok : tokenize (t.entries.map declOf) env argv.tail with
  | none => exact absurd h (argParse_hung env t hwf argv hargs g htok r)
  | some p =>
    obtain ⟨es, errs, h1, h2⟩ := returns_inv env t m hend hwf argv hargs g htok h
    exact ⟨p.1, p.2, es, errs, rfl, h1, h2⟩

/-- `prog x -va --num=3 -p --ou res -n -4 -pred y -- -a` -/
example : ReadsAs false Demo.table 4
    [cs "prog", cs "x", cs "-va", cs "--num=3", cs "-p", cs "--ou", cs "res", cs "-n", cs "-4",
     cs "-pred", cs "y", cs "--", cs "-a"]
    [.deliver 1 none, .deliver 0 none, .deliver 2 (some (cs "3")), .deliver 4 none,
     .deliver 3 (some (cs "res")), .deliver 2 (some (cs "-4")), .deliver 4 (some (cs "red"))]
    [cs "x", cs "y", cs "-a"] :=
  (C02_refinement Demo.finOK Demo.wf (by decide) (by decide)).1

/-! ## C03 -/

/-- C03.  Moving an operand across an option (without separate value) changes nothing. -/
theorem C03_interleave (hend : EndOK m t.fin) (hwf : WF (t.entries.map declOf)) (a0 : CStr)
    (pre post : List CStr) (x o : CStr)
    (hpre : complete (t.entries.map declOf) pre = true) (hx : isOperand x = true)
    (ho : isOption o = true) (hu : usesNext (t.entries.map declOf) o = false)
    (hargs : CArgs (pre ++ x :: o :: post)) :
    SameEffect false t (a0 :: (pre ++ x :: o :: post)) (a0 :: (pre ++ o :: x :: post)) := by
  refine sameEffect_of_tokenize false t m hend hwf _ _ hargs ?_ ?_
  · intro b hb
    exact hargs b (by simp at hb ⊢; tauto)
  · simp only [List.tail_cons]
    rw [complete_append _ _ _ (Nat.le_refl _) hpre, complete_append _ _ _ (Nat.le_refl _) hpre,
      tokenize_operand _ hx, tokenize_option _ ho hu, tokenize_option _ ho hu, tokenize_operand _ hx]
    congr 1
    cases readCluster (t.entries.map declOf) o none o.tail <;>
      cases tokenize (t.entries.map declOf) false post <;> rfl

/-- C03 for an option with a separate value, which moves along with the option. -/
theorem C03_interleave_value (hend : EndOK m t.fin) (hwf : WF (t.entries.map declOf)) (a0 : CStr)
    (pre post : List CStr) (x o v : CStr)
    (hpre : complete (t.entries.map declOf) pre = true) (hx : isOperand x = true)
    (ho : isOption o = true) (hu : usesNext (t.entries.map declOf) o = true)
    (hargs : CArgs (pre ++ x :: o :: v :: post)) :
    SameEffect false t (a0 :: (pre ++ x :: o :: v :: post)) (a0 :: (pre ++ o :: v :: x :: post)) := by
  refine sameEffect_of_tokenize false t m hend hwf _ _ hargs ?_ ?_
  · intro b hb
    exact hargs b (by simp at hb ⊢; tauto)
  · obtain ⟨evs, he⟩ := usesNext_true hu v
    simp only [List.tail_cons]
    rw [complete_append _ _ _ (Nat.le_refl _) hpre, complete_append _ _ _ (Nat.le_refl _) hpre,
      tokenize_operand _ hx, tokenize_option_val _ ho he, tokenize_option_val _ ho he,
      tokenize_operand _ hx]
    congr 1
    cases tokenize (t.entries.map declOf) false post <;> rfl

/-- C03, all at once: any complete command line has the same effect as its options (with their
separate values) followed by `--` and its operands. -/
theorem C03_canonical (hend : EndOK m t.fin) (hwf : WF (t.entries.map declOf)) (a0 : CStr)
    (args : List CStr) (hc : complete (t.entries.map declOf) args = true) (hargs : CArgs args)
    (hargs' : CArgs (optionPart (t.entries.map declOf) args ++ [['-', '-']] ++
      operandPart (t.entries.map declOf) args)) :
    SameEffect false t (a0 :: args)
      (a0 :: (optionPart (t.entries.map declOf) args ++ [['-', '-']] ++
        operandPart (t.entries.map declOf) args)) := by
  refine sameEffect_of_tokenize false t m hend hwf _ _ hargs hargs' ?_
  simp only [List.tail_cons]
  obtain ⟨h1, h2⟩ := optionPart_read _ _ args (Nat.le_refl _) hc
  rw [List.append_assoc, optionsOnly_append _ _ _ _ (Nat.le_refl _) h1, h2]
  have h3 : tokenize (t.entries.map declOf) false
      ([['-', '-']] ++ operandPart (t.entries.map declOf) args)
      = some ([], operandPart (t.entries.map declOf) args) := by
    simp [tokenize]
  rw [h3]
  cases htk : tokenize (t.entries.map declOf) false (optionPart (t.entries.map declOf) args) with
  | none => rfl
  | some p =>
    have := optionsOnly_ops _ false _ _ (Nat.le_refl _) h1 p.1 p.2 htk
    simp [joinRead, this]

example : SameEffect false Demo.table
    [cs "prog", cs "-n", cs "1", cs "x", cs "--all", cs "y"]
    [cs "prog", cs "-n", cs "1", cs "--all", cs "x", cs "y"] :=
  C03_interleave Demo.finOK Demo.wf _ [cs "-n", cs "1"] [cs "y"] (cs "x") (cs "--all")
    (by decide) (by decide) (by decide) (by decide) (by decide)

example : SameEffect false Demo.table
    [cs "prog", cs "-a", cs "x", cs "--out", cs "-v", cs "-v"]
    [cs "prog", cs "-a", cs "--out", cs "-v", cs "x", cs "-v"] :=
  C03_interleave_value Demo.finOK Demo.wf _ [cs "-a"] [cs "-v"] (cs "x") (cs "--out") (cs "-v")
    (by decide) (by decide) (by decide) (by decide) (by decide)

example : SameEffect false Demo.table
    [cs "prog", cs "x", cs "-va", cs "y", cs "-o", cs "out", cs "z"]
    [cs "prog", cs "-va", cs "-o", cs "out", cs "--", cs "x", cs "y", cs "z"] :=
  C03_canonical Demo.finOK Demo.wf _ [cs "x", cs "-va", cs "y", cs "-o", cs "out", cs "z"]
    (by decide) (by decide) (by decide)

/-! ## C04 -/

/-- C04.  After a `--` that is read as an option marker everything is an operand, verbatim and in
order. -/
theorem C04_dashdash (hend : EndOK m t.fin) (hwf : WF (t.entries.map declOf)) (a0 : CStr)
    (pre suffix : List CStr) (hpre : stillOn env (t.entries.map declOf) pre = true)
    (hargs : CArgs (pre ++ ['-', '-'] :: suffix)) {evs : List Ev} {ops : List CStr}
    (htok : tokenize (t.entries.map declOf) env pre = some (evs, ops)) :
    ReadsAs env t m (a0 :: (pre ++ ['-', '-'] :: suffix)) evs (ops ++ suffix) := by
  refine readsAs_of_tokenize (argv := a0 :: (pre ++ ['-', '-'] :: suffix)) hend hwf hargs ?_
  simp only [List.tail_cons]
  rw [stillOn_append hpre, htok, tokenize, if_pos rfl]
  simp [joinRead]

example : ReadsAs false Demo.table 4 [cs "prog", cs "-a", cs "x", cs "--", cs "-v", cs "--", cs "-n"]
    [.deliver 0 none] ([cs "x"] ++ [cs "-v", cs "--", cs "-n"]) :=
  C04_dashdash (env := false) Demo.finOK Demo.wf _ [cs "-a", cs "x"] [cs "-v", cs "--", cs "-n"]
    (by decide) (by decide) (by decide)

/-! ## C05 -/

/-- C05.  A cluster of flags has the effect of the flags given one by one. -/
theorem C05_cluster (hend : EndOK m t.fin) (hwf : WF (t.entries.map declOf)) (a0 : CStr)
    (pre post : List CStr) (fs : CStr) (hne : fs ≠ [])
    (hpre : stillOn env (t.entries.map declOf) pre = true)
    (hfs : ∀ c ∈ fs, c ≠ '-' ∧ ∃ i, shortLookup c (t.entries.map declOf) 0 = some (i, .no))
    (hargs : CArgs (pre ++ ('-' :: fs) :: post)) :
    SameEffect env t (a0 :: (pre ++ ('-' :: fs) :: post))
      (a0 :: (pre ++ (fs.map (fun c => ['-', c]) ++ post))) := by
  refine sameEffect_of_tokenize env t m hend hwf _ _ hargs ?_ ?_
  · intro b hb
    simp only [List.tail_cons, List.mem_append, List.mem_map] at hb
    rcases hb with hb | ⟨c, hc, rfl⟩ | hb
    · exact hargs b (by simp [hb])
    · have := hargs ('-' :: fs) (by simp)
      simp only [List.mem_cons, not_or, List.not_mem_nil, not_false_eq_true, and_true] at this ⊢
      exact ⟨this.1, fun h => this.2 (h ▸ hc)⟩
    · exact hargs b (by simp [hb])
  · simp only [List.tail_cons]
    rw [stillOn_append hpre, stillOn_append hpre]
    congr 1
    have ho : isOption ('-' :: fs) = true := by
      cases fs with
      | nil => exact absurd rfl hne
      | cons c fs =>
        have := (hfs c (by simp)).1
        simp [isOption, isOperand, this]
    obtain ⟨_, hu1, _⟩ := readCluster_flags (t.entries.map declOf) ('-' :: fs) (some []) [] fs hfs
    obtain ⟨evs, h1, h2⟩ := readCluster_flags (t.entries.map declOf) ('-' :: fs) none [] fs hfs
    have hu : usesNext (t.entries.map declOf) ('-' :: fs) = false := by
      unfold usesNext
      rw [List.append_nil] at hu1
      simp [hu1, readCluster]
    rw [tokenize_option _ ho hu, h2]
    rw [List.append_nil] at h1
    simp [h1, readCluster]

/-- C05 with a value: in `-abV…` the flags may be split off an option with an attached value. -/
theorem C05_cluster_value (hend : EndOK m t.fin) (hwf : WF (t.entries.map declOf)) (a0 : CStr)
    (pre post : List CStr) (fs : CStr) (o : Char) (v : CStr) (hv : v ≠ [])
    (hpre : stillOn env (t.entries.map declOf) pre = true)
    (hfs : ∀ c ∈ fs, c ≠ '-' ∧ ∃ i, shortLookup c (t.entries.map declOf) 0 = some (i, .no))
    (ho : o ≠ '-') (hk : ∃ i k, shortLookup o (t.entries.map declOf) 0 = some (i, k) ∧ k ≠ .no)
    (hargs : CArgs (pre ++ ('-' :: (fs ++ o :: v)) :: post)) :
    SameEffect env t (a0 :: (pre ++ ('-' :: (fs ++ o :: v)) :: post))
      (a0 :: (pre ++ (fs.map (fun c => ['-', c]) ++ ('-' :: o :: v) :: post))) := by
  refine sameEffect_of_tokenize env t m hend hwf _ _ hargs ?_ ?_
  · have hw := hargs ('-' :: (fs ++ o :: v)) (by simp)
    intro b hb
    simp only [List.tail_cons, List.mem_append, List.mem_map, List.mem_cons] at hb
    rcases hb with hb | ⟨c, hc, rfl⟩ | rfl | hb
    · exact hargs b (by simp [hb])
    · simp only [List.mem_cons, List.mem_append, not_or, List.not_mem_nil, not_false_eq_true,
        and_true] at hw ⊢
      exact ⟨hw.1, fun h => hw.2.1 (h ▸ hc)⟩
    · simp only [List.mem_cons, List.mem_append, not_or] at hw ⊢
      exact ⟨hw.1, hw.2.2⟩
    · exact hargs b (by simp [hb])
  · simp only [List.tail_cons]
    rw [stillOn_append hpre, stillOn_append hpre]
    congr 1
    obtain ⟨i, k, hl, hkn⟩ := hk
    have hr : ∀ w n, readCluster (t.entries.map declOf) w n (o :: v)
        = some ([.deliver i (some v)], false) := by
      intro w n
      rw [readCluster, if_neg ho, hl]
      cases k with
      | no => exact absurd rfl hkn
      | req => simp [hv]
      | opt => simp [hv]
    have ho1 : isOption ('-' :: (fs ++ o :: v)) = true := by
      cases fs with
      | nil => simp [isOption, isOperand, ho]
      | cons c fs =>
        have := (hfs c (by simp)).1
        simp [isOption, isOperand, this]
    have ho2 : isOption ('-' :: o :: v) = true := by simp [isOption, isOperand, ho]
    obtain ⟨_, hu1, _⟩ := readCluster_flags (t.entries.map declOf) ('-' :: (fs ++ o :: v)) (some [])
      (o :: v) fs hfs
    obtain ⟨evs, h1, h2⟩ := readCluster_flags (t.entries.map declOf) ('-' :: (fs ++ o :: v)) none
      (o :: v) fs hfs
    have hu : usesNext (t.entries.map declOf) ('-' :: (fs ++ o :: v)) = false := by
      unfold usesNext
      simp [hu1, hr]
    have hu' : usesNext (t.entries.map declOf) ('-' :: o :: v) = false := by
      unfold usesNext
      simp [hr]
    rw [tokenize_option _ ho1 hu, h2, tokenize_option _ ho2 hu']
    simp only [List.tail_cons, h1, hr]
    cases tokenize (t.entries.map declOf) env post <;> simp

example : SameEffect true Demo.table [cs "prog", cs "-n", cs "1", cs "-avaw", cs "y"]
    [cs "prog", cs "-n", cs "1", cs "-a", cs "-v", cs "-a", cs "-w", cs "y"] :=
  C05_cluster (env := true) Demo.finOK Demo.wf _ [cs "-n", cs "1"] [cs "y"] (cs "avaw") (by decide)
    (by decide)
    (by
      have ha : shortLookup 'a' (Demo.table.entries.map declOf) 0 = some (0, .no) := by decide
      have hv : shortLookup 'v' (Demo.table.entries.map declOf) 0 = some (1, .no) := by decide
      have hw : shortLookup 'w' (Demo.table.entries.map declOf) 0 = some (1, .no) := by decide
      intro c hc
      simp [cs] at hc
      rcases hc with rfl | rfl | rfl | rfl
      · exact ⟨by decide, 0, ha⟩
      · exact ⟨by decide, 1, hv⟩
      · exact ⟨by decide, 0, ha⟩
      · exact ⟨by decide, 1, hw⟩) (by decide)

example : SameEffect false Demo.table [cs "prog", cs "-vn12", cs "y"]
    [cs "prog", cs "-v", cs "-n12", cs "y"] :=
  C05_cluster_value (env := false) Demo.finOK Demo.wf _ [] [cs "y"] (cs "v") 'n' (cs "12") (by decide)
    (by decide)
    (by
      have hv : shortLookup 'v' (Demo.table.entries.map declOf) 0 = some (1, .no) := by decide
      intro c hc
      simp [cs] at hc
      exact ⟨by rw [hc]; decide, 1, by rw [hc]; exact hv⟩)
    (by decide) ⟨2, .req, by decide, by decide⟩ (by decide)

/-! ## C06 -/

/-- C06, short options: `-oV` and `-o V` have the same effect. -/
theorem C06_short (hend : EndOK m t.fin) (hwf : WF (t.entries.map declOf)) (a0 : CStr)
    (pre post : List CStr) (o : Char) (v : CStr) (hv : v ≠ []) (i : Nat)
    (hpre : stillOn env (t.entries.map declOf) pre = true) (ho : o ≠ '-')
    (hk : shortLookup o (t.entries.map declOf) 0 = some (i, .req))
    (hargs : CArgs (pre ++ ['-', o] :: v :: post)) :
    SameEffect env t (a0 :: (pre ++ ('-' :: o :: v) :: post)) (a0 :: (pre ++ ['-', o] :: v :: post)) := by
  refine sameEffect_of_tokenize env t m hend hwf _ _ ?_ hargs ?_
  · have h1 := hargs ['-', o] (by simp)
    have h2 := hargs v (by simp)
    intro b hb
    simp only [List.tail_cons, List.mem_append, List.mem_cons] at hb
    rcases hb with hb | rfl | hb
    · exact hargs b (by simp [hb])
    · simp only [List.mem_cons, not_or] at h1 ⊢
      exact ⟨h1.1, h1.2.1, h2⟩
    · exact hargs b (by simp [hb])
  · simp only [List.tail_cons]
    rw [stillOn_append hpre, stillOn_append hpre]
    congr 1
    have hr1 : ∀ n, readCluster (t.entries.map declOf) ('-' :: o :: v) n (o :: v)
        = some ([.deliver i (some v)], false) := by
      intro n; rw [readCluster, if_neg ho, hk]; simp [hv]
    have hr2 : readCluster (t.entries.map declOf) ['-', o] (some v) [o]
        = some ([.deliver i (some v)], true) := by
      rw [readCluster, if_neg ho, hk]; simp
    have ho1 : isOption ('-' :: o :: v) = true := by simp [isOption, isOperand, ho]
    have ho2 : isOption ['-', o] = true := by simp [isOption, isOperand, ho]
    rw [tokenize_option _ ho1 (by unfold usesNext; simp [hr1]), tokenize_option_val _ ho2 hr2]
    simp [hr1]

/-- C06, long options: `--name=V` and `--name V` have the same effect, also for an abbreviated name. -/
theorem C06_long (hend : EndOK m t.fin) (hwf : WF (t.entries.map declOf)) (a0 : CStr)
    (pre post : List CStr) (name v : CStr) (hv : v ≠ []) (hn : name ≠ []) (heq : '=' ∉ name)
    (l : Long) (hd : Denotes (longTable (t.entries.map declOf) 0) name l) (hk : l.kind = .req)
    (hpre : stillOn env (t.entries.map declOf) pre = true)
    (hargs : CArgs (pre ++ ('-' :: '-' :: name) :: v :: post)) :
    SameEffect env t (a0 :: (pre ++ ('-' :: '-' :: (name ++ '=' :: v)) :: post))
      (a0 :: (pre ++ ('-' :: '-' :: name) :: v :: post)) := by
  refine sameEffect_of_tokenize env t m hend hwf _ _ ?_ hargs ?_
  · have h1 := hargs ('-' :: '-' :: name) (by simp)
    have h2 := hargs v (by simp)
    intro b hb
    simp only [List.tail_cons, List.mem_append, List.mem_cons] at hb
    rcases hb with hb | rfl | hb
    · exact hargs b (by simp [hb])
    · simp only [List.mem_cons, List.mem_append, not_or] at h1 ⊢
      exact ⟨h1.1, h1.2.1, h1.2.2, by decide, h2⟩
    · exact hargs b (by simp [hb])
  · simp only [List.tail_cons]
    rw [stillOn_append hpre, stillOn_append hpre]
    congr 1
    have hall : ∀ c ∈ name, c ≠ '=' := fun c hc h => heq (h ▸ hc)
    have htw : (name ++ '=' :: v).takeWhile (fun c => decide (c ≠ '=')) = name := by
      rw [List.takeWhile_append_of_pos (by simpa using hall)]
      simp
    have hdw : (name ++ '=' :: v).dropWhile (fun c => decide (c ≠ '=')) = '=' :: v := by
      rw [List.dropWhile_append_of_pos (by simpa using hall)]
      simp
    have htw' : name.takeWhile (fun c => decide (c ≠ '=')) = name := by
      have := List.takeWhile_append_of_pos (p := fun c => decide (c ≠ '=')) (l₁ := name) (l₂ := []) (by simpa using hall)
      simpa using this
    have hres := resolve_eq_some hd
    have hr1 : ∀ w n, readLong (t.entries.map declOf) w n (name ++ '=' :: v)
        = ([.deliver l.entry (some v)], false) := by
      intro w n
      unfold readLong
      dsimp only
      rw [htw, hdw, hres]
      cases l with
      | mk nm e k =>
        dsimp only at hk
        subst hk
        simp [emptyValueError, hv]
    have hr2 : ∀ w, readLong (t.entries.map declOf) w (some v) name
        = ([.deliver l.entry (some v)], true) := by
      intro w
      unfold readLong
      dsimp only
      rw [htw', hres]
      cases l with
      | mk nm e k =>
        dsimp only at hk
        subst hk
        simp [emptyValueError, hv, heq]
    have hc1 : ∀ w n, readCluster (t.entries.map declOf) w n ('-' :: (name ++ '=' :: v))
        = some ([.deliver l.entry (some v)], false) := by
      intro w n
      rw [readCluster, if_pos rfl, if_neg (by simp), hr1]
    have hc2 : ∀ w, readCluster (t.entries.map declOf) w (some v) ('-' :: name)
        = some ([.deliver l.entry (some v)], true) := by
      intro w
      rw [readCluster, if_pos rfl, if_neg hn, hr2]
    have ho1 : isOption ('-' :: '-' :: (name ++ '=' :: v)) = true := by
      simp [isOption, isOperand]
    have ho2 : isOption ('-' :: '-' :: name) = true := by simp [isOption, isOperand, hn]
    rw [tokenize_option _ ho1 (by unfold usesNext; simp [hc1]),
      tokenize_option_val _ ho2 (by simpa using hc2 _)]
    simp [hc1]

example : SameEffect false Demo.table [cs "prog", cs "x", cs "-o--all", cs "y"]
    [cs "prog", cs "x", cs "-o", cs "--all", cs "y"] :=
  C06_short (env := false) Demo.finOK Demo.wf _ [cs "x"] [cs "y"] 'o' (cs "--all") (by decide) 3
    (by decide) (by decide) (by decide) (by decide)

example : SameEffect true Demo.table [cs "prog", cs "--outp=-v=1"] [cs "prog", cs "--outp", cs "-v=1"] :=
  C06_long (env := true) Demo.finOK Demo.wf _ [] [] (cs "outp") (cs "-v=1") (by decide) (by decide)
    (by decide) ⟨cs "output", 3, .req⟩
    (by
      have h := resolve_denotes (Demo.table.entries.map declOf) (cs "outp")
      have e : resolve (longTable (Demo.table.entries.map declOf) 0) (cs "outp")
        = some ⟨cs "output", 3, .req⟩ := by decide
      rw [e] at h
      exact h) rfl (by decide) (by decide)

/-! ## C07 -/

/-- C07.  `resolve`, the decision procedure, is the declarative `Denotes`. -/
theorem C07_resolution (ds : List Decl) (p : CStr) (l : Long) :
    resolve (longTable ds 0) p = some l ↔ Denotes (longTable ds 0) p l := by
  constructor
  · intro h
    have := resolve_denotes ds p
    rw [h] at this
    exact this
  · intro h; exact resolve_eq_some h

theorem denotes_of_resolve {ds : List Decl} {p : CStr} {l : Long}
    (h : resolve (longTable ds 0) p = some l) : Denotes (longTable ds 0) p l :=
  (C07_resolution ds p l).1 h

theorem not_denotes_of_resolve {ds : List Decl} {p : CStr}
    (h : resolve (longTable ds 0) p = none) : ∀ l, ¬ Denotes (longTable ds 0) p l := by
  intro l hl
  rw [(C07_resolution ds p l).2 hl] at h
  cases h

/-- C07.  If `p` denotes the long option `l` (not requiring a value) then `--p` is handed to the
entry of `l`. -/
theorem C07_flag (hend : EndOK m t.fin) (hwf : WF (t.entries.map declOf)) (a0 : CStr)
    (pre post : List CStr) (p : CStr) (hp : p ≠ []) (heq : '=' ∉ p) (l : Long)
    (hd : Denotes (longTable (t.entries.map declOf) 0) p l) (hk : l.kind ≠ .req)
    (hpre : stillOn env (t.entries.map declOf) pre = true)
    (hargs : CArgs (pre ++ ('-' :: '-' :: p) :: post)) {evs evs' : List Ev} {ops ops' : List CStr}
    (h1 : tokenize (t.entries.map declOf) env pre = some (evs, ops))
    (h2 : tokenize (t.entries.map declOf) env post = some (evs', ops')) :
    ReadsAs env t m (a0 :: (pre ++ ('-' :: '-' :: p) :: post))
      (evs ++ [.deliver l.entry none] ++ evs') (ops ++ ops') := by
  refine readsAs_of_tokenize (argv := a0 :: (pre ++ ('-' :: '-' :: p) :: post)) hend hwf hargs ?_
  have ho := isOption_long (rest := []) hp
  rw [List.append_nil] at ho
  refine tokenize_at hpre h1 ho (fun n => ?_) h2
  have := readCluster_long (ds := t.entries.map declOf) hp heq ('-' :: '-' :: p) n [] (Or.inl rfl)
  rw [List.append_nil, resolve_eq_some hd] at this
  rw [List.tail_cons, this]
  cases hk' : l.kind <;> simp_all

/-- C07.  `--p=v`. -/
theorem C07_value (hend : EndOK m t.fin) (hwf : WF (t.entries.map declOf)) (a0 : CStr)
    (pre post : List CStr) (p v : CStr) (hp : p ≠ []) (heq : '=' ∉ p) (hv : v ≠ []) (l : Long)
    (hd : Denotes (longTable (t.entries.map declOf) 0) p l) (hk : l.kind ≠ .no)
    (hpre : stillOn env (t.entries.map declOf) pre = true)
    (hargs : CArgs (pre ++ ('-' :: '-' :: (p ++ '=' :: v)) :: post)) {evs evs' : List Ev}
    {ops ops' : List CStr} (h1 : tokenize (t.entries.map declOf) env pre = some (evs, ops))
    (h2 : tokenize (t.entries.map declOf) env post = some (evs', ops')) :
    ReadsAs env t m (a0 :: (pre ++ ('-' :: '-' :: (p ++ '=' :: v)) :: post))
      (evs ++ [.deliver l.entry (some v)] ++ evs') (ops ++ ops') := by
  refine readsAs_of_tokenize (argv := a0 :: (pre ++ ('-' :: '-' :: (p ++ '=' :: v)) :: post)) hend hwf hargs ?_
  refine tokenize_at hpre h1 (isOption_long hp) (fun n => ?_) h2
  have := readCluster_long (ds := t.entries.map declOf) hp heq ('-' :: '-' :: (p ++ '=' :: v)) n
    ('=' :: v) (Or.inr ⟨v, rfl⟩)
  rw [resolve_eq_some hd] at this
  rw [List.tail_cons, this]
  cases hk' : l.kind <;> simp_all [emptyValueError]

/-- C07.  `--p v`. -/
theorem C07_separate (hend : EndOK m t.fin) (hwf : WF (t.entries.map declOf)) (a0 : CStr)
    (pre post : List CStr) (p v : CStr) (hp : p ≠ []) (heq : '=' ∉ p) (hv : v ≠ []) (l : Long)
    (hd : Denotes (longTable (t.entries.map declOf) 0) p l) (hk : l.kind = .req)
    (hpre : stillOn env (t.entries.map declOf) pre = true)
    (hargs : CArgs (pre ++ ('-' :: '-' :: p) :: v :: post)) {evs evs' : List Ev}
    {ops ops' : List CStr} (h1 : tokenize (t.entries.map declOf) env pre = some (evs, ops))
    (h2 : tokenize (t.entries.map declOf) env post = some (evs', ops')) :
    ReadsAs env t m (a0 :: (pre ++ ('-' :: '-' :: p) :: v :: post))
      (evs ++ [.deliver l.entry (some v)] ++ evs') (ops ++ ops') := by
  refine readsAs_of_tokenize (argv := a0 :: (pre ++ ('-' :: '-' :: p) :: v :: post)) hend hwf hargs ?_
  have ho := isOption_long (rest := []) hp
  rw [List.append_nil] at ho
  refine tokenize_at_val hpre h1 ho ?_ h2
  have := readCluster_long (ds := t.entries.map declOf) hp heq ('-' :: '-' :: p) (some v) [] (Or.inl rfl)
  rw [List.append_nil, resolve_eq_some hd] at this
  rw [List.tail_cons, this]
  simp [hk, emptyValueError, hv]

/-- C07.  If `p` denotes nothing then `--p` and `--p=v` cause one error, carrying the argument, and
nothing is handed to any entry. -/
theorem C07_unknown (hend : EndOK m t.fin) (hwf : WF (t.entries.map declOf)) (a0 : CStr)
    (pre post : List CStr) (p rest : CStr) (hp : p ≠ []) (heq : '=' ∉ p)
    (hrest : rest = [] ∨ ∃ v, rest = '=' :: v)
    (hd : ∀ l, ¬ Denotes (longTable (t.entries.map declOf) 0) p l)
    (hpre : stillOn env (t.entries.map declOf) pre = true)
    (hargs : CArgs (pre ++ ('-' :: '-' :: (p ++ rest)) :: post)) {evs evs' : List Ev}
    {ops ops' : List CStr} (h1 : tokenize (t.entries.map declOf) env pre = some (evs, ops))
    (h2 : tokenize (t.entries.map declOf) env post = some (evs', ops')) :
    ReadsAs env t m (a0 :: (pre ++ ('-' :: '-' :: (p ++ rest)) :: post))
      (evs ++ [.fail ARG_ELONGOPT (some ('-' :: '-' :: (p ++ rest)))] ++ evs') (ops ++ ops') := by
  refine readsAs_of_tokenize (argv := a0 :: (pre ++ ('-' :: '-' :: (p ++ rest)) :: post)) hend hwf hargs ?_
  refine tokenize_at hpre h1 (isOption_long hp) (fun n => ?_) h2
  have := readCluster_long (ds := t.entries.map declOf) hp heq ('-' :: '-' :: (p ++ rest)) n rest hrest
  rw [resolve_eq_none hd] at this
  rw [List.tail_cons, this]

/-- C07.  An unknown or ambiguous long option alters no table entry: when `arg_parse` returns, the
entries are those of the command line without it, and there is at least one error. -/
theorem C07_unknown_harmless (hend : EndOK m t.fin) (hwf : WF (t.entries.map declOf)) (a0 : CStr)
    (pre post : List CStr) (p rest : CStr) (hp : p ≠ []) (heq : '=' ∉ p)
    (hrest : rest = [] ∨ ∃ v, rest = '=' :: v)
    (hd : ∀ l, ¬ Denotes (longTable (t.entries.map declOf) 0) p l)
    (hpre : stillOn env (t.entries.map declOf) pre = true)
    (hargs : CArgs (pre ++ ('-' :: '-' :: (p ++ rest)) :: post)) {g g' : GState}
    {r r' : Nat × Table σ × GState}
    (hr : Returns env (a0 :: (pre ++ ('-' :: '-' :: (p ++ rest)) :: post)) t g r)
    (hr' : Returns env (a0 :: (pre ++ post)) t g' r') :
    r.2.1.entries = r'.2.1.entries ∧ 1 ≤ r.1 := by
  have hargs' : CArgs (a0 :: (pre ++ post)).tail := fun b hb => hargs b (by simp at hb ⊢; tauto)
  obtain ⟨evs, ops, es', errs', htok', hm', hs'⟩ := C02_complete hend hwf hargs' hr'
  rw [List.tail_cons, stillOn_append hpre] at htok'
  cases h1 : tokenize (t.entries.map declOf) env pre with
  | none => rw [h1] at htok'; cases htok'
  | some q1 =>
    cases h2 : tokenize (t.entries.map declOf) env post with
    | none => rw [h1, h2] at htok'; simp [joinRead] at htok'
    | some q2 =>
      rw [h1, h2] at htok'
      simp only [joinRead, Option.bind_some, Option.map_some, Option.some.injEq, Prod.mk.injEq] at htok'
      obtain ⟨rfl, rfl⟩ := htok'
      have hread := C07_unknown hend hwf a0 pre post p rest hp heq hrest hd hpre hargs h1 h2 g
      have hmf := meaning_fail t.entries q1.1 q2.1 ARG_ELONGOPT
        (some ('-' :: '-' :: (p ++ rest))) (q1.2 ++ q2.2)
      rw [hm'] at hmf
      cases hm : meaning t.entries (q1.1 ++ [.fail ARG_ELONGOPT (some ('-' :: '-' :: (p ++ rest)))]
          ++ q2.1) (q1.2 ++ q2.2) with
      | error e => rw [hm] at hmf; cases hmf
      | ok q =>
        rw [hm] at hmf hread
        have hmf : q.1 = es' := Except.ok.inj hmf
        obtain ⟨r1, hr1, hs1⟩ := hread
        obtain rfl := hr.unique hr1
        refine ⟨by rw [hs1.entries, hs'.entries, hmf], ?_⟩
        have hpos := hend.pos
        have : 1 ≤ q.2.length := List.length_pos_of_mem (meaning_fail_mem (c := ARG_ELONGOPT)
          (a := some ('-' :: '-' :: (p ++ rest))) (by simp) hm)
        rw [hs1.ret]
        omega

/-- C07.  An abbreviation has the effect of the full name. -/
theorem C07_abbreviation (hend : EndOK m t.fin) (hwf : WF (t.entries.map declOf)) (a0 : CStr)
    (pre post : List CStr) (p rest : CStr) (hp : p ≠ []) (heq : '=' ∉ p) (l : Long)
    (hd : Denotes (longTable (t.entries.map declOf) 0) p l) (heq' : '=' ∉ l.name)
    (hrest : rest = [] ∧ (l.kind = .req → post ≠ []) ∨ ∃ v, v ≠ [] ∧ rest = '=' :: v ∧ l.kind ≠ .no)
    (hpre : stillOn env (t.entries.map declOf) pre = true)
    (hargs : CArgs (pre ++ ('-' :: '-' :: (p ++ rest)) :: post)) (hname : '\x00' ∉ l.name) :
    SameEffect env t (a0 :: (pre ++ ('-' :: '-' :: (p ++ rest)) :: post))
      (a0 :: (pre ++ ('-' :: '-' :: (l.name ++ rest)) :: post)) := by
  have hpl : p <+: l.name := by
    rcases hd with ⟨_, _, _, h, _⟩ | ⟨_, ⟨_, _, _, h, _⟩, _⟩
    · rw [h]; exact List.prefix_refl _
    · exact h
  have hn : l.name ≠ [] := by
    intro h; rw [h] at hpl; exact hp (List.prefix_nil.1 hpl)
  have hd' : Denotes (longTable (t.entries.map declOf) 0) l.name l := by
    rcases hd with ⟨b, c, h1, h2, h3⟩ | ⟨_, ⟨b, c, h1, h2, h3⟩, _⟩
    · exact Or.inl ⟨b, c, h1, rfl, by rw [h2]; exact h3⟩
    · exact Or.inl ⟨b, c, h1, rfl, fun k hk h => h3 k hk (by rw [h]; exact h2)⟩
  have hr' : rest = [] ∨ ∃ v, rest = '=' :: v := by
    rcases hrest with ⟨h, _⟩ | ⟨v, _, h, _⟩
    · exact Or.inl h
    · exact Or.inr ⟨v, h⟩
  refine sameEffect_of_tokenize env t m hend hwf _ _ hargs ?_ ?_
  · intro b hb
    simp only [List.tail_cons, List.mem_append, List.mem_cons] at hb
    rcases hb with hb | rfl | hb
    · exact hargs b (by simp [hb])
    · have := hargs ('-' :: '-' :: (p ++ rest)) (by simp)
      simp only [List.mem_cons, List.mem_append, not_or] at this ⊢
      exact ⟨this.1, this.2.1, hname, this.2.2.2⟩
    · exact hargs b (by simp [hb])
  · simp only [List.tail_cons]
    rw [stillOn_append hpre, stillOn_append hpre]
    congr 1
    have key : ∀ q : CStr, q ≠ [] → '=' ∉ q → Denotes (longTable (t.entries.map declOf) 0) q l →
        ∀ n, (rest = [] → l.kind = .req → n ≠ none) →
        readCluster (t.entries.map declOf) ('-' :: '-' :: (q ++ rest)) n ('-' :: (q ++ rest)) =
        some (match (if rest = [] then none else some rest.tail : Option CStr), l.kind with
        | some v, _ => ([.deliver l.entry (some v)], false)
        | none, .req =>
          (emptyValueError (t.entries.map declOf) l.entry (n.getD []) (n.getD []) ++ [.deliver l.entry (some (n.getD []))], true)
        | none, _ => ([.deliver l.entry none], false)) := by
      intro q hq hqe hqd n hnn
      rw [readCluster_long hq hqe _ n rest hr', resolve_eq_some hqd]
      rcases hrest with ⟨rfl, h⟩ | ⟨v, hv, rfl, h⟩
      · cases hk : l.kind with
        | no => simp [hk]
        | opt => simp [hk]
        | req =>
          cases n with
          | none => exact absurd rfl (hnn rfl hk)
          | some w => simp [hk]
      · cases hk : l.kind with
        | no => exact absurd hk h
        | opt => simp [hk, emptyValueError, hv]
        | req => simp [hk, emptyValueError, hv]
    have hcond : rest = [] → l.kind = .req → post.head? ≠ none := by
      intro h1 h2
      rcases hrest with ⟨_, h⟩ | ⟨v, _, h, _⟩
      · have := h h2
        cases post with
        | nil => exact absurd rfl this
        | cons => simp
      · rw [h1] at h; cases h
    have k1 := key p hp heq hd post.head? hcond
    have k2 := key l.name hn heq' hd' post.head? hcond
    exact tokenize_congr post (isOption_long hp) (isOption_long hn) (k1.trans k2.symm)

/-- `--al` is shared by `--all` and `--almost` of the same entry, and denotes the first. -/
example : SameEffect false Demo.table [cs "prog", cs "x", cs "--al", cs "-v"]
    [cs "prog", cs "x", cs "--all", cs "-v"] :=
  C07_abbreviation (env := false) Demo.finOK Demo.wf _ [cs "x"] [cs "-v"] (cs "al") [] (by decide)
    (by decide) ⟨cs "all", 0, .no⟩ (denotes_of_resolve (by decide)) (by decide)
    (Or.inl ⟨rfl, by decide⟩) (by decide) (by decide) (by decide)

example : SameEffect false Demo.table [cs "prog", cs "--nu=12"] [cs "prog", cs "--number=12"] :=
  C07_abbreviation (env := false) Demo.finOK Demo.wf _ [] [] (cs "nu") (cs "=12") (by decide)
    (by decide) ⟨cs "number", 2, .req⟩ (denotes_of_resolve (by decide)) (by decide)
    (Or.inr ⟨cs "12", by decide, rfl, by decide⟩) (by decide) (by decide) (by decide)

example : ReadsAs false Demo.table 4 [cs "prog", cs "-a", cs "--bogus=1", cs "x"]
    ([.deliver 0 none] ++ [.fail ARG_ELONGOPT (some (cs "--bogus=1"))] ++ []) ([] ++ [cs "x"]) :=
  C07_unknown (env := false) Demo.finOK Demo.wf (cs "prog") [cs "-a"] [cs "x"] (cs "bogus") (cs "=1")
    (by decide) (by decide) (Or.inr ⟨cs "1", rfl⟩) (not_denotes_of_resolve (by decide)) (by decide)
    (by decide) (by decide) (by decide)

example : ReadsAs true Demo.table 4 [cs "prog", cs "--verb", cs "--paint=red", cs "--outp", cs "f"]
    [.deliver 1 none, .deliver 4 (some (cs "red")), .deliver 3 (some (cs "f"))] [] :=
  C07_flag (env := true) (t := Demo.table) Demo.finOK Demo.wf (cs "prog") [] [cs "--paint=red", cs "--outp", cs "f"]
    (cs "verb") (by decide) (by decide) ⟨cs "verbose", 1, .no⟩ (denotes_of_resolve (by decide))
    (by decide) (by decide) (by decide)
    (evs := []) (ops := [])
    (evs' := [.deliver 4 (some (cs "red")), .deliver 3 (some (cs "f"))]) (ops' := []) (by decide)
    (by decide)

/-- `--nu 5` between other arguments. -/
example : ReadsAs false Demo.table 4 [cs "prog", cs "-a", cs "--nu", cs "5", cs "x"]
    ([.deliver 0 none] ++ [.deliver 2 (some (cs "5"))] ++ []) ([] ++ [cs "x"]) :=
  C07_separate (env := false) Demo.finOK Demo.wf (cs "prog") [cs "-a"] [cs "x"] (cs "nu") (cs "5")
    (by decide) (by decide) (by decide) ⟨cs "number", 2, .req⟩ (denotes_of_resolve (by decide)) rfl (by decide)
    (by decide) (by decide) (by decide)

/-- `--bogus=1` leaves the entries as they are without it. -/
example : ∃ r r', Returns false [cs "prog", cs "-a", cs "--bogus=1", cs "x"] Demo.table Demo.g0 r ∧
    Returns false [cs "prog", cs "-a", cs "x"] Demo.table Demo.g0 r' ∧
    r.2.1.entries = r'.2.1.entries ∧ 1 ≤ r.1 := by
  obtain ⟨r, hr, _⟩ := readsAs_of_tokenize (t := Demo.table) (env := false) Demo.finOK Demo.wf
    (argv := [cs "prog", cs "-a", cs "--bogus=1", cs "x"]) (by decide)
    (evs := [.deliver 0 none, .fail ARG_ELONGOPT (some (cs "--bogus=1"))]) (ops := [cs "x"]) (by decide) Demo.g0
  obtain ⟨r', hr', _⟩ := readsAs_of_tokenize (t := Demo.table) (env := false) Demo.finOK Demo.wf
    (argv := [cs "prog", cs "-a", cs "x"]) (by decide)
    (evs := [.deliver 0 none]) (ops := [cs "x"]) (by decide) Demo.g0
  exact ⟨r, r', hr, hr', C07_unknown_harmless Demo.finOK Demo.wf (cs "prog") [cs "-a"] [cs "x"] (cs "bogus") (cs "=1")
    (by decide) (by decide) (Or.inr ⟨cs "1", rfl⟩) (not_denotes_of_resolve (by decide)) (by decide) (by decide) hr hr'⟩

/-! ## C19 -/

/-- C19.  A short option is handed to the first entry that declares it, whatever the later entries
declare: as a flag `-c`, or with attached value `-cV`. -/
theorem C19_short (hend : EndOK m t.fin) (hwf : WF (t.entries.map declOf)) (a0 : CStr)
    (pre post : List CStr) (c : Char) (hc : c ≠ '-') (A B : List (Hdr σ)) (h : Hdr σ)
    (ht : t.entries = A ++ h :: B) (hA : ∀ k ∈ A, c ∉ k.shortopts.getD [])
    (hh : c ∈ h.shortopts.getD []) (v : CStr)
    (hv : v = [] ∧ h.hasValue = false ∧ h.hasOptValue = false ∨
      v ≠ [] ∧ (h.hasValue = true ∨ h.hasOptValue = true))
    (hpre : stillOn env (t.entries.map declOf) pre = true)
    (hargs : CArgs (pre ++ ('-' :: c :: v) :: post)) {evs evs' : List Ev}
    {ops ops' : List CStr} (h1 : tokenize (t.entries.map declOf) env pre = some (evs, ops))
    (h2 : tokenize (t.entries.map declOf) env post = some (evs', ops')) :
    ReadsAs env t m (a0 :: (pre ++ ('-' :: c :: v) :: post))
      (evs ++ [.deliver A.length (if v = [] then none else some v)] ++ evs') (ops ++ ops') := by
  refine readsAs_of_tokenize (argv := a0 :: (pre ++ ('-' :: c :: v) :: post)) hend hwf hargs ?_
  refine tokenize_at hpre h1 (by simp [isOption, isOperand, hc]) (fun n => ?_) h2
  have hl : shortLookup c (t.entries.map declOf) 0 = some (A.length, (declOf h).shortKind) := by
    rw [ht, List.map_append, List.map_cons]
    rw [shortLookup_first (A.map declOf) (declOf h) (B.map declOf)]
    · simp
    · intro k hk
      obtain ⟨x, hx, rfl⟩ := List.mem_map.1 hk
      exact hA x hx
    · exact hh
  rw [List.tail_cons, readCluster, if_neg hc, hl]
  rcases hv with ⟨rfl, e1, e2⟩ | ⟨hv, e⟩
  · simp [Decl.shortKind, declOf, e1, e2, readCluster]
  · cases e1 : h.hasValue <;> cases e2 : h.hasOptValue <;>
      simp_all [Decl.shortKind, declOf]

/-- C19.  A long option is handed to the first entry that declares that name. -/
theorem C19_long (hend : EndOK m t.fin) (hwf : WF (t.entries.map declOf)) (a0 : CStr)
    (pre post : List CStr) (n : CStr) (hn : n ≠ []) (heq : '=' ∉ n) (A B : List (Hdr σ)) (h : Hdr σ)
    (ht : t.entries = A ++ h :: B) (hA : ∀ k ∈ A, n ∉ (k.longopts.map namesOf).getD [])
    (hh : n ∈ (h.longopts.map namesOf).getD []) (rest : CStr)
    (hv : rest = [] ∧ (h.hasValue = false ∨ h.hasOptValue = true) ∨
      ∃ v, v ≠ [] ∧ rest = '=' :: v ∧ (h.hasValue = true ∨ h.hasOptValue = true))
    (hpre : stillOn env (t.entries.map declOf) pre = true)
    (hargs : CArgs (pre ++ ('-' :: '-' :: (n ++ rest)) :: post)) {evs evs' : List Ev}
    {ops ops' : List CStr} (h1 : tokenize (t.entries.map declOf) env pre = some (evs, ops))
    (h2 : tokenize (t.entries.map declOf) env post = some (evs', ops')) :
    ReadsAs env t m (a0 :: (pre ++ ('-' :: '-' :: (n ++ rest)) :: post))
      (evs ++ [.deliver A.length (if rest = [] then none else some rest.tail)] ++ evs')
      (ops ++ ops') := by
  have hd : Denotes (longTable (t.entries.map declOf) 0) n ⟨n, A.length, (declOf h).longKind⟩ := by
    rw [ht, List.map_append, List.map_cons]
    have := denotes_first (n := n) (A.map declOf) (declOf h) (B.map declOf) (by
      intro k hk
      obtain ⟨x, hx, rfl⟩ := List.mem_map.1 hk
      exact hA x hx) hh
    simpa using this
  rcases hv with ⟨rfl, e⟩ | ⟨v, hv, rfl, e⟩
  · rw [List.append_nil] at hargs ⊢
    refine C07_flag hend hwf a0 pre post n hn heq _ hd ?_ hpre hargs h1 h2
    show (declOf h).longKind ≠ _
    unfold Decl.longKind
    rcases e with e | e
    · have e : (declOf h).hasValue = _ := e
      simp only [e]; cases (declOf h).hasOptValue <;> simp
    · have e : (declOf h).hasOptValue = _ := e
      simp [e]
  · simp only [reduceCtorEq, if_false, List.tail_cons]
    refine C07_value hend hwf a0 pre post n v hn heq hv _ hd ?_ hpre hargs h1 h2
    show (declOf h).longKind ≠ _
    unfold Decl.longKind
    rcases e with e | e
    · have e : (declOf h).hasValue = _ := e
      simp only [e]; cases (declOf h).hasOptValue <;> simp
    · have e : (declOf h).hasOptValue = _ := e
      simp [e]

namespace Demo
/-- Another entry that declares `-a`, `-n` and `--all`. -/
def dup : Hdr (Obj Unit) :=
  made (argIntn (some (cs "an")) (some (cs "other,all")) none 0 2 (some (cs "shadowed")))
def dupTable : Table (Obj Unit) := ⟨entries ++ [dup], fin⟩

theorem dup_wf : WF (dupTable.entries.map declOf) := by
  intro d hd
  simp only [dupTable, List.map_append, List.mem_append, List.map_cons, List.map_nil,
    List.mem_cons, List.not_mem_nil, or_false] at hd
  rcases hd with hd | rfl
  · exact wf d hd
  · have : declOf dup = ⟨true, false, some (cs "an"), some (cs "other,all")⟩ := rfl
    rw [this]
    exact ⟨by intro s h; cases h <;> decide, by intro s h; cases h <;> decide⟩
end Demo

example : ReadsAs false Demo.dupTable 4 [cs "prog", cs "-n5", cs "x"]
    ([] ++ [.deliver 2 (some (cs "5"))] ++ []) ([] ++ [cs "x"]) :=
  C19_short (env := false) (t := Demo.dupTable) Demo.finOK Demo.dup_wf (cs "prog") [] [cs "x"] 'n'
    (by decide) [Demo.a, Demo.v] [Demo.o, Demo.p, Demo.r, Demo.f, Demo.dup] Demo.n rfl (by decide)
    (by decide) (cs "5") (Or.inr ⟨by decide, Or.inl rfl⟩) (by decide) (by decide) (by decide)
    (by decide)

example : ReadsAs false Demo.dupTable 4 [cs "prog", cs "--all", cs "x"]
    ([] ++ [.deliver 0 none] ++ []) ([] ++ [cs "x"]) :=
  C19_long (env := false) (t := Demo.dupTable) Demo.finOK Demo.dup_wf (cs "prog") [] [cs "x"] (cs "all")
    (by decide) (by decide) [] [Demo.v, Demo.n, Demo.o, Demo.p, Demo.r, Demo.f, Demo.dup] Demo.a rfl
    (by decide) (by decide) [] (Or.inl ⟨rfl, Or.inl rfl⟩) (by decide) (by decide) (by decide)
    (by decide)

/-! ## C20 -/

/-- C20.  With POSIXLY_CORRECT set, the first operand `x` and everything after it are operands. -/
theorem C20_posixly_correct (hend : EndOK m t.fin) (hwf : WF (t.entries.map declOf)) (a0 : CStr)
    (pre rest : List CStr) (x : CStr) (hx : isOperand x = true)
    (hpre : optionsOnly (t.entries.map declOf) pre = true)
    (hargs : CArgs (pre ++ x :: rest)) {evs : List Ev} {ops : List CStr}
    (htok : tokenize (t.entries.map declOf) true pre = some (evs, ops)) :
    ReadsAs true t m (a0 :: (pre ++ x :: rest)) evs (x :: rest) := by
  refine readsAs_of_tokenize (argv := a0 :: (pre ++ x :: rest)) hend hwf hargs ?_
  have h0 := optionsOnly_ops _ true _ _ (Nat.le_refl _) hpre evs ops htok
  rw [List.tail_cons, optionsOnly_append _ true _ _ (Nat.le_refl _) hpre, htok, tokenize,
    if_neg (by rintro rfl; simp [isOperand] at hx), if_pos hx, if_pos rfl]
  simp [joinRead, h0]

example : ReadsAs true Demo.table 4 [cs "prog", cs "-n", cs "1", cs "x", cs "-a", cs "--", cs "--all"]
    [.deliver 2 (some (cs "1"))] [cs "x", cs "-a", cs "--", cs "--all"] :=
  C20_posixly_correct Demo.finOK Demo.wf (cs "prog") [cs "-n", cs "1"] [cs "-a", cs "--", cs "--all"]
    (cs "x") (by decide) (by decide) (by decide) (ops := []) (by decide)

end Argtable
