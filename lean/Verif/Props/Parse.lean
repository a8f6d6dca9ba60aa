import Verif.Proofs.Checks
import Verif.Proofs.Reading
import Verif.Props.Demo
/-!
# Outcomes of `arg_parse` (C01, C08–C10, C13–C16, C18, C24)
-/

namespace Argtable

open Spec

variable {δ σ : Type} {lc : Libc δ} {env : Bool} {m : Nat}

/-! ## C01 -/

/-- C01, the part that holds: `arg_parse` returns on every command line without a cluster that ends in
`-` as described by `Stuck`.  (Values with two minus signs and dangerous patterns are excluded here
because of C23, C34, C35; see `C01_terminates_partial` for what is left without these conditions.) -/
theorem C01_returns_partial {t : Table (Obj δ)} (hend : EndOK m t.fin)
    (hwf : WF (t.entries.map declOf)) (hl : ∀ h ∈ t.entries, Live lc GoodPat h) (argv : List CStr)
    (hargs : CArgs argv.tail) (g : GState)
    (hst : ¬ ∃ pre a post, argv.tail = pre ++ a :: post ∧
      stillOn env (t.entries.map declOf) pre = true ∧ Stuck (t.entries.map declOf) a)
    (hminus : ∀ evs ops, tokenize (t.entries.map declOf) env argv.tail = some (evs, ops) →
      ArgsIn OneMinus evs ops) :
    ∃ r, Returns env argv t g r := by
  rw [← tokenize_none_iff env _ _ _ (Nat.le_refl _)] at hst
  cases htok : tokenize (t.entries.map declOf) env argv.tail with
  | none => exact absurd htok hst
  | some q =>
    obtain ⟨es, errs, r, _, _, h, _⟩ := argParse_terminates
      (lawful_live lc (A := OneMinus) (E := fun _ => False) (Or.inr fun _ h => h)
        (Or.inr fun _ h => h)) env t m hend hwf hl argv hargs g htok (hminus _ _ htok)
    exact ⟨r, h⟩

/-- C01, for every table made by the constructors: without a stuck cluster the call ends, by returning
or (C23, C34, C35) by performing one of the undefined operations in `Hazard`. -/
theorem C01_terminates_partial {t : Table (Obj δ)} (hend : EndOK m t.fin)
    (hwf : WF (t.entries.map declOf)) (hl : ∀ h ∈ t.entries, Live lc AnyPat h) (argv : List CStr)
    (hargs : CArgs argv.tail) (g : GState)
    (hst : ¬ ∃ pre a post, argv.tail = pre ++ a :: post ∧
      stillOn env (t.entries.map declOf) pre = true ∧ Stuck (t.entries.map declOf) a) :
    (∃ r, Returns env argv t g r) ∨ ∃ w, Crashes env argv t g w ∧ Hazard (.ub w) := by
  rw [← tokenize_none_iff env _ _ _ (Nat.le_refl _)] at hst
  cases htok : tokenize (t.entries.map declOf) env argv.tail with
  | none => exact absurd htok hst
  | some q =>
    have hread := readsAs_of_tokenize (env := env) hend hwf hargs htok g
    have hg := meaning_good (lawful_live lc (R := AnyPat) (A := AnyArg) (E := Hazard)
      (Or.inl .overflow) (Or.inl ⟨.nullRegex, .pastText⟩)) hl (ops := q.2)
      (tokenize_evOK _ _ _ _ (Nat.le_refl _) _ _ htok) (argsIn_any q.1 q.2)
    cases hm : meaning t.entries q.1 q.2 with
    | ok p =>
      rw [hm] at hread
      obtain ⟨r, hr, _⟩ := hread
      exact Or.inl ⟨r, hr⟩
    | error e =>
      rw [hm] at hread hg
      have hg : Hazard e := hg
      cases hg with
      | overflow => exact Or.inr ⟨_, hread, .overflow⟩
      | nullRegex => exact Or.inr ⟨_, hread, .nullRegex⟩
      | pastText => exact Or.inr ⟨_, hread, .pastText⟩

/-- C01, the other side: with a stuck cluster `arg_parse` does not return, for any table. -/
theorem C01_stuck {t : Table σ} (hwf : WF (t.entries.map declOf)) (argv : List CStr)
    (hargs : CArgs argv.tail) (g : GState) (pre post : List CStr) (a : CStr)
    (hargv : argv.tail = pre ++ a :: post) (hpre : stillOn env (t.entries.map declOf) pre = true)
    (ha : Stuck (t.entries.map declOf) a) : ∀ r, ¬ Returns env argv t g r :=
  fun r => argParse_hung env t hwf argv hargs g
    ((tokenize_none_iff env _ _ _ (Nat.le_refl _)).2 ⟨pre, a, post, hargv, hpre, ha⟩) r

/-- A table with one flag `-a`. -/
def Demo.flagTable : Table (Obj Unit) :=
  ⟨[argLitn (some (cs "a")) none 0 1 none], ⟨2, List.replicate 2 ⟨0, .endt, none⟩, 0⟩⟩

/-- C01 is false: `prog -a-` with a flag `-a` runs forever. -/
theorem C01_counterexample : Hangs false [cs "prog", cs "-a-"] Demo.flagTable Demo.g0 := by
  have hwf : WF (Demo.flagTable.entries.map declOf) := by
    have e : Demo.flagTable.entries.map declOf = [⟨false, false, some (cs "a"), none⟩] := rfl
    rw [e]
    intro d hd
    simp only [List.mem_singleton] at hd
    subst hd
    exact ⟨by intro s h; cases h <;> decide, by intro s h; cases h⟩
  -- the only entry is an `arg_lit`
  refine argParse_hangs (J := fun h => ∃ c, h = { (argLitn (δ := Unit) (some (cs "a")) none 0 1 none)
    with parent := .lit c }) ?_ false Demo.flagTable 2 ⟨by decide, rfl, rfl⟩ hwf ?_
    [cs "prog", cs "-a-"] (by decide) Demo.g0 (by decide)
  · constructor
    · rintro _ f ⟨c, rfl⟩ hf
      cases hf
      exact ⟨0, rfl⟩
    · rintro _ f a ⟨c, rfl⟩ _ hf
      cases hf
      exact ⟨_, rfl⟩
  · intro h hh
    have hh : h = argLitn (some (cs "a")) none 0 1 none := by simpa [Demo.flagTable] using hh
    subst hh
    exact ⟨0, rfl⟩

example : ∃ r, Returns false [cs "prog", cs "x", cs "-va", cs "--num=3", cs "-p", cs "-n", cs "-4"]
    Demo.table Demo.g0 r := by
  have htok : tokenize (Demo.table.entries.map declOf) false
      [cs "x", cs "-va", cs "--num=3", cs "-p", cs "-n", cs "-4"]
    = some ([.deliver 1 none, .deliver 0 none, .deliver 2 (some (cs "3")), .deliver 4 none,
        .deliver 2 (some (cs "-4"))], [cs "x"]) := by decide
  refine C01_returns_partial (env := false) Demo.finOK Demo.wf (Demo.live GoodPat) _ (by decide)
    Demo.g0 ?_ ?_
  · rw [← tokenize_none_iff false _ _ _ (Nat.le_refl _)]
    rw [List.tail_cons, htok]
    simp
  · intro evs ops h
    rw [List.tail_cons, htok] at h
    cases h
    refine ⟨?_, ?_⟩
    · intro i a hmem
      simp at hmem
      rcases hmem with ⟨_, rfl⟩ | ⟨_, rfl⟩ | ⟨_, rfl⟩ | ⟨_, rfl⟩ | ⟨_, rfl⟩ <;> simp [OneMinus, cs]
    · intro a ha
      simp at ha
      subst ha
      simp [OneMinus, cs]

/-! ## C08 -/

/-- C08.  After `arg_parse` no count exceeds `maxcount` (a negative `maxcount` counts as 0), and when it
returns 0, every count is at least `mincount`.  Only the value parts of the entries have changed. -/
theorem C08_counts {t : Table (Obj δ)} (hend : EndOK m t.fin) (hwf : WF (t.entries.map declOf))
    (hl : ∀ h ∈ t.entries, Live lc AnyPat h) (argv : List CStr) (hargs : CArgs argv.tail)
    (g : GState) (r : Nat × Table (Obj δ) × GState) (hr : Returns env argv t g r) :
    Frame t.entries r.2.1.entries ∧
    (∀ h ∈ r.2.1.entries, (h.parent.count : Int) ≤ max h.maxcount 0) ∧
    (r.1 = 0 → ∀ h ∈ r.2.1.entries, isRem h.parent = false → h.mincount ≤ h.parent.count) := by
  obtain ⟨hJ, _, evs, ops, es, errs, htok, hm, hs⟩ := returns_good
    (lawful_live lc (R := AnyPat) (A := AnyArg) (E := Hazard)
      (Or.inl .overflow) (Or.inl ⟨.nullRegex, .pastText⟩)) env t m hend hwf hl argv hargs g hr
  refine ⟨by rw [hs.entries]; exact meaning_frame hm, fun h hh => live_count (hJ h hh), fun h0 => ?_⟩
  have herr : errs = [] := by
    have := hs.ret
    have := hend.pos
    exact List.length_eq_zero_iff.1 (by omega)
  rw [meaning_scanned] at hm
  cases hsc : scanned t.entries evs ops with
  | error e => rw [hsc] at hm; cases hm
  | ok q =>
    rw [hsc] at hm
    have hm := Except.ok.inj hm
    have h1 : q.1 = es := congrArg Prod.fst hm
    have h2 : (if q.2 = [] then checks q.1 0 else q.2) = errs := congrArg Prod.snd hm
    rw [herr] at h2
    have h3 : checks q.1 0 = [] := by
      split at h2
      · exact h2
      · rename_i hne; exact absurd h2 hne
    rw [hs.entries] at hJ ⊢
    rw [h1, checks_missing es hJ 0] at h3
    exact missing_nil es 0 h3

/-- `prog -a file1 file2` leaves count 1 in `-a` and 2 in `FILE`, and returns 0. -/
example : ∃ r, Returns false [cs "prog", cs "-a", cs "file1", cs "file2"] Demo.table Demo.g0 r ∧
    r.1 = 0 ∧ r.2.1.entries.map (·.parent.count) = [1, 0, 0, 0, 0, 0, 2] := by
  obtain ⟨r, hr, hs⟩ := readsAs_of_tokenize (t := Demo.table) (env := false) Demo.finOK Demo.wf
    (argv := [cs "prog", cs "-a", cs "file1", cs "file2"]) (by decide)
    (evs := [.deliver 0 none]) (ops := [cs "file1", cs "file2"]) (by decide) Demo.g0
  exact ⟨r, hr, hs.ret, by rw [hs.entries]; rfl⟩

/-! ## C09 -/

/-- Entries keep their shape, and the terminator its size, over any history of parses. -/
theorem C09_invariant {t t' : Table (Obj δ)} (hend : EndOK m t.fin) (hwf : WF (t.entries.map declOf))
    (hl : ∀ h ∈ t.entries, Live lc AnyPat h) (ha : After t t') :
    EndOK m t'.fin ∧ WF (t'.entries.map declOf) ∧ ∀ h ∈ t'.entries, Live lc AnyPat h := by
  induction ha with
  | refl => exact ⟨hend, hwf, hl⟩
  | @parse t' env argv g r _ hargs hr ih =>
    obtain ⟨e, w, l⟩ := ih
    obtain ⟨hJ, hE, evs, ops, es, errs, htok, hm, hs⟩ := returns_good
      (lawful_live lc (R := AnyPat) (A := AnyArg) (E := Hazard)
        (Or.inl .overflow) (Or.inl ⟨.nullRegex, .pastText⟩)) env t' m e w l argv hargs g hr
    refine ⟨hE, ?_, hJ⟩
    have : r.2.1.entries.map declOf = t'.entries.map declOf := by
      rw [hs.entries]
      have hf := meaning_frame hm
      clear hm hs
      unfold Frame at hf
      dsimp only at hf
      revert hf
      generalize t'.entries = a
      generalize es = b
      intro hf
      induction hf with
      | nil => rfl
      | cons h1 _ ih =>
        rw [List.map_cons, List.map_cons, ih, h1]
        rfl
    rw [this]
    exact w

/-- C09.  After any history of parses, no command line makes `arg_parse` store outside an array: the
only undefined operations it can perform are those in `Hazard`, none of which is a store. -/
theorem C09_no_stray_write {t t' : Table (Obj δ)} (hend : EndOK m t.fin)
    (hwf : WF (t.entries.map declOf)) (hm : ∀ h ∈ t.entries, Live lc AnyPat h) (ha : After t t')
    (argv : List CStr) (hargs : CArgs argv.tail) (g : GState) (w : String)
    (hc : Crashes env argv t' g w) : Hazard (.ub w) := by
  obtain ⟨e, wf, l⟩ := C09_invariant hend hwf hm ha
  obtain ⟨fuel, hf⟩ := hc
  rcases argParse_error (lawful_live lc (R := AnyPat) (A := AnyArg) (E := Hazard)
      (Or.inl .overflow) (Or.inl ⟨.nullRegex, .pastText⟩)) env t' m e wf l argv hargs g fuel _ hf with
    h | h
  · cases h
  · exact h

/-- What the constructors return satisfies the hypothesis of the C08 and C09 theorems. -/
theorem C09_made {h : Hdr (Obj δ)} {R : CStr → Prop} (hm : Made lc R h) : Live lc R h :=
  live_of_made hm

/-- The terminator must have room for at least one error: with `arg_end(0)` the first error is stored
before the arrays. -/
theorem C09_end_zero : Crashes false [cs "prog", cs "-x"]
    (⟨[argLitn (some (cs "a")) none 0 1 none], ⟨0, [], 0⟩⟩ : Table (Obj Unit)) Demo.g0
    "arg_register_error: index out of range" := by
  refine ⟨3, ?_⟩
  with_unfolding_all rfl

/-! ## C10 -/

/-- C10.  If the command line raises the errors `errs` (in this order), then `arg_parse` returns
`min |errs| m`, which is also the count in `arg_end`, and `arg_end` holds all of them if they fit, and
otherwise the first `m - 1` followed by "too many errors". -/
theorem C10_recorded {t : Table σ} (hend : EndOK m t.fin) (hwf : WF (t.entries.map declOf))
    (argv : List CStr) (hargs : CArgs argv.tail) (g : GState) (r : Nat × Table σ × GState)
    (hr : Returns env argv t g r) {evs : List Ev} {ops : List CStr}
    (htok : tokenize (t.entries.map declOf) env argv.tail = some (evs, ops)) :
    ∃ es errs, meaning t.entries evs ops = .ok (es, errs) ∧
      r.1 = min errs.length m ∧ r.2.1.fin.count = r.1 ∧
      r.2.1.fin.slots.take r.1 = if errs.length ≤ m then errs
        else errs.take (m - 1) ++ [⟨ARG_ELIMIT, .endt, none⟩] := by
  obtain ⟨es, errs, h1, h2⟩ := returns_inv env t m hend hwf argv hargs g htok hr
  refine ⟨es, errs, h1, h2.ret, by rw [h2.ret, h2.rel.count], ?_⟩
  have := h2.rel.slots
  rw [h2.rel.count] at this
  rw [h2.ret, this]
  rfl

/-- C10 without reference to the specification: compare with a call with a roomier `arg_end` that shows
all errors.  The small one shows the same errors, cut as described. -/
theorem C10_capacity {m' : Nat} {t t' : Table σ} (hend : EndOK m t.fin) (hend' : EndOK m' t'.fin)
    (hes : t'.entries = t.entries) (hwf : WF (t.entries.map declOf)) (argv : List CStr)
    (hargs : CArgs argv.tail) (g g' : GState) (r r' : Nat × Table σ × GState)
    (hr : Returns env argv t g r) (hr' : Returns env argv t' g' r') (hroom : r'.1 < m') :
    r.2.1.entries = r'.2.1.entries ∧ r.1 = min r'.1 m ∧
    r.2.1.fin.slots.take r.1 = if r'.1 ≤ m then r'.2.1.fin.slots.take r'.1
      else (r'.2.1.fin.slots.take r'.1).take (m - 1) ++ [⟨ARG_ELIMIT, .endt, none⟩] := by
  cases htok : tokenize (t.entries.map declOf) env argv.tail with
  | none => exact absurd hr (argParse_hung env t hwf argv hargs g htok r)
  | some q =>
    obtain ⟨es, errs, h1, h2⟩ := returns_inv env t m hend hwf argv hargs g htok hr
    obtain ⟨es', errs', h1', h2'⟩ := returns_inv env t' m' hend' (by rw [hes]; exact hwf) argv hargs g'
      (by rw [hes]; exact htok) hr'
    rw [hes, h1] at h1'
    cases h1'
    have e1 := h2.ret
    have e1' := h2'.ret
    have e2 := h2.rel.slots
    have e2' := h2'.rel.slots
    rw [h2.rel.count, ← e1] at e2
    rw [h2'.rel.count, ← e1'] at e2'
    have hlen : r'.1 = errs.length := by omega
    refine ⟨by rw [h2.entries, h2'.entries], by omega, ?_⟩
    rw [e2, e2', hlen]
    unfold recorded
    rw [if_pos (show errs.length ≤ m' by omega)]

/-- Six errors in an `arg_end(4)`. -/
example : ∃ r, Returns false [cs "prog", cs "-xyz", cs "--bogus", cs "-n", cs "q", cs "-n"]
    Demo.table Demo.g0 r ∧ r.1 = 4 ∧ r.2.1.fin.slots.take 4 =
      [⟨120, .endt, none⟩, ⟨121, .endt, none⟩, ⟨122, .endt, none⟩, ⟨ARG_ELIMIT, .endt, none⟩] := by
  obtain ⟨r, hr, hs⟩ := readsAs_of_tokenize (t := Demo.table) (env := false) Demo.finOK Demo.wf
    (argv := [cs "prog", cs "-xyz", cs "--bogus", cs "-n", cs "q", cs "-n"]) (by decide)
    (evs := [.fail 120 none, .fail 121 none, .fail 122 none, .fail ARG_ELONGOPT (some (cs "--bogus")),
      .deliver 2 (some (cs "q")), .fail ARG_EMISSARG (some (cs "-n"))]) (ops := []) (by decide) Demo.g0
  refine ⟨r, hr, hs.ret, ?_⟩
  have := hs.rel.slots
  rw [hs.rel.count] at this
  exact this

/-! ## C13, C14 -/

/-- C13.  The private copy of `argv` ends as a permutation of the original, with the program name in
front.  (The caller's array is an input of the model that is only read: argtable3.c:449-451 copies it,
and all later code works on the copy.) -/
theorem C13_argv {t : Table σ} (hend : EndOK m t.fin) (hwf : WF (t.entries.map declOf))
    (argv : List CStr) (hne : argv ≠ []) (hargs : CArgs argv.tail) (g : GState)
    (r : Nat × Table σ × GState) (hr : Returns env argv t g r) :
    r.2.2.nargv.Perm argv ∧ r.2.2.nargv.head? = argv.head? := by
  cases htok : tokenize (t.entries.map declOf) env argv.tail with
  | none => exact absurd hr (argParse_hung env t hwf argv hargs g htok r)
  | some q =>
    obtain ⟨es, errs, _, h2⟩ := returns_inv env t m hend hwf argv hargs g htok hr
    exact ⟨h2.perm hne, h2.head hne⟩

/-- C14.  The permutation step of getopt exchanges the two blocks `N` and `O`. -/
theorem C14_permute {α : Type} (P N O S : List α) (hN : N ≠ []) (hO : O ≠ []) :
    permuteArgs P.length (P.length + N.length) (P.length + N.length + O.length)
      (P ++ N ++ O ++ S) = .ok (P ++ O ++ N ++ S) :=
  permuteArgs_blocks P N O S hN hO

example : permuteArgs 1 4 6 ["p", "a", "b", "c", "-x", "-y", "z"]
    = .ok ["p", "-x", "-y", "a", "b", "c", "z"] :=
  C14_permute ["p"] ["a", "b", "c"] ["-x", "-y"] ["z"] (by decide) (by decide)

/-! ## C15 -/

/-- C15, long options.  If no entry has a long-options string that is empty or begins with a comma, the
option table is built without a write outside its allocations, and contains exactly the names in the
comma separated lists, in order. -/
theorem C15_long_partial (es : List (Hdr σ))
    (h : ∀ e ∈ es, ∀ s, e.longopts = some s → s ≠ [] ∧ s.head? ≠ some ',') :
    allocLongoptions es = .ok ((longTable (es.map declOf) 0).map toLongOpt) := by
  exact allocLongoptions_ok' es h

/-- C15, short options: always inside the buffer; each character is followed by one colon for
`ARG_HASVALUE` and one for `ARG_HASOPTVALUE`. -/
theorem C15_short (es : List (Hdr σ)) :
    allocShortoptions es = .ok (':' :: es.flatMap fun e => (e.shortopts.getD []).flatMap fun c =>
      c :: ((if e.hasValue then [':'] else []) ++ (if e.hasOptValue then [':'] else []))) :=
  allocShortoptions_ok es

/-- C15 is false in general: a leading comma makes the table builder write past its allocation. -/
theorem C15_leading_comma :
    allocLongoptions [(argLitn none (some (cs ",a")) 0 1 none : Hdr (Obj Unit))]
      = .error (.ub "alloc_longoptions: heap overflow") := by
  with_unfolding_all rfl

/-- C15 is false in general: an empty string makes it read past the terminating NUL. -/
theorem C15_empty :
    allocLongoptions [(argLitn none (some []) 0 1 none : Hdr (Obj Unit))]
      = .error (.ub "alloc_longoptions: strchr past the end of an empty string") := by
  with_unfolding_all rfl

/-- Two names for the first entry, one for the second. -/
example : allocLongoptions [(argLitn none (some (cs "verbose,loud")) 0 1 none : Hdr (Obj Unit)),
    argLitn (some (cs "q")) (some (cs "quiet")) 0 1 none]
      = .ok [⟨cs "verbose", 0, true, 0⟩, ⟨cs "loud", 0, true, 0⟩, ⟨cs "quiet", 0, true, 1⟩] :=
  C15_long_partial _ (by
    intro e he s hs
    simp only [List.mem_cons, List.not_mem_nil, or_false] at he
    rcases he with rfl | rfl <;> (cases hs; decide))

/-! ## C16 -/

/-- C16.  Let `raised` be the errors that the arguments themselves raise and `es` the entries
after all arguments have been delivered.  If there are none, the errors recorded are exactly one
"missing" record for each entry with fewer values than its `mincount`, in table order.  Otherwise
they are exactly `raised`, and none of these is a "missing" record. -/
theorem C16_missing {t : Table (Obj δ)} (hend : EndOK m t.fin) (hwf : WF (t.entries.map declOf))
    (hl : ∀ h ∈ t.entries, Live lc AnyPat h) (argv : List CStr) (hargs : CArgs argv.tail)
    (g : GState) (r : Nat × Table (Obj δ) × GState) (hr : Returns env argv t g r) :
    ∃ evs ops raised, tokenize (t.entries.map declOf) env argv.tail = some (evs, ops) ∧
      scanned t.entries evs ops = .ok (r.2.1.entries, raised) ∧
      (∀ e ∈ raised, ¬ isMissing e) ∧
      r.2.1.fin.slots.take r.1
        = recorded m (if raised = [] then missing r.2.1.entries 0 else raised) := by
  obtain ⟨hJ, _, evs, ops, es, errs, htok, hm, hs⟩ := returns_good
    (lawful_live lc (R := AnyPat) (A := AnyArg) (E := Hazard)
      (Or.inl .overflow) (Or.inl ⟨.nullRegex, .pastText⟩)) env t m hend hwf hl argv hargs g hr
  rw [meaning_scanned] at hm
  cases hsc : scanned t.entries evs ops with
  | error e => rw [hsc] at hm; cases hm
  | ok q =>
    rw [hsc] at hm
    have hm := Except.ok.inj hm
    have h1 : q.1 = es := congrArg Prod.fst hm
    have h2 : (if q.2 = [] then checks q.1 0 else q.2) = errs := congrArg Prod.snd hm
    have h3 := hs.rel.slots
    rw [hs.rel.count, ← hs.ret] at h3
    rw [hs.entries] at hJ
    refine ⟨evs, ops, q.2, htok, ?_, scanned_noMissing hl hsc, ?_⟩
    · rw [hsc, hs.entries, ← h1]
    · rw [h3, ← h2, hs.entries, h1, checks_missing es hJ 0]

/-- C16 read off the result alone, with room for all errors: if a "missing" record for entry `i` is
there, then entry `i` misses values; and if all records are "missing" records, then there is one for each
entry `i` that misses values. -/
theorem C16_exact {t : Table (Obj δ)} (hend : EndOK m t.fin) (hwf : WF (t.entries.map declOf))
    (hl : ∀ h ∈ t.entries, Live lc AnyPat h) (argv : List CStr) (hargs : CArgs argv.tail)
    (g : GState) (r : Nat × Table (Obj δ) × GState) (hr : Returns env argv t g r) (i : Nat)
    (hi : i < r.2.1.entries.length) (hsize : r.2.1.entries.length ≤ m) :
    (⟨ARG_ERR_MINCOUNT, .entry i, none⟩ ∈ r.2.1.fin.slots.take r.1 →
      isRem r.2.1.entries[i].parent = false ∧
      (r.2.1.entries[i].parent.count : Int) < r.2.1.entries[i].mincount) ∧
    ((∀ e ∈ r.2.1.fin.slots.take r.1, isMissing e) → isRem r.2.1.entries[i].parent = false →
      (r.2.1.entries[i].parent.count : Int) < r.2.1.entries[i].mincount →
      ⟨ARG_ERR_MINCOUNT, .entry i, none⟩ ∈ r.2.1.fin.slots.take r.1) := by
  obtain ⟨evs, ops, raised, htok, hsc, hno, hrec⟩ := C16_missing hend hwf hl argv hargs g r hr
  have hfit : recorded m (missing r.2.1.entries 0) = missing r.2.1.entries 0 := by
    have := missing_length r.2.1.entries 0
    unfold recorded
    rw [if_pos (by omega)]
  rw [hrec]
  have hmem := mem_missing r.2.1.entries 0 i
  constructor
  · intro h
    split at h
    · rw [hfit] at h
      obtain ⟨k, hk, e, h1, h2⟩ := hmem.1 h
      have : k = i := by omega
      subst this
      exact ⟨h1, h2⟩
    · exfalso
      rcases mem_recorded h with h | h
      · exact hno _ h ⟨rfl, i, rfl⟩
      · cases h
  · intro hall h1 h2
    split
    · rw [hfit]
      exact hmem.2 ⟨i, hi, by omega, h1, h2⟩
    · rename_i hne
      exfalso
      rw [if_neg hne] at hall
      obtain ⟨a, s, hs⟩ := List.exists_cons_of_ne_nil hne
      rw [hs] at hall hno
      have := hend.pos
      by_cases hm1 : m = 1
      · unfold recorded at hall
        split at hall
        · exact hno a (by simp) (hall a (by simp))
        · have := (hall ⟨ARG_ELIMIT, .endt, none⟩ (by simp)).2
          obtain ⟨i, hi⟩ := this
          cases hi
      · refine hno a (by simp) (hall a ?_)
        unfold recorded
        split
        · simp
        · obtain ⟨k, hk⟩ : ∃ k, m - 1 = k + 1 := ⟨m - 2, by omega⟩
          rw [hk]
          simp

/-! ## C18 -/

/-- C18.  `arg_parse` leaves the standard error stream as it was, whatever the command line. -/
theorem C18_silent {t : Table σ} (hend : EndOK m t.fin) (hwf : WF (t.entries.map declOf))
    (argv : List CStr) (hargs : CArgs argv.tail) (g : GState) (r : Nat × Table σ × GState)
    (hr : Returns env argv t g r) : r.2.2.stderr = g.stderr := by
  cases htok : tokenize (t.entries.map declOf) env argv.tail with
  | none => exact absurd hr (argParse_hung env t hwf argv hargs g htok r)
  | some q =>
    obtain ⟨es, errs, _, h2⟩ := returns_inv env t m hend hwf argv hargs g htok hr
    exact h2.stderr

/-! ## C24 -/

/-- C24.  Whatever table entry and whatever argument: if the argument is rejected, the entry keeps
its count and all its values. -/
theorem C24_rejected {R : CStr → Prop} {h : Hdr (Obj δ)} (hl : Live lc R h)
    (f : Obj δ → Option CStr → M (Obj δ × Int)) (hf : h.scanfn = some f) (p p' : Obj δ)
    (a : Option CStr) (c : Int) (hs : f p a = .ok (p', c)) (hc : c ≠ 0) : p' = p := by
  have := live_scan_rej hl hf p a
  rw [hs] at this
  rcases this with h | h
  · exact absurd h hc
  · exact h.1

/-- `prog` without the required operand: one "missing" record, for entry 6. -/
example : ∃ r, Returns false [cs "prog", cs "-a"] Demo.table Demo.g0 r ∧ r.1 = 1 ∧
    r.2.1.fin.slots.take 1 = [⟨ARG_ERR_MINCOUNT, .entry 6, none⟩] := by
  obtain ⟨r, hr, hs⟩ := readsAs_of_tokenize (t := Demo.table) (env := false) Demo.finOK Demo.wf
    (argv := [cs "prog", cs "-a"]) (by decide)
    (evs := [.deliver 0 none]) (ops := []) (by decide) Demo.g0
  refine ⟨r, hr, hs.ret, ?_⟩
  have := hs.rel.slots
  rw [hs.rel.count] at this
  exact this


/-- `-n` with room for two values rejects the third one, and `12x`. -/
example : ∃ f, Demo.n.scanfn = some f ∧
    f (.int ⟨2, [some 4, some 5]⟩) (some (cs "6")) = .ok (.int ⟨2, [some 4, some 5]⟩, 2) ∧
    f (.int ⟨1, [some 4, none]⟩) (some (cs "12x")) = .ok (.int ⟨1, [some 4, none]⟩, 3) :=
  ⟨_, rfl, rfl, by with_unfolding_all rfl⟩

end Argtable
