import Verif.Proofs.Persist
import Verif.Props.Parse
/-!
# Properties: an error is not repaired by what follows (C93)
-/

namespace Argtable

open Spec

variable {δ σ : Type} {lc : Libc δ} {env : Bool} {m : Nat}

/-! ## C93 -/

/-- C93, the core.  Take a command line whose last option does not wait for its value, and the same with more arguments.  If the
arguments of the first raise errors (not just missing entries), the longer one raises all of them, in the same order. -/
theorem C93_raised {t : Table σ} {argv more : List CStr} (hne : argv ≠ [])
    (hw : waiting env (t.entries.map declOf) argv.tail = false)
    {evs evs' : List Ev} {ops ops' : List CStr} {es es' : List (Hdr σ)} {raised raised' : List ErrRec}
    (htok : tokenize (t.entries.map declOf) env argv.tail = some (evs, ops))
    (hsc : scanned t.entries evs ops = .ok (es, raised))
    (htok' : tokenize (t.entries.map declOf) env (argv ++ more).tail = some (evs', ops'))
    (hsc' : scanned t.entries evs' ops' = .ok (es', raised')) : raised.Sublist raised' := by
  have hn := tokenize_evNamed _ _ _ _ (Nat.le_refl _) _ _ htok'
  rw [List.tail_append_of_ne_nil hne] at htok'
  obtain ⟨e, o, rfl, rfl⟩ := tokenize_further _ _ _ _ (Nat.le_refl _) hw more _ _ _ _ htok htok'
  exact scanned_further hn hsc hsc'

/-- C93, what is recorded.  If `arg_parse` reports an error that is not a missing entry, for a command line whose last option does not
wait for its value, then it reports an error for every longer command line, and (when the table of errors did not overflow) it
reports again all the errors of the shorter one, in the same order. -/
theorem C93_stays {t : Table (Obj δ)} (hend : EndOK m t.fin) (hwf : WF (t.entries.map declOf))
    (hl : ∀ h ∈ t.entries, Live lc AnyPat h) {argv more : List CStr} (hne : argv ≠ []) (hargs : CArgs argv.tail) (hmore : CArgs more)
    (hw : waiting env (t.entries.map declOf) argv.tail = false)
    {g g' : GState} {r r' : Nat × Table (Obj δ) × GState} (hr : Returns env argv t g r) (hr' : Returns env (argv ++ more) t g' r')
    {e : ErrRec} (he : e ∈ r.2.1.fin.slots.take r.1) (hmiss : ¬ isMissing e) (hlim : e ≠ ⟨ARG_ELIMIT, .endt, none⟩) :
    r'.1 ≠ 0 ∧ (r'.1 < m → (r.2.1.fin.slots.take r.1).Sublist (r'.2.1.fin.slots.take r'.1)) := by
  have hargs' : CArgs (argv ++ more).tail := by
    rw [List.tail_append_of_ne_nil hne]
    intro a ha
    rcases List.mem_append.1 ha with ha | ha
    · exact hargs a ha
    · exact hmore a ha
  obtain ⟨evs, ops, raised, htok, hsc, hno, hrec⟩ := C16_missing hend hwf hl argv hargs g r hr
  obtain ⟨evs', ops', raised', htok', hsc', hno', hrec'⟩ := C16_missing hend hwf hl (argv ++ more) hargs' g' r' hr'
  have hsub := C93_raised hne hw htok hsc htok' hsc'
  rw [hrec] at he
  have hin : ∀ errs : List ErrRec, e ∈ recorded m errs → e ∈ errs := by
    intro errs h
    unfold recorded at h
    split at h
    · exact h
    · rcases List.mem_append.1 h with h | h
      · exact List.mem_of_mem_take h
      · exact absurd (List.mem_singleton.1 h) hlim
  have hr0 : raised ≠ [] := by
    rintro rfl
    rw [if_pos rfl] at he
    exact hmiss (missing_isMissing _ _ _ (hin _ he))
  have hr1 : raised' ≠ [] := by
    rintro rfl
    exact hr0 (List.sublist_nil.1 hsub)
  rw [if_neg hr0] at hrec
  rw [if_neg hr1] at hrec'
  refine ⟨fun h0 => ?_, fun hlt => ?_⟩
  · rw [h0, List.take_zero] at hrec'
    unfold recorded at hrec'
    split at hrec'
    · exact hr1 hrec'.symm
    · simp at hrec'
  · have hfit : raised'.length ≤ m := by
      by_contra hc
      have h1 := congrArg List.length hrec'
      unfold recorded at h1
      rw [if_neg hc] at h1
      simp only [List.length_take, List.length_append, List.length_singleton] at h1
      have := hend.pos
      omega
    have hfit0 : raised.length ≤ m := Nat.le_trans hsub.length_le hfit
    rw [hrec, hrec']
    unfold recorded
    rw [if_pos hfit, if_pos hfit0]
    exact hsub

/-- C93, the other way round: on the way to a command line that is accepted, the only thing `arg_parse` finds wrong with the first
arguments is that entries are missing. -/
theorem C93_before {t : Table (Obj δ)} (hend : EndOK m t.fin) (hwf : WF (t.entries.map declOf))
    (hl : ∀ h ∈ t.entries, Live lc AnyPat h) {argv more : List CStr} (hne : argv ≠ []) (hargs : CArgs argv.tail) (hmore : CArgs more)
    (hw : waiting env (t.entries.map declOf) argv.tail = false)
    {g g' : GState} {r r' : Nat × Table (Obj δ) × GState} (hr : Returns env argv t g r) (hr' : Returns env (argv ++ more) t g' r')
    (h0 : r'.1 = 0) : ∀ e ∈ r.2.1.fin.slots.take r.1, isMissing e ∨ e = ⟨ARG_ELIMIT, .endt, none⟩ := by
  intro e he
  by_contra hc
  rw [not_or] at hc
  exact (C93_stays hend hwf hl hne hargs hmore hw hr hr' he hc.1 hc.2).1 h0

/-- `prog in -x` has an unknown option; it is reported again whatever follows, here `-n 3` and an unwanted value for `--all`. -/
example : ∃ r r', Returns false [cs "prog", cs "in", cs "-x"] Demo.table Demo.g0 r ∧
    Returns false ([cs "prog", cs "in", cs "-x"] ++ [cs "-n", cs "3", cs "--all=1"]) Demo.table Demo.g0 r' ∧ r.1 = 1 ∧ r'.1 = 2 ∧
    (r.2.1.fin.slots.take r.1).Sublist (r'.2.1.fin.slots.take r'.1) := by
  obtain ⟨r, hr, hs⟩ := readsAs_of_tokenize (t := Demo.table) (env := false) Demo.finOK Demo.wf
    (argv := [cs "prog", cs "in", cs "-x"]) (by decide)
    (evs := [.fail 120 none]) (ops := [cs "in"]) (by decide) Demo.g0
  obtain ⟨r', hr', hs'⟩ := readsAs_of_tokenize (t := Demo.table) (env := false) Demo.finOK Demo.wf
    (argv := [cs "prog", cs "in", cs "-x", cs "-n", cs "3", cs "--all=1"]) (by decide)
    (evs := [.fail 120 none, .deliver 2 (some (cs "3")), .fail 4 (some (cs "--all=1"))])
    (ops := [cs "in"]) (by decide) Demo.g0
  have h1 : r.1 = 1 := hs.ret
  have h2 : r'.1 = 2 := hs'.ret
  have hsl : r.2.1.fin.slots.take r.1 = [⟨120, .endt, none⟩] := by
    have := hs.rel.slots
    rw [hs.rel.count, ← hs.ret] at this
    exact this
  refine ⟨r, r', hr, hr', h1, h2, (C93_stays (lc := Demo.lc) (m := 4) Demo.finOK Demo.wf (Demo.live _) (by decide) (by decide) (by decide)
    (by decide) hr hr' (e := ⟨120, .endt, none⟩) (by rw [hsl]; simp) ?_ (by decide)).2 (by omega)⟩
  rintro ⟨h, -⟩
  exact absurd h (by decide)

/-- `prog -n 3` lacks the file, `prog -n 3 in` is accepted. -/
example : ∃ r r', Returns false [cs "prog", cs "-n", cs "3"] Demo.table Demo.g0 r ∧
    Returns false ([cs "prog", cs "-n", cs "3"] ++ [cs "in"]) Demo.table Demo.g0 r' ∧ r.1 = 1 ∧ r'.1 = 0 ∧
    ∀ e ∈ r.2.1.fin.slots.take r.1, isMissing e ∨ e = ⟨ARG_ELIMIT, .endt, none⟩ := by
  obtain ⟨r, hr, hs⟩ := readsAs_of_tokenize (t := Demo.table) (env := false) Demo.finOK Demo.wf
    (argv := [cs "prog", cs "-n", cs "3"]) (by decide)
    (evs := [.deliver 2 (some (cs "3"))]) (ops := []) (by decide) Demo.g0
  obtain ⟨r', hr', hs'⟩ := readsAs_of_tokenize (t := Demo.table) (env := false) Demo.finOK Demo.wf
    (argv := [cs "prog", cs "-n", cs "3", cs "in"]) (by decide)
    (evs := [.deliver 2 (some (cs "3"))]) (ops := [cs "in"]) (by decide) Demo.g0
  exact ⟨r, r', hr, hr', hs.ret, hs'.ret, C93_before (lc := Demo.lc) (m := 4) Demo.finOK Demo.wf (Demo.live _) (by decide) (by decide)
    (by decide) (by decide) hr hr' hs'.ret⟩

/-- The condition is needed: `-o` at the end of the command line is an error, `-o x` is not. -/
theorem C93_waiting : waiting false (Demo.table.entries.map declOf) [cs "in", cs "-o"] = true ∧
    (∃ r, Returns false [cs "prog", cs "in", cs "-o"] Demo.table Demo.g0 r ∧ r.1 = 1 ∧
      r.2.1.fin.slots.take 1 = [⟨ARG_EMISSARG, .endt, some (cs "-o")⟩]) ∧
    (∃ r, Returns false ([cs "prog", cs "in", cs "-o"] ++ [cs "x"]) Demo.table Demo.g0 r ∧ r.1 = 0) := by
  refine ⟨by decide, ?_, ?_⟩
  · obtain ⟨r, hr, hs⟩ := readsAs_of_tokenize (t := Demo.table) (env := false) Demo.finOK Demo.wf
      (argv := [cs "prog", cs "in", cs "-o"]) (by decide)
      (evs := [.fail ARG_EMISSARG (some (cs "-o"))]) (ops := [cs "in"]) (by decide) Demo.g0
    refine ⟨r, hr, hs.ret, ?_⟩
    have := hs.rel.slots
    rw [hs.rel.count] at this
    exact this
  · obtain ⟨r, hr, hs⟩ := readsAs_of_tokenize (t := Demo.table) (env := false) Demo.finOK Demo.wf
      (argv := [cs "prog", cs "in", cs "-o", cs "x"]) (by decide)
      (evs := [.deliver 3 (some (cs "x"))]) (ops := [cs "in"]) (by decide) Demo.g0
    exact ⟨r, hr, hs.ret⟩

end Argtable
