import Verif.Proofs.Twin
import Verif.Props.Cmdline
/-!
# Independence of earlier parses (C12)
-/

namespace Argtable

open Spec

variable {δ : Type} {lc : Libc δ} {m : Nat}

theorem map_declOf_of {R : Hdr (Obj δ) → Hdr (Obj δ) → Prop} {es es' : List (Hdr (Obj δ))}
    (h : List.Forall₂ R es es') (hR : ∀ {a b}, R a b → declOf b = declOf a) :
    es'.map declOf = es.map declOf := by
  induction h with
  | nil => rfl
  | cons hab _ ih => rw [List.map_cons, List.map_cons, ih, hR hab]

theorem twin_self {es : List (Hdr (Obj δ))} (hs : ∀ h ∈ es, Steady lc h) : List.Forall₂ (Twin lc False) es es := by
  induction es with
  | nil => exact .nil
  | cons h es ih => exact .cons (twin_refl (hs h (by simp))) (ih fun k hk => hs k (by simp [hk]))

theorem after_twin {t t' : Table (Obj δ)} (hend : EndOK m t.fin) (hwf : WF (t.entries.map declOf))
    (hs : ∀ h ∈ t.entries, Steady lc h) (ha : After t t') :
    EndOK m t'.fin ∧ WF (t'.entries.map declOf) ∧ List.Forall₂ (Twin lc False) t.entries t'.entries := by
  have hself := twin_self hs
  induction ha with
  | refl => exact ⟨hend, hwf, hself⟩
  | @parse t' env argv g r _ hargs hr ih =>
    obtain ⟨e, w, l⟩ := ih
    obtain ⟨evs, ops, es, errs, -, h2, h3⟩ := C02_complete e w hargs hr
    have hk := meaning_keeps (twin_keeps lc) l h2
    refine ⟨h3.rel.ok, ?_, by rw [h3.entries]; exact hk⟩
    have : r.2.1.entries.map declOf = t'.entries.map declOf := by
      rw [h3.entries]
      exact map_declOf_of (meaning_frame h2) fun h => by rw [h]; rfl
    rw [this]; exact w

theorem same_of_twin {t t' : Table (Obj δ)} (hend : EndOK m t.fin) (hwf : WF (t.entries.map declOf))
    (hend' : EndOK m t'.fin) (hwf' : WF (t'.entries.map declOf)) (htw : List.Forall₂ (Twin lc False) t.entries t'.entries)
    (env : Bool) (argv : List CStr) (hargs : CArgs argv.tail) (g g' : GState) :
    (∀ r, Returns env argv t g r → ∃ r', Returns env argv t' g' r' ∧ SameOutcome r r') ∧
    (∀ r', Returns env argv t' g' r' → ∃ r, Returns env argv t g r ∧ SameOutcome r r') := by
  have hds : t'.entries.map declOf = t.entries.map declOf := by
    exact map_declOf_of htw fun h => by rw [h.same]; rfl
  have same : ∀ {es es' : List (Hdr (Obj δ))} {errs r r'}, List.Forall₂ (Twin lc True) es es' →
      Shows m argv g es errs r → Shows m argv g' es' errs r' → SameOutcome r r' := by
    intro es es' errs r r' he h1 h2
    refine ⟨by rw [h1.ret, h2.ret], ?_, ?_⟩
    · have e1 := h1.rel.slots
      have e2 := h2.rel.slots
      rw [h1.rel.count, ← h1.ret] at e1
      rw [h2.rel.count, ← h2.ret] at e2
      rw [e1, e2]
    · rw [h1.entries, h2.entries]
      exact he.imp fun {a b} hab => twin_sameEntry hab
  constructor
  · intro r hr
    obtain ⟨evs, ops, es, errs, h1, h2, h3⟩ := C02_complete hend hwf hargs hr
    have hb := meaning_bisim (twin_bisim lc) htw (tokenize_noneOK _ _ _ _ (Nat.le_refl _) _ _ h1) ops
    rw [← hds] at h1
    have hread := readsAs_of_tokenize (env := env) hend' hwf' hargs h1 g'
    rw [h2] at hb
    cases hm : meaning t'.entries evs ops with
    | error e => rw [hm] at hb; exact absurd hb id
    | ok q =>
      rw [hm] at hb hread
      obtain ⟨r', hr', hs'⟩ := hread
      have he : errs = q.2 := hb.1
      rw [he] at h3
      exact ⟨r', hr', same hb.2 h3 hs'⟩
  · intro r' hr'
    obtain ⟨evs, ops, es, errs, h1, h2, h3⟩ := C02_complete hend' hwf' hargs hr'
    rw [hds] at h1
    have hb := meaning_bisim (twin_bisim lc) htw (tokenize_noneOK _ _ _ _ (Nat.le_refl _) _ _ h1) ops
    have hread := readsAs_of_tokenize (env := env) hend hwf hargs h1 g
    rw [h2] at hb
    cases hm : meaning t.entries evs ops with
    | error e => rw [hm] at hb; exact absurd hb id
    | ok q =>
      rw [hm] at hb hread
      obtain ⟨r, hr, hs'⟩ := hread
      have he : q.2 = errs := hb.1
      rw [← he] at h3
      exact ⟨r, hr, same hb.2 hs' h3⟩

/-- C12.  Let `t'` be what the table `t` has become after any number of calls of `arg_parse`.  On any
command line, `arg_parse` returns with `t'` if and only if it returns with `t`, and the return value, the
error records, and the counts and values of all entries are the same; and this for any content of getopt's
variables.  Conditions: in date formats, `%p` occurs only after a conversion that sets the hour, and values
of entries with an optional value are not compared.  `C12_same_call_differs` and `C12_stale_value` show
that without them the property does not hold. -/
theorem C12_history_partial {t t' : Table (Obj δ)} (hend : EndOK m t.fin) (hwf : WF (t.entries.map declOf))
    (hs : ∀ h ∈ t.entries, Steady lc h) (ha : After t t') (env : Bool) (argv : List CStr)
    (hargs : CArgs argv.tail) (g g' : GState) :
    (∀ r, Returns env argv t g r → ∃ r', Returns env argv t' g' r' ∧ SameOutcome r r') ∧
    (∀ r', Returns env argv t' g' r' → ∃ r, Returns env argv t g r ∧ SameOutcome r r') := by
  obtain ⟨hend', hwf', htw⟩ := after_twin hend hwf hs ha
  exact same_of_twin hend hwf hend' hwf' htw env argv hargs g g'

/-- The demonstration table with a date entry added is steady. -/
example : ∀ h ∈ Demo.made (argDaten Demo.lc (some (cs "d")) none (some (cs "%Y-%m-%d %I:%M %p")) none 0 2 none) ::
    Demo.table.entries, Steady Demo.lc h := by
  intro h hh
  rcases List.mem_cons.1 hh with rfl | hh
  · exact .date (some (cs "d")) none (some (cs "%Y-%m-%d %I:%M %p")) none 0 2 none
      (Demo.made (argDaten Demo.lc (some (cs "d")) none (some (cs "%Y-%m-%d %I:%M %p")) none 0 2 none)) false
      ⟨0, [{}, {}]⟩ rfl (by decide) rfl (by decide +kernel)
  · refine .other h (Demo.live _ h hh) ?_
    simp only [Demo.table, Demo.entries, List.mem_cons, List.not_mem_nil, or_false] at hh
    rcases hh with rfl | rfl | rfl | rfl | rfl | rfl | rfl <;> rfl

namespace Demo

/-- `arg_daten("d", NULL, "%p", NULL, 0, 1, NULL)` -/
def half : Hdr (Obj Unit) := made (argDaten Demo.lc (some (cs "d")) none (some (cs "%p")) none 0 1 none)
def halfTable : Table (Obj Unit) := ⟨[half], fin⟩

/-- `arg_intn("n", NULL, NULL, 0, 1, NULL)` with `ARG_HASOPTVALUE` -/
def opt : Hdr (Obj Unit) := { made (argIntn (some (cs "n")) none none 0 1 none) with hasOptValue := true }
def optTable : Table (Obj Unit) := ⟨[opt], fin⟩

theorem halfWF : WF (halfTable.entries.map declOf) := by
  have hd : halfTable.entries.map declOf = [⟨true, false, some (cs "d"), none⟩] := rfl
  rw [hd]
  intro d hd
  simp only [List.mem_cons, List.not_mem_nil, or_false] at hd
  subst hd
  exact ⟨by intro s h; cases h <;> decide, by intro s h; cases h⟩

theorem optWF : WF (optTable.entries.map declOf) := by
  have hd : optTable.entries.map declOf = [⟨true, true, some (cs "n"), none⟩] := rfl
  rw [hd]
  intro d hd
  simp only [List.mem_cons, List.not_mem_nil, or_false] at hd
  subst hd
  exact ⟨by intro s h; cases h <;> decide, by intro s h; cases h⟩

end Demo

/-- The property does not hold for `%p` without an hour: the same call `prog -d PM`, made twice, succeeds
the first time and fails the second time. -/
theorem C12_same_call_differs : ∃ r r', Returns false [cs "prog", cs "-d", cs "PM"] Demo.halfTable Demo.g0 r ∧
    r.1 = 0 ∧ Returns false [cs "prog", cs "-d", cs "PM"] r.2.1 r.2.2 r' ∧ r'.1 = 1 := by
  have hargs : CArgs [cs "-d", cs "PM"] := by decide
  have htok : tokenize (Demo.halfTable.entries.map declOf) false [cs "-d", cs "PM"]
      = some ([.deliver 0 (some (cs "PM"))], []) := by decide +kernel
  have h1 := readsAs_of_tokenize (env := false) (argv := [cs "prog", cs "-d", cs "PM"]) (t := Demo.halfTable)
    Demo.finOK Demo.halfWF hargs htok Demo.g0
  have hm : meaning Demo.halfTable.entries [.deliver 0 (some (cs "PM"))] []
      = .ok ([{ Demo.half with parent := .date ⟨1, [{ hour := 12 }]⟩ }], []) := by with_unfolding_all rfl
  rw [hm] at h1
  obtain ⟨r, hr, hs⟩ := h1
  have hwf' : WF (r.2.1.entries.map declOf) := by rw [hs.entries]; exact Demo.halfWF
  have htok' : tokenize (r.2.1.entries.map declOf) false [cs "-d", cs "PM"]
      = some ([.deliver 0 (some (cs "PM"))], []) := by rw [hs.entries]; exact htok
  have h2 := readsAs_of_tokenize (env := false) (argv := [cs "prog", cs "-d", cs "PM"]) hs.rel.ok hwf' hargs htok' r.2.2
  have hm' : meaning r.2.1.entries [.deliver 0 (some (cs "PM"))] []
      = .ok ([{ Demo.half with parent := .date ⟨0, [{ hour := 12 }]⟩ }],
          [⟨ARG_ERR_BADDATE, .entry 0, some (cs "PM")⟩]) := by
    rw [hs.entries]; with_unfolding_all rfl
  rw [hm'] at h2
  obtain ⟨r', hr', hs'⟩ := h2
  exact ⟨r, r', hr, hs.ret, hr', hs'.ret⟩

/-- The value of an option given without its optional value is what an earlier parse left there: after
`prog -n` the cell is untouched if this was the first parse, and 5 if `prog -n5` was parsed before. -/
theorem C12_stale_value : ∃ r r1 r2, Returns false [cs "prog", cs "-n"] Demo.optTable Demo.g0 r ∧
    Returns false [cs "prog", cs "-n5"] Demo.optTable Demo.g0 r1 ∧
    Returns false [cs "prog", cs "-n"] r1.2.1 r1.2.2 r2 ∧
    r.2.1.entries.map (·.parent) = [.int ⟨1, [none]⟩] ∧ r2.2.1.entries.map (·.parent) = [.int ⟨1, [some 5]⟩] := by
  have hargs : CArgs [cs "-n"] := by decide
  have hargs1 : CArgs [cs "-n5"] := by decide
  have htok : tokenize (Demo.optTable.entries.map declOf) false [cs "-n"]
      = some ([.deliver 0 none], []) := by decide +kernel
  have htok1 : tokenize (Demo.optTable.entries.map declOf) false [cs "-n5"]
      = some ([.deliver 0 (some (cs "5"))], []) := by decide +kernel
  have h0 := readsAs_of_tokenize (env := false) (argv := [cs "prog", cs "-n"]) (t := Demo.optTable)
    Demo.finOK Demo.optWF hargs htok Demo.g0
  have h1 := readsAs_of_tokenize (env := false) (argv := [cs "prog", cs "-n5"]) (t := Demo.optTable)
    Demo.finOK Demo.optWF hargs1 htok1 Demo.g0
  have hm0 : meaning Demo.optTable.entries [.deliver 0 none] []
      = .ok ([{ Demo.opt with parent := .int ⟨1, [none]⟩ }], []) := by with_unfolding_all rfl
  have hm1 : meaning Demo.optTable.entries [.deliver 0 (some (cs "5"))] []
      = .ok ([{ Demo.opt with parent := .int ⟨1, [some 5]⟩ }], []) := by with_unfolding_all rfl
  rw [hm0] at h0
  rw [hm1] at h1
  obtain ⟨r, hr, hs⟩ := h0
  obtain ⟨r1, hr1, hs1⟩ := h1
  have hwf' : WF (r1.2.1.entries.map declOf) := by rw [hs1.entries]; exact Demo.optWF
  have htok' : tokenize (r1.2.1.entries.map declOf) false [cs "-n"]
      = some ([.deliver 0 none], []) := by rw [hs1.entries]; exact htok
  have h2 := readsAs_of_tokenize (env := false) (argv := [cs "prog", cs "-n"]) hs1.rel.ok hwf' hargs htok' r1.2.2
  have hm2 : meaning r1.2.1.entries [.deliver 0 none] []
      = .ok ([{ Demo.opt with parent := .int ⟨1, [some 5]⟩ }], []) := by rw [hs1.entries]; with_unfolding_all rfl
  rw [hm2] at h2
  obtain ⟨r2, hr2, hs2⟩ := h2
  exact ⟨r, r1, r2, hr, hr1, hr2, by rw [hs.entries]; rfl, by rw [hs2.entries]; rfl⟩

end Argtable
