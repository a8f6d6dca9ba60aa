import Verif.Proofs.Apart
import Verif.Props.Parse
import Verif.Props.Cmdline
/-!
# Entries do not affect each other, with or without errors (C97)

`tokenize` (Spec/Cmdline.lean) reads a command line as option events and operands, as documented (C02); `delivered evs i` are
the arguments that the options of entry `i` give to it (`none` for an option without a value).
-/

namespace Argtable

open Spec

variable {δ σ : Type} {lc : Libc δ} {env env' : Bool} {m m' : Nat}

/-- **C97, an entry depends only on what is given to it.**  An entry with option names stands in two tables, which may differ
in everything else.  Two command lines, which may differ in everything else and may contain any errors, give the same arguments
to this entry.  Then it is the same after both. -/
theorem C97_local {t t' : Table σ} (hend : EndOK m t.fin) (hend' : EndOK m' t'.fin) (hwf : WF (t.entries.map declOf))
    (hwf' : WF (t'.entries.map declOf)) {argv argv' : List CStr} (hargs : CArgs argv.tail) (hargs' : CArgs argv'.tail)
    {g g' : GState} {r r' : Nat × Table σ × GState} (hr : Returns env argv t g r) (hr' : Returns env' argv' t' g' r')
    {i j : Nat} {h : Hdr σ} (hi : t.entries[i]? = some h) (hj : t'.entries[j]? = some h) (htag : tagged h = true)
    {evs evs' : List Ev} {ops ops' : List CStr} (htok : tokenize (t.entries.map declOf) env argv.tail = some (evs, ops))
    (htok' : tokenize (t'.entries.map declOf) env' argv'.tail = some (evs', ops'))
    (hsame : delivered evs i = delivered evs' j) : r.2.1.entries[i]? = r'.2.1.entries[j]? := by
  obtain ⟨evs1, ops1, es, errs, h1, h2, h3⟩ := C02_complete hend hwf hargs hr
  obtain ⟨evs2, ops2, es', errs', k1, k2, k3⟩ := C02_complete hend' hwf' hargs' hr'
  rw [htok] at h1
  rw [htok'] at k1
  cases h1
  cases k1
  obtain ⟨p0, p, g1, g2, g3⟩ := meaning_each h2 hi htag
  obtain ⟨p0', p', g1', g2', g3'⟩ := meaning_each k2 hj htag
  rw [g1] at g1'
  cases g1'
  rw [hsame, g2'] at g2
  cases g2
  rw [h3.entries, k3.entries, g3, g3']

/-- **C97, operands.**  Two tables have the same entries without option names, in the same order, and differ in everything else.
Two command lines have the same operands; they differ in everything else and may contain any errors.  Then the entries without
option names are the same after both. -/
theorem C97_operands {t t' : Table σ} (hend : EndOK m t.fin) (hend' : EndOK m' t'.fin) (hwf : WF (t.entries.map declOf))
    (hwf' : WF (t'.entries.map declOf)) {argv argv' : List CStr} (hargs : CArgs argv.tail) (hargs' : CArgs argv'.tail)
    {g g' : GState} {r r' : Nat × Table σ × GState} (hr : Returns env argv t g r) (hr' : Returns env' argv' t' g' r')
    (hsame : unnamed t.entries = unnamed t'.entries)
    {evs evs' : List Ev} {ops : List CStr} (htok : tokenize (t.entries.map declOf) env argv.tail = some (evs, ops))
    (htok' : tokenize (t'.entries.map declOf) env' argv'.tail = some (evs', ops)) :
    unnamed r.2.1.entries = unnamed r'.2.1.entries := by
  obtain ⟨evs1, ops1, es, errs, h1, h2, h3⟩ := C02_complete hend hwf hargs hr
  obtain ⟨evs2, ops2, es', errs', k1, k2, k3⟩ := C02_complete hend' hwf' hargs' hr'
  rw [htok] at h1
  rw [htok'] at k1
  cases h1
  cases k1
  obtain ⟨s, e, g1, g2⟩ := meaning_unnamed htok h2
  obtain ⟨s', e', g1', g2'⟩ := meaning_unnamed htok' k2
  rw [hsame, g1'] at g1
  cases g1
  rw [g2'] at g2
  rw [h3.entries, k3.entries]
  exact (Prod.mk.inj (Except.ok.inj g2)).1.symm

/-- **C97, with errors too.**  Whatever is wrong on the command line, an entry with option names holds exactly the values of
those arguments given to it that it takes: it goes through them in order, keeps each one that it has room for and admits, and
passes over the others. -/
theorem C97_kept {t : Table (Obj δ)} (hend : EndOK m t.fin) (hwf : WF (t.entries.map declOf)) {argv : List CStr}
    (hargs : CArgs argv.tail) {g : GState} {r : Nat × Table (Obj δ) × GState}
    (hr : Returns env argv t g r) {i : Nat} {h : Hdr (Obj δ)} (hi : t.entries[i]? = some h) (htag : tagged h = true)
    (hl : Live lc AnyPat h) (hrx : RexDecidable h) {evs : List Ev} {ops : List CStr}
    (htok : tokenize (t.entries.map declOf) env argv.tail = some (evs, ops))
    (hlen : ∀ s, some s ∈ delivered evs i → s.length ≤ 65535) :
    ∃ kept q, Retains lc h (delivered evs i) kept ∧ r.2.1.entries[i]? = some { h with parent := q } ∧ Stores lc h kept q := by
  obtain ⟨evs1, ops1, es, errs, h1, h2, h3⟩ := C02_complete hend hwf hargs hr
  rw [htok] at h1
  cases h1
  obtain ⟨p0, p, g1, g2, g3⟩ := meaning_each h2 hi htag
  have hs : Stores lc h [] p0 := stores_reset hl (by rw [← g1]; cases h.resetfn <;> rfl)
  rcases Option.eq_none_or_eq_some h.scanfn with hf | ⟨f, hf⟩
  · exfalso
    obtain ⟨-, h5, h6⟩ := live_untagged_none hl hf
    unfold tagged at htag
    rw [h5, h6] at htag
    cases htag
  · rw [hf] at g2
    obtain ⟨kept, k1, k2⟩ := scanEach_retains hl hrx hf hs (delivered evs i) p hlen g2
    exact ⟨kept, p, k1, by rw [h3.entries]; exact g3, k2⟩

theorem scanEach_lit (mx : Int) : ∀ (l : List (Option CStr)) (n : Nat), n ≤ mx.toNat →
    scanEach (σ := Obj δ) (some fun | .lit c, _ => .ok (.lit (litScan mx c).1, (litScan mx c).2) | _, _ => confused) (.lit n) l =
      .ok (.lit (min (n + l.length) mx.toNat)) := by
  intro l
  induction l with
  | nil => intro n hn; rw [scanEach]; congr 2; simp; omega
  | cons a l ih =>
    intro n hn
    rw [scanEach]
    dsimp only
    rw [bind_ok]
    dsimp only
    by_cases hn' : (n : Int) < mx
    · have e : litScan mx n = (n + 1, 0) := by unfold litScan; rw [if_pos hn']
      rw [e]
      rw [ih (n + 1) (by omega)]
      congr 2
      simp
      omega
    · have e : litScan mx n = (n, ARG_ERR_MAXCOUNT) := by unfold litScan; rw [if_neg hn']
      rw [e]
      rw [ih n hn]
      congr 2
      simp
      omega

/-- **C97, switches.**  Whatever is wrong on the command line, the count of an `arg_lit` is the number of times that it was
given, or its `maxcount` if that is less. -/
theorem C97_switch {t : Table (Obj δ)} (hend : EndOK m t.fin) (hwf : WF (t.entries.map declOf)) {argv : List CStr}
    (hargs : CArgs argv.tail) {g : GState} {r : Nat × Table (Obj δ) × GState}
    (hr : Returns env argv t g r) {i : Nat} {h : Hdr (Obj δ)} (hi : t.entries[i]? = some h) (htag : tagged h = true)
    (hl : Live lc AnyPat h) {c : Nat} (hp : h.parent = .lit c) {evs : List Ev} {ops : List CStr}
    (htok : tokenize (t.entries.map declOf) env argv.tail = some (evs, ops)) :
    r.2.1.entries[i]? = some { h with parent := .lit (min (delivered evs i).length h.maxcount.toNat) } := by
  obtain ⟨evs1, ops1, es, errs, h1, h2, h3⟩ := C02_complete hend hwf hargs hr
  rw [htok] at h1
  cases h1
  obtain ⟨p0, p, g1, g2, g3⟩ := meaning_each h2 hi htag
  cases hl with
  | lit so lo mn mx gl ov c' hc =>
    have e0 : p0 = .lit 0 := by cases g1; rfl
    subst e0
    have := scanEach_lit (δ := δ) (foolproof mn mx) (delivered evs i) 0 (Nat.zero_le _)
    change scanEach (some _) _ _ = _ at g2
    rw [h3.entries, g3]
    have h9 := g2.symm.trans this
    rw [Nat.zero_add] at h9
    cases h9
    rfl
  | _ => cases hp

/-- **C97, asking for help.**  A program that looks at the count of its help switch before it looks at the errors is right: the
switch has been counted exactly if it was given, whatever is wrong on the command line. -/
theorem C97_help {t : Table (Obj δ)} (hend : EndOK m t.fin) (hwf : WF (t.entries.map declOf)) {argv : List CStr}
    (hargs : CArgs argv.tail) {g : GState} {r : Nat × Table (Obj δ) × GState}
    (hr : Returns env argv t g r) {i : Nat} {h : Hdr (Obj δ)} (hi : t.entries[i]? = some h) (htag : tagged h = true)
    (hl : Live lc AnyPat h) {c : Nat} (hp : h.parent = .lit c) (hmax : 0 < h.maxcount) {evs : List Ev} {ops : List CStr}
    (htok : tokenize (t.entries.map declOf) env argv.tail = some (evs, ops)) :
    ∃ k, r.2.1.entries[i]? = some { h with parent := .lit k } ∧ (0 < k ↔ ∃ a, Ev.deliver i a ∈ evs) := by
  refine ⟨_, C97_switch hend hwf hargs hr hi htag hl hp htok, ?_⟩
  have hd : 0 < (delivered evs i).length ↔ ∃ a, Ev.deliver i a ∈ evs := by
    clear htok
    induction evs with
    | nil => simp [delivered]
    | cons e evs ih =>
      cases e with
      | fail c v => rw [delivered, ih]; simp
      | deliver j a =>
        rw [delivered]
        by_cases hj : j = i
        · subst hj; simp
        · rw [if_neg hj, ih]; simp [Ne.symm hj]
  rw [← hd]
  omega

/-! ## The hypotheses are met

`-x` and `--nosuch` are not options, `ten` is not a number, and `-a` may be given twice only. -/

namespace Demo
def messy : List CStr := [cs "prog", cs "-x", cs "-a", cs "--nosuch", cs "-nten", cs "-n3", cs "-a", cs "-a", cs "f"]
def messyEvs : List Ev :=
  [.fail 120 none, .deliver 0 none, .fail 4 (some (cs "--nosuch")), .deliver 2 (some (cs "ten")), .deliver 2 (some (cs "3")),
    .deliver 0 none, .deliver 0 none]

theorem messy_runs : ∃ r, Returns false messy table g0 r ∧ r.1 = 4 := by
  obtain ⟨r, hr, hs⟩ := readsAs_of_tokenize (m := 4) (t := table) (env := false) finOK wf (argv := messy) (by decide)
    (evs := messyEvs) (ops := [cs "f"]) (by decide) g0
  exact ⟨r, hr, by rw [hs.ret]; decide⟩
end Demo

/-- The switch counts up to its maximum. -/
example : ∃ r, Returns false Demo.messy Demo.table Demo.g0 r ∧ r.1 = 4 ∧
    r.2.1.entries[0]? = some { Demo.a with parent := .lit 2 } := by
  obtain ⟨r, hr, h1⟩ := Demo.messy_runs
  exact ⟨r, hr, h1, C97_switch (m := 4) (evs := Demo.messyEvs) (ops := [cs "f"]) (c := 0) Demo.finOK Demo.wf (by decide) hr rfl rfl
    (Demo.live _ _ (by simp [Demo.entries])) rfl (by decide)⟩

/-- `-v` was not given. -/
example : ∃ r, Returns false Demo.messy Demo.table Demo.g0 r ∧ r.1 = 4 ∧
    r.2.1.entries[1]? = some { Demo.v with parent := .lit 0 } := by
  obtain ⟨r, hr, h1⟩ := Demo.messy_runs
  obtain ⟨k, h2, h3⟩ := C97_help (m := 4) (i := 1) (h := Demo.v) (evs := Demo.messyEvs) (ops := [cs "f"]) (c := 0) Demo.finOK Demo.wf (by decide)
    hr rfl rfl (Demo.live _ _ (by simp [Demo.entries])) rfl (by decide) (by decide)
  have : k = 0 := by
    refine Nat.eq_zero_of_not_pos fun hk => ?_
    obtain ⟨a, ha⟩ := h3.mp hk
    simp [Demo.messyEvs] at ha
  subst this
  exact ⟨r, hr, h1, h2⟩

/-- `-n` is given `ten` and `3`, and keeps what it takes of these. -/
example : ∃ r kept q, Returns false Demo.messy Demo.table Demo.g0 r ∧ r.1 = 4 ∧
    Retains Demo.lc Demo.n [some (cs "ten"), some (cs "3")] kept ∧
    r.2.1.entries[2]? = some { Demo.n with parent := q } ∧ Stores Demo.lc Demo.n kept q := by
  obtain ⟨r, hr, h1⟩ := Demo.messy_runs
  obtain ⟨kept, q, h2, h3, h4⟩ := C97_kept (lc := Demo.lc) (m := 4) (i := 2) (h := Demo.n) (evs := Demo.messyEvs) (ops := [cs "f"]) Demo.finOK
    Demo.wf (by decide) hr rfl rfl (Demo.live _ _ (by simp [Demo.entries])) (by intro a b; cases b) (by decide)
    (by intro s hs; simp [Demo.messyEvs, delivered] at hs; rcases hs with rfl | rfl <;> decide)
  exact ⟨r, kept, q, hr, h1, h2, h3, h4⟩

/-- The same values with and without the errors. -/
example : ∃ r r', Returns false Demo.messy Demo.table Demo.g0 r ∧ r.1 = 4 ∧
    Returns false [cs "prog", cs "f", cs "-aa", cs "--all"] Demo.table Demo.g0 r' ∧ r.2.1.entries[0]? = r'.2.1.entries[0]? ∧
    unnamed r.2.1.entries = unnamed r'.2.1.entries := by
  obtain ⟨r, hr, h1⟩ := Demo.messy_runs
  obtain ⟨r', hr', -⟩ := readsAs_of_tokenize (m := 4) (t := Demo.table) (env := false) Demo.finOK Demo.wf
    (argv := [cs "prog", cs "f", cs "-aa", cs "--all"]) (by decide)
    (evs := [.deliver 0 none, .deliver 0 none, .deliver 0 none]) (ops := [cs "f"]) (by decide) Demo.g0
  exact ⟨r, r', hr, h1, hr',
    C97_local (m := 4) (m' := 4) (h := Demo.a) Demo.finOK Demo.finOK Demo.wf Demo.wf (by decide) (by decide) hr hr' rfl rfl rfl
      (evs := Demo.messyEvs) (ops := [cs "f"]) (evs' := [.deliver 0 none, .deliver 0 none, .deliver 0 none]) (ops' := [cs "f"])
      (by decide) (by decide) (by decide),
    C97_operands (m := 4) (m' := 4) Demo.finOK Demo.finOK Demo.wf Demo.wf (by decide) (by decide) hr hr' rfl
      (evs := Demo.messyEvs) (ops := [cs "f"]) (evs' := [.deliver 0 none, .deliver 0 none, .deliver 0 none])
      (by decide) (by decide)⟩

end Argtable
