import Verif.Proofs.Tighten
import Verif.Props.Extend
import Verif.Props.Entered
/-!
# Looser and stricter bounds (C96)
-/

namespace Argtable

open Spec

variable {δ : Type} {lc : Libc δ} {env : Bool} {m m' : Nat}

theorem roomier_scanned {es es' : List (Hdr (Obj δ))} (hl : RoomierTable lc es es') {evs : List Ev} {ops : List CStr}
    {w : List (Hdr (Obj δ))} (h : meaning es evs ops = .ok (w, [])) :
    checks w 0 = [] ∧ Frame es w ∧
    ∃ w', meaning es' evs ops = .ok (w', checks w' 0) ∧ List.Forall₂ Tracks w w' ∧ Frame es' w' := by
  have hfr := meaning_frame h
  unfold meaning at h
  obtain ⟨es0, h1, h2⟩ := bind_some_ok h
  obtain ⟨⟨es1, e1⟩, h3, h4⟩ := bind_some_ok h2
  obtain ⟨⟨es2, e2⟩, h5, h6⟩ := bind_some_ok h4
  dsimp only at h4 h5 h6
  obtain ⟨h7, h8⟩ := Prod.mk.inj (Except.ok.inj h6)
  have hc0 : e1 ++ e2 = [] := by
    by_contra hc
    rw [if_neg hc] at h8
    exact hc h8
  rw [if_pos hc0] at h8
  obtain ⟨rfl, rfl⟩ := List.append_eq_nil_iff.1 hc0
  subst h7
  obtain ⟨s, s', k1, k2, k3, k4, k5⟩ := resetAll_tracks hl.each
  rw [h1] at k1
  have := Except.ok.inj k1
  subst this
  obtain ⟨w1, l1, l2⟩ := deliverAll_tracks evs k3 h3
  have hf1 : Frame es es1 := by
    have ha : afterOptions es evs = .ok (es1, []) := by unfold afterOptions; rw [h1]; exact h3
    exact afterOptions_frame ha
  have hf2 : Frame es' w1 := by
    have ha : afterOptions es' evs = .ok (w1, []) := by unfold afterOptions; rw [k2]; exact l1
    exact afterOptions_frame ha
  obtain ⟨w2, l3, l4⟩ := operands_tracks l2 (roomier_last hl hf1 hf2) 0 none ops _ h5
  have hm : meaning es' evs ops = .ok (w2, checks w2 0) := by
    unfold meaning
    rw [k2, bind_ok, l1, bind_ok]
    dsimp only
    rw [l3]
    rfl
  exact ⟨h8, hfr, w2, hm, l4, meaning_frame hm⟩

theorem roomier_wf {es es' : List (Hdr (Obj δ))} (h : List.Forall₂ (Roomier lc) es es') : es'.map declOf = es.map declOf := by
  induction h with
  | nil => rfl
  | cons h _ ih => rw [List.map_cons, List.map_cons, ih, rebound_decl h.same]

theorem roomier_parse {t t' : Table (Obj δ)} (hend : EndOK m t.fin) (hend' : EndOK m' t'.fin) (hwf : WF (t.entries.map declOf))
    (hl : RoomierTable lc t.entries t'.entries) {argv : List CStr} (hargs : CArgs argv.tail) {g : GState} (g' : GState)
    {r : Nat × Table (Obj δ) × GState} (hr : Returns env argv t g r) (h0 : r.1 = 0) :
    ∃ r', Returns env argv t' g' r' ∧ r'.1 = min (checks r'.2.1.entries 0).length m' ∧
      checks r.2.1.entries 0 = [] ∧ List.Forall₂ Tracks r.2.1.entries r'.2.1.entries ∧
      Frame t.entries r.2.1.entries ∧ Frame t'.entries r'.2.1.entries := by
  obtain ⟨evs, ops, es, errs, h1, h2, h3⟩ := C02_complete hend hwf hargs hr
  have herrs : errs = [] := by
    have h4 := h3.ret
    rw [h0] at h4
    have := hend.pos
    exact List.length_eq_zero_iff.1 (by omega)
  subst herrs
  obtain ⟨c1, c2, w', k1, k2, k3⟩ := roomier_scanned hl h2
  have hd := roomier_wf hl.each
  have hread := readsAs_of_tokenize (env := env) hend' (by rw [hd]; exact hwf) hargs (evs := evs) (ops := ops)
    (by rw [hd]; exact h1) g'
  rw [k1] at hread
  obtain ⟨r', hr', hs'⟩ := hread
  refine ⟨r', hr', ?_, ?_, ?_, ?_, ?_⟩
  · rw [hs'.ret, hs'.entries]
  · rw [h3.entries]; exact c1
  · rw [hs'.entries, h3.entries]; exact k2
  · rw [h3.entries]; exact c2
  · rw [hs'.entries]; exact k3

/-- Lower bounds before and after the command line. -/
theorem frames_min {P : Int → Int → Prop} {es es' s s' : List (Hdr (Obj δ))} (hf : Frame es s) (hf' : Frame es' s')
    (h : List.Forall₂ (fun h h' : Hdr (Obj δ) => P h.mincount h'.mincount) es es') :
    List.Forall₂ (fun h h' : Hdr (Obj δ) => P h.mincount h'.mincount) s s' := by
  rw [List.forall₂_iff_get]
  refine ⟨by rw [← hf.length_eq, ← hf'.length_eq, h.length_eq], fun i hi hi' => ?_⟩
  obtain ⟨a, a1, a2⟩ := frame_back hf (List.getElem?_eq_getElem hi)
  obtain ⟨b, b1, b2⟩ := frame_back hf' (List.getElem?_eq_getElem hi')
  obtain ⟨b', b3, b4⟩ := pairs_get h _ _ a1
  rw [b1] at b3
  cases b3
  have e1 := sameHdr_min a2
  have e2 := sameHdr_min b2
  simp only [List.get_eq_getElem]
  rw [e1, e2]
  exact b4

/-- **C96, other bounds.**  Let a command line be accepted with the table `t`, and let `t'` be `t` with upper bounds that allow
as much or more (for entries that take operands: only the last one), and any lower bounds.  With `t'` the command line gives
every entry the same values as with `t`, and `arg_parse` returns the number of entries that have got fewer than the new lower
bound asks for (as far as the `arg_end` has room for errors). -/
theorem C96_bounds {t t' : Table (Obj δ)} (hend : EndOK m t.fin) (hend' : EndOK m' t'.fin) (hwf : WF (t.entries.map declOf))
    (hl : RoomierTable lc t.entries t'.entries) (argv : List CStr) (hargs : CArgs argv.tail) (g g' : GState)
    {r : Nat × Table (Obj δ) × GState} (hr : Returns env argv t g r) (h0 : r.1 = 0) :
    ∃ r', Returns env argv t' g' r' ∧ r'.1 = min (tooFew r'.2.1.entries) m' ∧
      List.Forall₂ (fun h h' : Hdr (Obj δ) => Begins h.parent h'.parent) r.2.1.entries r'.2.1.entries ∧
      Frame t'.entries r'.2.1.entries := by
  obtain ⟨r', h1, h2, -, h4, -, h6⟩ := roomier_parse hend hend' hwf hl hargs g' hr h0
  exact ⟨r', h1, by rw [h2, checks_length 0 h4], h4.imp fun {a b} hab => hab.begins, h6⟩

/-- **C96, looser bounds.**  If the new lower bounds do not exceed the old ones, the command line is still accepted, and every
entry has the same values. -/
theorem C96_looser {t t' : Table (Obj δ)} (hend : EndOK m t.fin) (hend' : EndOK m' t'.fin) (hwf : WF (t.entries.map declOf))
    (hl : RoomierTable lc t.entries t'.entries)
    (hmin : List.Forall₂ (fun h h' : Hdr (Obj δ) => h'.mincount ≤ h.mincount) t.entries t'.entries) (argv : List CStr)
    (hargs : CArgs argv.tail) (g g' : GState) {r : Nat × Table (Obj δ) × GState} (hr : Returns env argv t g r) (h0 : r.1 = 0) :
    ∃ r', Returns env argv t' g' r' ∧ r'.1 = 0 ∧
      List.Forall₂ (fun h h' : Hdr (Obj δ) => Begins h.parent h'.parent) r.2.1.entries r'.2.1.entries := by
  obtain ⟨r', h1, h2, h3, h4, h5, h6⟩ := roomier_parse hend hend' hwf hl hargs g' hr h0
  refine ⟨r', h1, ?_, h4.imp fun {a b} hab => hab.begins⟩
  rw [h2, checks_none 0 h4 h3 (frames_min (P := fun a b => b ≤ a) h5 h6 hmin)]
  exact Nat.zero_min _

theorem tooFew_zero {es : List (Hdr (Obj δ))} :
    tooFew es = 0 ↔ ∀ h ∈ es, isRem h.parent = false → h.mincount ≤ h.parent.count := by
  unfold tooFew
  rw [List.countP_eq_zero]
  constructor
  · intro h k hk hr
    have := h k hk
    rw [hr] at this
    simpa using this
  · intro h k hk hc
    simp at hc
    have := h k hk hc.1
    omega

/-- **C96, exactly the lower bounds.**  Let `t` and `t'` have the same entries with the same upper bounds, where the lower
bounds of `t` do not exceed those of `t'`.  A command line is accepted with `t'` exactly if it is accepted with `t` and gives
every entry at least as many values as `t'` asks for. -/
theorem C96_minimum {t t' : Table (Obj δ)} (hend : EndOK m t.fin) (hend' : EndOK m' t'.fin) (hwf : WF (t.entries.map declOf))
    (hl : RoomierTable lc t.entries t'.entries) (hl' : RoomierTable lc t'.entries t.entries)
    (hmin : List.Forall₂ (fun h h' : Hdr (Obj δ) => h.mincount ≤ h'.mincount) t.entries t'.entries) (argv : List CStr)
    (hargs : CArgs argv.tail) (g g' : GState) :
    (∃ r', Returns env argv t' g' r' ∧ r'.1 = 0) ↔
      ∃ r, Returns env argv t g r ∧ r.1 = 0 ∧
        List.Forall₂ (fun h h' : Hdr (Obj δ) => isRem h.parent = false → h'.mincount ≤ h.parent.count) r.2.1.entries t'.entries := by
  have hd := roomier_wf hl.each
  constructor
  · rintro ⟨r', h1, h2⟩
    obtain ⟨r, k1, k2, k3, k4, k5, k6⟩ := roomier_parse hend' hend (by rw [hd]; exact hwf) hl' hargs g h1 h2
    refine ⟨r, k1, ?_, ?_⟩
    · rw [k2, checks_none 0 k4 k3 (frames_min (P := fun a b => b ≤ a) k5 k6 hmin.flip)]
      exact Nat.zero_min _
    · have hz : tooFew r'.2.1.entries = 0 := by
        obtain ⟨r2, j1, j2, -, j4, -, -⟩ := roomier_parse hend hend' hwf hl hargs g' k1 (by
          rw [k2, checks_none 0 k4 k3 (frames_min (P := fun a b => b ≤ a) k5 k6 hmin.flip)]; exact Nat.zero_min _)
        have e : r2 = r' := j1.unique h1
        subst e
        rw [h2, checks_length 0 j4] at j2
        have := hend'.pos
        omega
      rw [tooFew_zero] at hz
      rw [List.forall₂_iff_get]
      refine ⟨by rw [← k4.length_eq, ← k5.length_eq], fun i hi hi' => ?_⟩
      obtain ⟨b, b1, b2⟩ := frame_get k5 (List.getElem?_eq_getElem hi')
      obtain ⟨a, a1, a2⟩ := pairs_get k4 _ _ b1
      rw [List.getElem?_eq_getElem hi] at a1
      cases a1
      simp only [List.get_eq_getElem]
      intro hrem
      have := hz b (List.mem_of_getElem? b1) (by rw [← a2.begins.isRem]; exact hrem)
      rw [a2.begins.count, ← sameHdr_min b2]
      exact this
  · rintro ⟨r, h1, h2, h3⟩
    obtain ⟨r', k1, k2, -, k4, -, k6⟩ := roomier_parse hend hend' hwf hl hargs g' h1 h2
    refine ⟨r', k1, ?_⟩
    have hz : tooFew r'.2.1.entries = 0 := by
      rw [tooFew_zero]
      intro h hh hrem
      obtain ⟨i, hi⟩ := List.mem_iff_getElem?.1 hh
      obtain ⟨b, b1, b2⟩ := frame_back k6 hi
      obtain ⟨a, a1, a2⟩ := pairs_get k4.flip _ _ hi
      obtain ⟨c, c1, c2⟩ := pairs_get h3 _ _ a1
      rw [b1] at c1
      cases c1
      rw [sameHdr_min b2, a2.begins.count]
      exact c2 (by rw [← a2.begins.isRem]; exact hrem)
    rw [k2, checks_length 0 k4, hz]
    exact Nat.zero_min _

theorem meets_fits {es es' s : List (Hdr (Obj δ))} (h : InBounds es es') (hs : List.Forall₂ SameHdr es s) : Fits s es' := by
  unfold Fits
  unfold InBounds at h
  induction h generalizing s with
  | nil => cases hs; exact .nil
  | @cons a b l l' h _ ih =>
    cases hs with
    | cons k1 k2 =>
      refine .cons ?_ (ih k2)
      rw [sameHdr_max k1]
      cases hb : isRem b.parent with
      | false => have := (h hb).2; omega
      | true =>
        cases hp : b.parent <;> rw [hp] at hb <;> first | exact Nat.zero_le _ | cases hb

theorem checks_met : ∀ {s s' : List (Hdr (Obj δ))}, List.Forall₂ Tracks s s' → ∀ (i : Nat), checks s i = [] →
    ∀ h ∈ s, isRem h.parent = false → h.mincount ≤ h.parent.count := by
  intro s s' hs
  induction hs with
  | nil => intro i _ h hh; cases hh
  | @cons k k' t t' hk ht ih =>
    intro i hc h hh hr
    rw [checks] at hc
    rcases hk.check with ⟨r, a, -⟩ | ⟨r, a, -⟩
    · rw [a] at hc
      rcases List.mem_cons.1 hh with rfl | hh
      · rw [r] at hr; cases hr
      · exact ih _ hc h hh hr
    · rw [a] at hc
      dsimp only at hc
      split at hc
      · cases hc
      · rename_i h0
        rcases List.mem_cons.1 hh with rfl | hh
        · by_contra hlt
          apply h0
          unfold countCheck
          rw [if_pos (by omega)]
          decide
        · exact ih _ hc h hh hr

theorem tighter_scanned {es es' : List (Hdr (Obj δ))} (hl : List.Forall₂ (Roomier lc) es es') {evs : List Ev} {ops : List CStr}
    {w' : List (Hdr (Obj δ))} (h : meaning es' evs ops = .ok (w', [])) (hm : InBounds es w') :
    ∃ w, meaning es evs ops = .ok (w, []) ∧ List.Forall₂ Tracks w w' := by
  unfold meaning at h
  obtain ⟨es0', h1, h2⟩ := bind_some_ok h
  obtain ⟨⟨es1', e1⟩, h3, h4⟩ := bind_some_ok h2
  obtain ⟨⟨es2', e2⟩, h5, h6⟩ := bind_some_ok h4
  dsimp only at h4 h5 h6
  obtain ⟨h7, h8⟩ := Prod.mk.inj (Except.ok.inj h6)
  have hc0 : e1 ++ e2 = [] := by
    by_contra hc
    rw [if_neg hc] at h8
    exact hc h8
  rw [if_pos hc0] at h8
  obtain ⟨rfl, rfl⟩ := List.append_eq_nil_iff.1 hc0
  subst h7
  obtain ⟨s, s', k1, k2, -, k4, k5⟩ := resetAll_tracks hl
  rw [h1] at k2
  have := Except.ok.inj k2
  subst this
  have hst : List.Forall₂ Trims s es0' := by rw [k4, k5]; exact resetAll_trims hl
  have hf0 : Frame es s := resetAll_frame _ _ k1
  have hfit2 : Fits s es2' := meets_fits hm hf0
  obtain ⟨j1, j2⟩ := deliverAll_noLess _ (trims_ones hst) h3
  have hfit1 := fits_noLess (operands_noLess _ _ _ j2 h5) hfit2
  obtain ⟨w1, l1, l2, -⟩ := deliverAll_trims evs hst h3 hfit1
  have hf1 : Frame es w1 := hf0.trans (deliverAll_frame _ _ _ l1)
  obtain ⟨w2, l4, l5⟩ := operands_trims l2 0 none none ops _ h5 (meets_fits hm hf1)
  have hf2 : Frame es w2 := hf1.trans (operands_frame _ _ _ _ _ l4)
  have hc : checks w2 0 = [] := by
    refine checks_fit 0 l5 fun h hh hr => ?_
    obtain ⟨i, hi⟩ := List.mem_iff_getElem?.1 hh
    obtain ⟨b, b1, b2⟩ := frame_back hf2 hi
    obtain ⟨c, c1, c2⟩ := pairs_get l5 _ _ hi
    obtain ⟨d, d1, d2⟩ := pairs_get hm _ _ b1
    rw [c1] at d1
    cases d1
    have := (d2 (by rw [c2.tracks.begins.isRem]; exact hr)).1
    rw [c2.tracks.begins.count] at this
    rw [sameHdr_min b2]
    exact this
  refine ⟨w2, ?_, l5.imp fun {a b} hab => hab.tracks⟩
  unfold meaning
  rw [k1, bind_ok, l1, bind_ok]
  dsimp only
  rw [l4, bind_ok]
  dsimp only
  rw [hc]
  rfl

/-- **C96, tighter bounds.**  Let a command line be accepted with the table `t'`, and let `t` be `t'` with other bounds, where
the upper bounds do not exceed those of `t'` (also for operands).  If the numbers of values that the entries have got are
within the bounds of `t`, then the command line is accepted with `t`, and every entry has the same values. -/
theorem C96_tighter {t t' : Table (Obj δ)} (hend : EndOK m t.fin) (hend' : EndOK m' t'.fin) (hwf : WF (t.entries.map declOf))
    (hl : List.Forall₂ (Roomier lc) t.entries t'.entries) (argv : List CStr) (hargs : CArgs argv.tail) (g g' : GState)
    {r' : Nat × Table (Obj δ) × GState} (hr : Returns env argv t' g' r') (h0 : r'.1 = 0) (hm : InBounds t.entries r'.2.1.entries) :
    ∃ r, Returns env argv t g r ∧ r.1 = 0 ∧
      List.Forall₂ (fun h h' : Hdr (Obj δ) => Begins h.parent h'.parent) r.2.1.entries r'.2.1.entries := by
  have hd := roomier_wf hl
  obtain ⟨evs, ops, es, errs, h1, h2, h3⟩ := C02_complete hend' (by rw [hd]; exact hwf) hargs hr
  have herrs : errs = [] := by
    have h4 := h3.ret
    rw [h0] at h4
    have := hend'.pos
    exact List.length_eq_zero_iff.1 (by omega)
  subst herrs
  rw [h3.entries] at hm
  obtain ⟨w, k1, k2⟩ := tighter_scanned hl h2 hm
  rw [hd] at h1
  have hread := readsAs_of_tokenize (env := env) hend hwf hargs (evs := evs) (ops := ops) h1 g
  rw [k1] at hread
  obtain ⟨r, hr', hs'⟩ := hread
  refine ⟨r, hr', by rw [hs'.ret]; exact Nat.zero_min _, ?_⟩
  rw [hs'.entries, h3.entries]
  exact k2.imp fun {a b} hab => hab.begins

/-- **C96, exactly the bounds.**  Let `t'` be `t` with bounds that allow as much or more (for entries that take operands:
only the upper bound of the last one may be raised).  A command line is accepted with `t` exactly if it is accepted with `t'`
and every entry has got as many values as the bounds in `t` allow: bounds do nothing but reject. -/
theorem C96_exact {t t' : Table (Obj δ)} (hend : EndOK m t.fin) (hend' : EndOK m' t'.fin) (hwf : WF (t.entries.map declOf))
    (hl : RoomierTable lc t.entries t'.entries)
    (hmin : List.Forall₂ (fun h h' : Hdr (Obj δ) => h'.mincount ≤ h.mincount) t.entries t'.entries) (argv : List CStr)
    (hargs : CArgs argv.tail) (g g' : GState) :
    (∃ r, Returns env argv t g r ∧ r.1 = 0) ↔
      ∃ r', Returns env argv t' g' r' ∧ r'.1 = 0 ∧ InBounds t.entries r'.2.1.entries := by
  constructor
  · rintro ⟨r, h1, h2⟩
    obtain ⟨r', k1, k2, k3, k4, k5, k6⟩ := roomier_parse hend hend' hwf hl hargs g' h1 h2
    refine ⟨r', k1, ?_, ?_⟩
    · rw [k2, checks_none 0 k4 k3 (frames_min (P := fun a b => b ≤ a) k5 k6 hmin)]
      exact Nat.zero_min _
    · have hz := checks_met k4 0 k3
      unfold InBounds
      rw [List.forall₂_iff_get]
      refine ⟨by rw [← k4.length_eq, ← k5.length_eq], fun i hi hi' => ?_⟩
      obtain ⟨b, b1, b2⟩ := frame_get k5 (List.getElem?_eq_getElem hi)
      obtain ⟨a, a1, a2⟩ := pairs_get k4 _ _ b1
      rw [List.getElem?_eq_getElem hi'] at a1
      cases a1
      simp only [List.get_eq_getElem]
      intro hrem
      rw [a2.begins.isRem] at hrem
      have h5 := hz b (List.mem_of_getElem? b1) hrem
      have h6 := a2.room
      rw [a2.begins.count, ← sameHdr_min b2, ← sameHdr_max b2]
      exact ⟨h5, by omega⟩
  · rintro ⟨r', h1, h2, h3⟩
    obtain ⟨r, k1, k2, -⟩ := C96_tighter hend hend' hwf hl.each argv hargs g g' h1 h2 h3
    exact ⟨r, k1, k2⟩

/-! ## A table with `-n <int>` and files -/

namespace Demo

/-- `-n` at most twice, one or two files. -/
def strict : Table (Obj Unit) :=
  ⟨[made (argIntn (some (cs "n")) none none 0 2 none), made (argStrn none none none 1 2 none)], fin⟩

/-- `-n` at most five times, any number of files up to nine. -/
def loose : Table (Obj Unit) :=
  ⟨[made (argIntn (some (cs "n")) none none 0 5 none), made (argStrn none none none 0 9 none)], fin⟩

/-- The files, but `-n` exactly twice. -/
def twice : Table (Obj Unit) :=
  ⟨[made (argIntn (some (cs "n")) none none 2 2 none), made (argStrn none none none 1 2 none)], fin⟩

theorem strict_wf : WF (strict.entries.map declOf) := by
  intro d hd
  have hd' : d = ⟨true, false, some (cs "n"), none⟩ ∨ d = ⟨true, false, none, none⟩ := by
    change d ∈ [(⟨true, false, some (cs "n"), none⟩ : Decl), ⟨true, false, none, none⟩] at hd
    simpa using hd
  rcases hd' with rfl | rfl <;> exact ⟨(by intro s h; cases h <;> decide), (by intro s h; cases h)⟩

theorem strict_loose : RoomierTable Demo.lc strict.entries loose.entries where
  each := by
    refine .cons ⟨?_, by decide, .int 0 (by decide)⟩ (.cons ⟨?_, by decide, .str 0 (by decide)⟩ .nil)
    · exact .int (some (cs "n")) none none none none none 0 2 0 5 _ _ false ⟨0, List.replicate 2 none⟩ ⟨0, List.replicate 5 none⟩
        rfl rfl (by decide) (by decide) (by decide) (by decide)
    · exact .str none none none none none none 1 2 0 9 _ _ false ⟨0, List.replicate 2 []⟩ ⟨0, List.replicate 9 []⟩
        rfl rfl (by decide) (by decide) (by decide) (by decide)
  last := by
    intro i h h' hi hi'
    match i with
    | 0 => cases hi; exact Or.inl rfl
    | 1 => exact Or.inr (Or.inr fun k hk => by simp [strict] at hk)
    | i + 2 => simp [strict] at hi

theorem strict_twice : RoomierTable Demo.lc strict.entries twice.entries where
  each := by
    refine .cons ⟨?_, by decide, .int 0 (by decide)⟩ (.cons ⟨?_, by decide, .str 0 (by decide)⟩ .nil)
    · exact .int (some (cs "n")) none none none none none 0 2 2 2 _ _ false ⟨0, List.replicate 2 none⟩ ⟨0, List.replicate 2 none⟩
        rfl rfl (by decide) (by decide) (by decide) (by decide)
    · exact .str none none none none none none 1 2 1 2 _ _ false ⟨0, List.replicate 2 []⟩ ⟨0, List.replicate 2 []⟩
        rfl rfl (by decide) (by decide) (by decide) (by decide)
  last := by
    intro i h h' hi hi'
    match i with
    | 0 => cases hi; exact Or.inl rfl
    | 1 => cases hi; cases hi'; exact Or.inr (Or.inl rfl)
    | i + 2 => simp [strict] at hi

theorem twice_strict : RoomierTable Demo.lc twice.entries strict.entries where
  each := by
    refine .cons ⟨?_, by decide, .int 0 (by decide)⟩ (.cons ⟨?_, by decide, .str 0 (by decide)⟩ .nil)
    · exact .int (some (cs "n")) none none none none none 2 2 0 2 _ _ false ⟨0, List.replicate 2 none⟩ ⟨0, List.replicate 2 none⟩
        rfl rfl (by decide) (by decide) (by decide) (by decide)
    · exact .str none none none none none none 1 2 1 2 _ _ false ⟨0, List.replicate 2 []⟩ ⟨0, List.replicate 2 []⟩
        rfl rfl (by decide) (by decide) (by decide) (by decide)
  last := by
    intro i h h' hi hi'
    match i with
    | 0 => cases hi; exact Or.inl rfl
    | 1 => cases hi; cases hi'; exact Or.inr (Or.inl rfl)
    | i + 2 => simp [twice] at hi

/-- `-n3 a b` is accepted by the strict table. -/
theorem strict_accepts : ∃ r, Returns false [cs "prog", cs "-n3", cs "a", cs "b"] strict g0 r ∧ r.1 = 0 ∧
    r.2.1.entries.map (·.parent.count) = [1, 2] := by
  obtain ⟨r, hr, hs⟩ := readsAs_of_tokenize (m := 4) (t := strict) (env := false) finOK strict_wf
    (argv := [cs "prog", cs "-n3", cs "a", cs "b"]) (by decide)
    (evs := [.deliver 0 (some (cs "3"))]) (ops := [cs "a", cs "b"]) (by decide) g0
  exact ⟨r, hr, hs.ret, by rw [hs.entries]; rfl⟩

/-- The looser table accepts it too. -/
theorem loose_accepts : ∃ r, Returns false [cs "prog", cs "-n3", cs "a", cs "b"] loose g0 r ∧ r.1 = 0 ∧
    r.2.1.entries = [{ made (argIntn (some (cs "n")) none none 0 5 none) with parent := .int ⟨1, [some 3, none, none, none, none]⟩ },
      { made (argStrn none none none 0 9 none) with
        parent := .str ⟨2, [cs "a", cs "b", [], [], [], [], [], [], []]⟩ }] := by
  obtain ⟨r, hr, hs⟩ := readsAs_of_tokenize (m := 4) (t := loose) (env := false) finOK
    (by rw [roomier_wf strict_loose.each]; exact strict_wf) (argv := [cs "prog", cs "-n3", cs "a", cs "b"]) (by decide)
    (evs := [.deliver 0 (some (cs "3"))]) (ops := [cs "a", cs "b"]) (by decide) g0
  exact ⟨r, hr, hs.ret, hs.entries⟩

end Demo

/-- `-n3 a b` is accepted by the looser table too, with the same values. -/
example : ∃ r, Returns false [cs "prog", cs "-n3", cs "a", cs "b"] Demo.loose Demo.g0 r ∧ r.1 = 0 := by
  obtain ⟨r, h1, h2, -⟩ := Demo.strict_accepts
  obtain ⟨r', k1, k2, -⟩ := C96_looser (m := 4) (m' := 4) Demo.finOK Demo.finOK Demo.strict_wf Demo.strict_loose
    (.cons (by decide) (.cons (by decide) .nil)) _ (by decide) Demo.g0 Demo.g0 h1 h2
  exact ⟨r', k1, k2⟩

/-- `-n3 a b` gives numbers of values that the strict table allows. -/
example : ∃ r, Returns false [cs "prog", cs "-n3", cs "a", cs "b"] Demo.strict Demo.g0 r ∧ r.1 = 0 := by
  obtain ⟨r, h1, h2, h3⟩ := Demo.loose_accepts
  have hm : InBounds Demo.strict.entries r.2.1.entries := by
    rw [h3]; exact .cons (by intro _; decide) (.cons (by intro _; decide) .nil)
  obtain ⟨r', k1, k2, -⟩ := C96_tighter (m := 4) (m' := 4) Demo.finOK Demo.finOK Demo.strict_wf Demo.strict_loose.each
    _ (by decide) Demo.g0 Demo.g0 h1 h2 hm
  exact ⟨r', k1, k2⟩

/-- `-n3 -n4 -n5 a` is too much for it. -/
example : ¬ ∃ r, Returns false [cs "prog", cs "-n3", cs "-n4", cs "-n5", cs "a"] Demo.strict Demo.g0 r ∧ r.1 = 0 := by
  rw [C96_exact (m := 4) (m' := 4) Demo.finOK Demo.finOK Demo.strict_wf Demo.strict_loose
    (.cons (by decide) (.cons (by decide) .nil)) _ (by decide) Demo.g0 Demo.g0]
  rintro ⟨r, h1, -, h3⟩
  obtain ⟨r', hr, hs⟩ := readsAs_of_tokenize (m := 4) (t := Demo.loose) (env := false) Demo.finOK
    (by rw [roomier_wf Demo.strict_loose.each]; exact Demo.strict_wf)
    (argv := [cs "prog", cs "-n3", cs "-n4", cs "-n5", cs "a"]) (by decide)
    (evs := [.deliver 0 (some (cs "3")), .deliver 0 (some (cs "4")), .deliver 0 (some (cs "5"))]) (ops := [cs "a"]) (by decide) Demo.g0
  have e := h1.unique hr
  subst e
  rw [hs.entries] at h3
  cases h3 with
  | cons h _ => exact absurd (h rfl).2 (by decide)

/-- It is one error if `-n` must be given twice. -/
example : ∃ r, Returns false [cs "prog", cs "-n3", cs "a", cs "b"] Demo.twice Demo.g0 r ∧ r.1 = min (tooFew r.2.1.entries) 4 := by
  obtain ⟨r, h1, h2, -⟩ := Demo.strict_accepts
  obtain ⟨r', k1, k2, -⟩ := C96_bounds (m := 4) (m' := 4) Demo.finOK Demo.finOK Demo.strict_wf Demo.strict_twice
    _ (by decide) Demo.g0 Demo.g0 h1 h2
  exact ⟨r', k1, k2⟩

/-- Hence it is not accepted then. -/
example : ¬ ∃ r, Returns false [cs "prog", cs "-n3", cs "a", cs "b"] Demo.twice Demo.g0 r ∧ r.1 = 0 := by
  rw [C96_minimum (m := 4) (m' := 4) (t := Demo.strict) Demo.finOK Demo.finOK Demo.strict_wf Demo.strict_twice Demo.twice_strict
    (.cons (by decide) (.cons (by decide) .nil)) _ (by decide) Demo.g0 Demo.g0]
  rintro ⟨r, h1, -, h3⟩
  obtain ⟨r', k1, -, k3⟩ := Demo.strict_accepts
  have e := h1.unique k1
  subst e
  cases hr : r.2.1.entries with
  | nil => rw [hr] at k3; cases k3
  | cons a l =>
    rw [hr] at h3 k3
    have hc : a.parent.count = 1 := (List.cons.inj k3).1
    cases h3 with
    | cons h _ =>
      have hrem : isRem a.parent = false := by
        cases hp : a.parent <;> rw [hp] at hc <;> first | rfl | cases hc
      have := h hrem
      rw [hc] at this
      exact absurd this (by decide)

/-- **C96, the condition on operands is needed.**  A program that copies one file to another accepts `a b`.  If the first of its
two entries may take up to two files, it takes both, and the other one is missing. -/
theorem C96_operands : ∃ (d d' e : Hdr (Obj Unit)), Roomier Demo.lc d d' ∧ d'.mincount = d.mincount ∧
    (∃ r, Returns false [cs "prog", cs "a", cs "b"] ⟨[d, e], Demo.fin⟩ Demo.g0 r ∧ r.1 = 0) ∧
    ∃ r, Returns false [cs "prog", cs "a", cs "b"] ⟨[d', e], Demo.fin⟩ Demo.g0 r ∧ r.1 = 1 := by
  refine ⟨Demo.made (argFilen none none none 1 1 none), Demo.made (argFilen none none none 1 2 none),
    Demo.made (argFilen none none none 1 1 none), ⟨?_, by decide, .file 0 (by decide) (by decide) (by decide)⟩, rfl, ?_, ?_⟩
  · exact .file none none none none none none 1 1 1 2 _ _ false ⟨0, [[]], [[]], [[]]⟩ ⟨0, [[], []], [[], []], [[], []]⟩
      rfl rfl (by decide) (by decide) (by decide) (by decide) (by decide) (by decide) (by decide) (by decide)
  · obtain ⟨r, hr, hs⟩ := readsAs_of_tokenize (m := 4) (env := false)
      (t := ⟨[Demo.made (argFilen none none none 1 1 none), Demo.made (argFilen none none none 1 1 none)], Demo.fin⟩) Demo.finOK (by
        intro d hd
        change d ∈ [(⟨true, false, none, none⟩ : Decl), ⟨true, false, none, none⟩] at hd
        have hd' : d = ⟨true, false, none, none⟩ := by simpa using hd
        subst hd'
        exact ⟨(by intro s h; cases h), (by intro s h; cases h)⟩)
      (argv := [cs "prog", cs "a", cs "b"]) (by decide) (evs := []) (ops := [cs "a", cs "b"]) (by decide) Demo.g0
    exact ⟨r, hr, hs.ret⟩
  · obtain ⟨r, hr, hs⟩ := readsAs_of_tokenize (m := 4) (env := false)
      (t := ⟨[Demo.made (argFilen none none none 1 2 none), Demo.made (argFilen none none none 1 1 none)], Demo.fin⟩) Demo.finOK (by
        intro d hd
        change d ∈ [(⟨true, false, none, none⟩ : Decl), ⟨true, false, none, none⟩] at hd
        have hd' : d = ⟨true, false, none, none⟩ := by simpa using hd
        subst hd'
        exact ⟨(by intro s h; cases h), (by intro s h; cases h)⟩)
      (argv := [cs "prog", cs "a", cs "b"]) (by decide) (evs := []) (ops := [cs "a", cs "b"]) (by decide) Demo.g0
    exact ⟨r, hr, hs.ret⟩

end Argtable
