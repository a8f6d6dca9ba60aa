import Verif.Proofs.Reorder
import Verif.Proofs.Outcome
import Verif.Props.Cmdline
import Verif.Props.Demo
/-!
# The order of the entries in the table (C60)
-/

namespace Argtable

open Spec

variable {σ : Type} {env : Bool} {m : Nat}

/-- C60.  Let no two entries of the table `t` have an option name in common, and let the table `t'` have the same
entries in another order, where the entries without option names
(apart from remarks) have kept their order among themselves.  Then
`arg_parse` returns the same value with `t'` as with `t`, and leaves the same entries, in that other order. -/
theorem C60_reorder {t t' : Table σ} (hend : EndOK m t.fin) (hend' : EndOK m t'.fin) (hwf : WF (t.entries.map declOf))
    (hapart : (t.entries.map declOf).Pairwise Apart) (hperm : t'.entries.Perm t.entries)
    (hun : t'.entries.filter operandEntry = t.entries.filter operandEntry) (argv : List CStr) (hargs : CArgs argv.tail)
    (g g' : GState) {r : Nat × Table σ × GState} (hr : Returns env argv t g r) :
    ∃ r', Returns env argv t' g' r' ∧ r'.1 = r.1 ∧ r'.2.1.entries.Perm r.2.1.entries ∧
      r'.2.1.entries.filter operandEntry = r.2.1.entries.filter operandEntry := by
  have hwf' : WF (t'.entries.map declOf) := fun d hd => hwf d ((hperm.map declOf).subset hd)
  obtain ⟨evs, ops, es, errs, h1, h2, h3⟩ := C02_complete hend hwf hargs hr
  obtain ⟨evs', es', errs', h4, h5, h6, h7, h8⟩ := meaning_moves (moves_of_perm _ _ hperm hun) hapart h1 h2
  have hread := readsAs_of_tokenize (env := env) hend' hwf' hargs h4 g'
  rw [h5] at hread
  obtain ⟨r', hr', hs'⟩ := hread
  refine ⟨r', hr', ?_, ?_, ?_⟩
  · rw [hs'.ret, h3.ret, h6]
  · rw [hs'.entries, h3.entries]; exact h7
  · rw [hs'.entries, h3.entries]; exact h8

/-- C60, for each entry with an option name: if it is entry number `i` of `t` and entry number `j` of `t'`, it ends up
in the same state. -/
theorem C60_entry {t t' : Table σ} (hend : EndOK m t.fin) (hend' : EndOK m t'.fin) (hwf : WF (t.entries.map declOf))
    (hapart : (t.entries.map declOf).Pairwise Apart) (hperm : t'.entries.Perm t.entries)
    (hun : t'.entries.filter operandEntry = t.entries.filter operandEntry) (argv : List CStr) (hargs : CArgs argv.tail)
    (g g' : GState) {r r' : Nat × Table σ × GState} (hr : Returns env argv t g r) (hr' : Returns env argv t' g' r')
    {i j : Nat} {h : Hdr σ} (hi : t.entries[i]? = some h) (hj : t'.entries[j]? = some h) (hn : (declOf h).Named) :
    r'.2.1.entries[j]? = r.2.1.entries[i]? := by
  have hwf' : WF (t'.entries.map declOf) := fun d hd => hwf d ((hperm.map declOf).subset hd)
  obtain ⟨r1, hr1, -, hp, -⟩ := C60_reorder hend hend' hwf hapart hperm hun argv hargs g g' hr
  have := hr1.unique hr'
  subst this
  have fr : Frame t.entries r.2.1.entries := by
    obtain ⟨_, _, _, _, _, h2, h3⟩ := C02_complete hend hwf hargs hr
    rw [h3.entries]; exact meaning_frame h2
  have fr' : Frame t'.entries r1.2.1.entries := by
    obtain ⟨_, _, _, _, _, h2, h3⟩ := C02_complete hend' hwf' hargs hr'
    rw [h3.entries]; exact meaning_frame h2
  obtain ⟨k, hk, sk⟩ := frame_get fr hi
  obtain ⟨k', hk', sk'⟩ := frame_get fr' hj
  rw [hk, hk']
  obtain ⟨i', hi'⟩ := List.mem_iff_getElem?.1 (hp.subset (List.mem_of_getElem? hk'))
  by_cases he : i' = i
  · rw [he, hk] at hi'; exact hi'.symm
  · exfalso
    have hl : i' < t.entries.length := by
      rw [fr.length_eq]; exact (List.getElem?_eq_some_iff.1 hi').1
    obtain ⟨k2, hk2, sk2⟩ := frame_get fr (List.getElem?_eq_getElem hl)
    rw [hi'] at hk2
    cases hk2
    have hdecl : ∀ {x y : Hdr σ}, SameHdr x y → declOf y = declOf x := by
      intro x y hxy
      unfold SameHdr at hxy
      rw [hxy]; rfl
    have e : declOf t.entries[i'] = declOf h := (hdecl sk2).symm.trans (hdecl sk')
    have hil := (List.getElem?_eq_some_iff.1 hi)
    have hself : Apart (declOf h) (declOf h) := by
      have hg := List.pairwise_iff_getElem.1 hapart
      rcases Nat.lt_or_gt_of_ne he with hlt | hlt
      · have := hg i' i (by simpa using hl) (by simpa using hil.1) hlt
        simpa [e, hil.2] using this
      · have := hg i i' (by simpa using hil.1) (by simpa using hl) hlt
        simpa [e, hil.2] using this
    rcases hn with hn | hn
    · obtain ⟨c, hc⟩ := List.exists_mem_of_ne_nil _ hn
      exact hself.1 c hc hc
    · obtain ⟨c, hc⟩ := List.exists_mem_of_ne_nil _ hn
      exact hself.2 c hc hc

namespace Demo

instance (d e : Decl) : Decidable (Apart d e) := inferInstanceAs (Decidable (_ ∧ _))

theorem apart : (entries.map declOf).Pairwise Apart := by decide

/-- The demonstration table with its entries in another order. -/
def other : Table (Obj Unit) := ⟨[f, o, a, p, r, n, v], fin⟩

theorem other_perm : other.entries.Perm table.entries :=
  List.Perm.map (fun i => entries.getD i r) (by decide : [6, 3, 0, 4, 5, 2, 1].Perm [0, 1, 2, 3, 4, 5, 6])

end Demo

example : ∃ r, Returns false [cs "prog", cs "in", cs "-vo", cs "x", cs "-n3"] Demo.other Demo.g0 r ∧ r.1 = 0 ∧
    (r.2.1.entries[1]?.map (·.parent.count)) = some 1 ∧ (r.2.1.entries[2]?.map (·.parent.count)) = some 0 := by
  obtain ⟨r0, h0, hs⟩ := readsAs_of_tokenize (t := Demo.table) (env := false) Demo.finOK Demo.wf
    (argv := [cs "prog", cs "in", cs "-vo", cs "x", cs "-n3"]) (by decide)
    (evs := [.deliver 1 none, .deliver 3 (some (cs "x")), .deliver 2 (some (cs "3"))]) (ops := [cs "in"]) (by decide) Demo.g0
  obtain ⟨r, hr, h1, -, -⟩ := C60_reorder (t' := Demo.other) Demo.finOK Demo.finOK Demo.wf Demo.apart Demo.other_perm
    rfl _ (by decide) Demo.g0 Demo.g0 h0
  have entry := fun {i j h} => @C60_entry _ _ _ Demo.table Demo.other Demo.finOK Demo.finOK Demo.wf Demo.apart
    Demo.other_perm rfl _ (by decide) Demo.g0 Demo.g0 r0 r h0 hr i j h
  refine ⟨r, hr, by rw [h1, hs.ret]; rfl, ?_, ?_⟩
  · rw [entry (i := 3) (j := 1) (h := Demo.o) rfl rfl (by left; decide), hs.entries]; rfl
  · rw [entry (i := 0) (j := 2) (h := Demo.a) rfl rfl (by left; decide), hs.entries]; rfl

/-- The condition on the names is needed: with two entries for `-x`, the first in the table gets it. -/
theorem C60_shared_name : ∃ (d e : Hdr (Obj Unit)) (argv : List CStr),
    (∃ r, Returns false argv ⟨[d, e], Demo.fin⟩ Demo.g0 r ∧ r.1 = 0) ∧
    (∃ r, Returns false argv ⟨[e, d], Demo.fin⟩ Demo.g0 r ∧ r.1 = 1) := by
  refine ⟨argLitn (some (cs "x")) none 0 1 none, Demo.made (argStrn (some (cs "x")) none none 0 1 none),
    [cs "prog", cs "-x"], ?_, ?_⟩
  · obtain ⟨r, h, hs⟩ := readsAs_of_tokenize (m := 4) (env := false)
      (t := ⟨[argLitn (some (cs "x")) none 0 1 none, Demo.made (argStrn (some (cs "x")) none none 0 1 none)], Demo.fin⟩)
      Demo.finOK (by
        intro d hd
        simp only [List.map_cons, List.map_nil, List.mem_cons, List.not_mem_nil, or_false] at hd
        rcases hd with rfl | rfl <;> exact ⟨by intro s h; cases h <;> decide, by intro s h; cases h <;> decide⟩)
      (argv := [cs "prog", cs "-x"]) (by decide) (evs := [.deliver 0 none]) (ops := []) (by decide) Demo.g0
    exact ⟨r, h, hs.ret⟩
  · obtain ⟨r, h, hs⟩ := readsAs_of_tokenize (m := 4) (env := false)
      (t := ⟨[Demo.made (argStrn (some (cs "x")) none none 0 1 none), argLitn (some (cs "x")) none 0 1 none], Demo.fin⟩)
      Demo.finOK (by
        intro d hd
        simp only [List.map_cons, List.map_nil, List.mem_cons, List.not_mem_nil, or_false] at hd
        rcases hd with rfl | rfl <;> exact ⟨by intro s h; cases h <;> decide, by intro s h; cases h <;> decide⟩)
      (argv := [cs "prog", cs "-x"]) (by decide) (evs := [.fail ARG_EMISSARG (some (cs "-x"))]) (ops := []) (by decide) Demo.g0
    exact ⟨r, h, hs.ret⟩

end Argtable
