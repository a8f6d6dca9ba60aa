import Verif.Proofs.Extend
import Verif.Props.Reorder
import Verif.Props.Entered
/-!
# One more entry in the table (C61)
-/

namespace Argtable

open Spec

variable {δ : Type} {lc : Libc δ} {R : CStr → Prop} {env : Bool} {m m' : Nat}

theorem live_resetHdr {x : Hdr (Obj δ)} (hl : Live lc R x) (hopt : isRem x.parent = true ∨ x.mincount ≤ 0) :
    resetHdr x = .ok { x with parent := presets x.parent } ∧ ∀ i, checks [{ x with parent := presets x.parent }] i = [] := by
  obtain ⟨p, hp⟩ := live_reset hl
  have hs := stores_reset hl hp
  have e := stores_nil hs
  subst e
  constructor
  · unfold resetHdr
    obtain ⟨_, _, _, _, _, _, _, _, pa, rs, _, _, _⟩ := x
    cases rs with
    | none => dsimp only at hp ⊢; exact congrArg Except.ok (by rw [← Except.ok.inj hp])
    | some f => dsimp only at hp ⊢; rw [hp]; rfl
  · intro i
    refine checks_nil _ i fun k hk => ?_
    rw [List.mem_singleton] at hk
    subst hk
    rcases live_checkfn hl with ⟨-, h7⟩ | ⟨h7, h8⟩
    · exact Or.inl h7
    · refine Or.inr ⟨_, h8, ?_⟩
      have hc := (stores_count hs).2 h7
      have : x.mincount ≤ 0 := by
        rcases hopt with h | h
        · rw [h7] at h; cases h
        · exact h
      dsimp only
      unfold countCheck
      rw [hc, if_neg (by simpa using this)]

/-- C61.  Let a command line be accepted with the table `t`, and let `t'` be `t` with one more entry `x` at the end, that
need not occur.  If the long options on the command line are written in full, or do not abbreviate a name of `x`, the
command line is accepted with `t'` too; the entries of `t` end up as with `t`, and `x` is left with its preset values
and count 0. -/
theorem C61_extend {t t' : Table (Obj δ)} {x : Hdr (Obj δ)} (hend : EndOK m t.fin) (hend' : EndOK m' t'.fin)
    (hwf : WF (t'.entries.map declOf)) (hes : t'.entries = t.entries ++ [x]) (hl : Live lc R x)
    (hopt : isRem x.parent = true ∨ x.mincount ≤ 0) (argv : List CStr) (hargs : CArgs argv.tail)
    (hun : Unconfused (t.entries.map declOf) (declOf x) argv.tail) (g g' : GState) {r : Nat × Table (Obj δ) × GState}
    (hr : Returns env argv t g r) (h0 : r.1 = 0) :
    ∃ r', Returns env argv t' g' r' ∧ r'.1 = 0 ∧
      r'.2.1.entries = r.2.1.entries ++ [{ x with parent := presets x.parent }] := by
  have hwf0 : WF (t.entries.map declOf) := fun d hd => hwf d (by rw [hes, List.map_append]; simp only [List.mem_append]; exact Or.inl hd)
  obtain ⟨evs, ops, es, errs, h1, h2, h3⟩ := C02_complete hend hwf0 hargs hr
  have herrs : errs = [] := by
    have h4 := h3.ret
    rw [h0] at h4
    have := hend.pos
    exact List.length_eq_zero_iff.1 (by omega)
  subst herrs
  obtain ⟨gs, rfl, hline⟩ := tokenize_line _ _ _ _ (Nat.le_refl _) h1 (meaning_noFail h2)
  obtain ⟨hx1, hx2⟩ := live_resetHdr hl hopt
  have h4 := meaning_extend hx1 hx2 h2
  have h5 := line_tokenize (line_extend hline hun)
  have hread := readsAs_of_tokenize (env := env) hend' hwf hargs (evs := gs.map dlv) (ops := ops)
    (by rw [hes, List.map_append]; exact h5) g'
  rw [hes, h4] at hread
  obtain ⟨r', hr', hs'⟩ := hread
  exact ⟨r', hr', hs'.ret, by rw [hs'.entries, h3.entries]⟩

/-- C61, with the new entry `x`, which has an option name, anywhere in the table, provided that it shares no option
name with another entry. -/
theorem C61_insert {t t' : Table (Obj δ)} {as bs : List (Hdr (Obj δ))} {x : Hdr (Obj δ)} (hend : EndOK m t.fin) (hend' : EndOK m' t'.fin)
    (hwf : WF (t'.entries.map declOf)) (hes : t.entries = as ++ bs) (hes' : t'.entries = as ++ x :: bs) (hl : Live lc R x)
    (hopt : x.mincount ≤ 0) (hname : x.shortopts.isSome ∨ x.longopts.isSome)
    (hapart : ∀ b ∈ bs, Apart (declOf b) (declOf x)) (argv : List CStr) (hargs : CArgs argv.tail)
    (hun : Unconfused (t.entries.map declOf) (declOf x) argv.tail) (g g' : GState) {r : Nat × Table (Obj δ) × GState}
    (hr : Returns env argv t g r) (h0 : r.1 = 0) :
    ∃ r', Returns env argv t' g' r' ∧ r'.1 = 0 ∧
      r'.2.1.entries = r.2.1.entries.take as.length ++ { x with parent := presets x.parent } :: r.2.1.entries.drop as.length := by
  have hwf0 : WF ((t.entries ++ [x]).map declOf) := by
    intro d hd
    refine hwf d ?_
    rw [hes] at hd
    rw [hes']
    simp only [List.map_append, List.map_cons, List.map_nil, List.mem_append, List.mem_cons, List.not_mem_nil, or_false] at hd ⊢
    tauto
  obtain ⟨r1, k1, k2, k3⟩ := C61_extend (t' := ⟨t.entries ++ [x], t'.fin⟩) (g' := g') hend hend' hwf0 rfl hl (Or.inr hopt) argv hargs hun g hr h0
  obtain ⟨evs, ops, es, errs, h1, h2, h3⟩ := C02_complete (t := ⟨t.entries ++ [x], t'.fin⟩) hend' hwf0 hargs k1
  have herrs : errs = [] := by
    have h4 := h3.ret
    rw [k2] at h4
    have := hend'.pos
    exact List.length_eq_zero_iff.1 (by omega)
  subst herrs
  have hfr : Frame t.entries r.2.1.entries := by
    obtain ⟨_, _, _, _, _, h2, h3⟩ := C02_complete hend (fun d hd => hwf0 d (by rw [List.map_append]; simp only [List.mem_append]; exact Or.inl hd)) hargs hr
    rw [h3.entries]; exact meaning_frame h2
  have hlen : r.2.1.entries.length = as.length + bs.length := by rw [← hfr.length_eq, hes]; simp
  rw [h3.entries] at k3
  subst k3
  have hop : operandEntry x = false := by
    unfold operandEntry
    cases h1 : x.shortopts <;> cases h2 : x.longopts <;> simp_all
  obtain ⟨evs', errs', h5, h6, h7⟩ := meaning_leftwards (posix := env) (args := argv.tail) hop as (A' := r.2.1.entries.take as.length) (x' := { x with parent := presets x.parent })
    (by simp [hlen]) bs [] (r.2.1.entries.drop as.length) [] evs [] hapart (by simp [hlen])
    (by rw [← h1]; simp only [hes])
    (by simp only [List.take_append_drop]; rw [← h2]; simp only [hes])
  have : errs' = [] := List.length_eq_zero_iff.1 h7
  subst this
  simp only [List.append_nil, ← hes'] at h5 h6
  have hread := readsAs_of_tokenize (env := env) hend' hwf hargs h5 g'
  rw [h6] at hread
  obtain ⟨r', hr', hs'⟩ := hread
  exact ⟨r', hr', hs'.ret, by rw [hs'.entries]⟩

/-- What an argument may ask for. -/
def asked (a : CStr) : List CStr :=
  a.tail.tails.filterMap fun s => match s with | '-' :: q => some (q.takeWhile fun c => decide (c ≠ '=')) | _ => none

theorem asksFor_asked {ds : List Decl} {a p : CStr} (h : AsksFor ds a p) : p ∈ asked a := by
  obtain ⟨u, rest, rfl, -, h2, h3⟩ := h
  refine List.mem_filterMap.2 ⟨'-' :: (p ++ rest), ?_, ?_⟩
  · rw [List.mem_tails]; exact ⟨u, rfl⟩
  · refine congrArg some ?_
    rw [List.takeWhile_append_of_pos (by intro c hc; simp; rintro rfl; exact h2 hc)]
    rcases h3 with rfl | ⟨v, rfl⟩ <;> simp

namespace Demo

/-- `arg_lit0("x", "extra")`. -/
def extra : Hdr (Obj Unit) := argLitn (some (cs "x")) (some (cs "extra")) 0 1 none

end Demo

/-- `--verb` still abbreviates `--verbose` when the table has got `-x`, `--extra`, here as its second entry. -/
example : ∃ r, Returns false [cs "prog", cs "in", cs "-vo", cs "x", cs "--verb"] ⟨Demo.a :: Demo.extra :: Demo.entries.tail, Demo.fin⟩ Demo.g0 r ∧
    r.1 = 0 ∧ (r.2.1.entries[1]?.map (·.parent.count)) = some 0 ∧ (r.2.1.entries[2]?.map (·.parent.count)) = some 2 := by
  obtain ⟨r0, h0, hs⟩ := readsAs_of_tokenize (t := Demo.table) (env := false) Demo.finOK Demo.wf
    (argv := [cs "prog", cs "in", cs "-vo", cs "x", cs "--verb"]) (by decide)
    (evs := [.deliver 1 none, .deliver 3 (some (cs "x")), .deliver 1 none]) (ops := [cs "in"]) (by decide) Demo.g0
  obtain ⟨r, hr, h1, h2⟩ := C61_insert (lc := Demo.lc) (R := AnyPat) (t := Demo.table) (t' := ⟨Demo.a :: Demo.extra :: Demo.entries.tail, Demo.fin⟩)
    (as := [Demo.a]) (bs := Demo.entries.tail) (x := Demo.extra)
    Demo.finOK Demo.finOK (by
      intro d hd
      rw [show (⟨Demo.a :: Demo.extra :: Demo.entries.tail, Demo.fin⟩ : Table (Obj Unit)).entries.map declOf
        = declOf Demo.a :: declOf Demo.extra :: Demo.entries.tail.map declOf from rfl] at hd
      rcases List.mem_cons.1 hd with rfl | hd
      · exact Demo.wf _ (by simp [Demo.entries])
      rcases List.mem_cons.1 hd with rfl | hd
      · exact ⟨by intro s h; cases h; decide, by intro s h; cases h; decide⟩
      · exact Demo.wf _ (List.mem_cons_of_mem _ hd)) rfl rfl (Live.lit _ _ 0 1 _ false 0 (by decide)) (by decide) (by decide)
    (by decide) _ (by decide) (by
      intro a ha p hp
      replace hp := asksFor_asked hp
      right
      revert p
      revert a
      decide) Demo.g0 Demo.g0 h0 hs.ret
  refine ⟨r, hr, h1, ?_, ?_⟩
  · rw [h2, hs.entries]; rfl
  · rw [h2, hs.entries]; rfl

/-- The condition on abbreviations is needed: when `--version` is added to a table with `--verbose`, the command line
`--verb` is accepted as before, but `--ver` is not. -/
theorem C61_abbreviation : ∃ (d x : Hdr (Obj Unit)), x.mincount = 0 ∧
    (∀ p ∈ [cs "--ver", cs "--verb"], ∃ r, Returns false [cs "prog", p] ⟨[d], Demo.fin⟩ Demo.g0 r ∧ r.1 = 0) ∧
    (∃ r, Returns false [cs "prog", cs "--verb"] ⟨[d, x], Demo.fin⟩ Demo.g0 r ∧ r.1 = 0) ∧
    (∃ r, Returns false [cs "prog", cs "--ver"] ⟨[d, x], Demo.fin⟩ Demo.g0 r ∧ r.1 = 1) := by
  have wf1 : WF ([argLitn none (some (cs "verbose")) 0 1 none].map (declOf (σ := Obj Unit))) := by
    intro d hd
    simp only [List.map_cons, List.map_nil, List.mem_cons, List.not_mem_nil, or_false] at hd
    subst hd
    exact ⟨by intro s h; cases h <;> decide, by intro s h; cases h; decide⟩
  have wf2 : WF ([argLitn none (some (cs "verbose")) 0 1 none, argLitn none (some (cs "version")) 0 1 none].map (declOf (σ := Obj Unit))) := by
    intro d hd
    simp only [List.map_cons, List.map_nil, List.mem_cons, List.not_mem_nil, or_false] at hd
    rcases hd with rfl | rfl <;> exact ⟨by intro s h; cases h <;> decide, by intro s h; cases h; decide⟩
  refine ⟨argLitn none (some (cs "verbose")) 0 1 none, argLitn none (some (cs "version")) 0 1 none, rfl, ?_, ?_, ?_⟩
  · intro p hp
    simp only [List.mem_cons, List.not_mem_nil, or_false] at hp
    rcases hp with rfl | rfl
    · obtain ⟨r, h, hs⟩ := readsAs_of_tokenize (m := 4) (env := false) (t := ⟨[argLitn none (some (cs "verbose")) 0 1 none], Demo.fin⟩)
        Demo.finOK wf1 (argv := [cs "prog", cs "--ver"]) (by decide) (evs := [.deliver 0 none]) (ops := []) (by decide) Demo.g0
      exact ⟨r, h, hs.ret⟩
    · obtain ⟨r, h, hs⟩ := readsAs_of_tokenize (m := 4) (env := false) (t := ⟨[argLitn none (some (cs "verbose")) 0 1 none], Demo.fin⟩)
        Demo.finOK wf1 (argv := [cs "prog", cs "--verb"]) (by decide) (evs := [.deliver 0 none]) (ops := []) (by decide) Demo.g0
      exact ⟨r, h, hs.ret⟩
  · obtain ⟨r, h, hs⟩ := readsAs_of_tokenize (m := 4) (env := false)
      (t := ⟨[argLitn none (some (cs "verbose")) 0 1 none, argLitn none (some (cs "version")) 0 1 none], Demo.fin⟩)
      Demo.finOK wf2 (argv := [cs "prog", cs "--verb"]) (by decide) (evs := [.deliver 0 none]) (ops := []) (by decide) Demo.g0
    exact ⟨r, h, hs.ret⟩
  · obtain ⟨r, h, hs⟩ := readsAs_of_tokenize (m := 4) (env := false)
      (t := ⟨[argLitn none (some (cs "verbose")) 0 1 none, argLitn none (some (cs "version")) 0 1 none], Demo.fin⟩)
      Demo.finOK wf2 (argv := [cs "prog", cs "--ver"]) (by decide) (evs := [.fail ARG_ELONGOPT (some (cs "--ver"))]) (ops := []) (by decide) Demo.g0
    exact ⟨r, h, hs.ret⟩

end Argtable
