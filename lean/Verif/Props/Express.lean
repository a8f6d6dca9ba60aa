import Verif.Proofs.Express
import Verif.Props.Entered
import Verif.Props.Reorder
/-!
# Writing a command line (C74)
-/

namespace Argtable

open Spec

variable {σ δ : Type} {lc : Libc δ} {env : Bool} {m : Nat}

/-- C74.  Whatever suits the entries of a table can be written as a command line: the command line that `write` builds is
accepted, with and without POSIXLY_CORRECT, and each entry stores exactly the values meant for it. -/
theorem C74_express {t : Table (Obj δ)} (hend : EndOK m t.fin) (hwf : WF (t.entries.map declOf))
    (hc : Clear (t.entries.map declOf)) (hl : ∀ h ∈ t.entries, Live lc AnyPat h) (hrx : ∀ h ∈ t.entries, RexDecidable h)
    {gs : List (Nat × Option CStr)} {segs : List (List CStr)} (hs : CanHold lc t.entries gs segs)
    (hgs : CValues gs) (hops : CArgs segs.flatten)
    (hlen : ∀ a ∈ write (t.entries.map declOf) gs segs.flatten, a.length ≤ 65535)
    (hdm : NoOverflow t.entries gs segs) (a0 : CStr) (g : GState) :
    ∃ r, Returns env (a0 :: write (t.entries.map declOf) gs segs.flatten) t g r ∧ r.1 = 0 ∧
      ∀ (i : Nat) (h : Hdr (Obj δ)) (seg : List CStr), t.entries[i]? = some h → segs[i]? = some seg →
        ∃ q, r.2.1.entries[i]? = some { h with parent := q } ∧ Stores lc h (given gs i ++ seg.map some) q :=
  C57_complete hend hwf hl hrx (a0 :: write (t.entries.map declOf) gs segs.flatten) (write_cargs hc hgs hops) hlen hdm
    ⟨write_line hc hs.said env _, hs.spread, hs.greedy, hs.takes, hs.enough⟩ g

/-- C74.  Conversely, whatever an accepted command line says suits the entries, and writing it down again gives a command
line with the same effect. -/
theorem C74_canonical {t : Table (Obj δ)} (hend : EndOK m t.fin) (hwf : WF (t.entries.map declOf))
    (hc : Clear (t.entries.map declOf)) (hl : ∀ h ∈ t.entries, Live lc AnyPat h) (hrx : ∀ h ∈ t.entries, RexDecidable h)
    (argv : List CStr) (hargs : CArgs argv.tail) (hlen : ∀ a ∈ argv.tail, a.length ≤ 65535)
    (g : GState) (r : Nat × Table (Obj δ) × GState) (hr : Returns env argv t g r) (h0 : r.1 = 0) :
    ∃ gs segs, CanHold lc t.entries gs segs ∧ ∀ a0,
      SameEffect env t argv (a0 :: write (t.entries.map declOf) gs segs.flatten) := by
  obtain ⟨gs, segs, h1, -, -⟩ := C57_sound hend hwf hl hrx argv hargs hlen g r hr h0
  refine ⟨gs, segs, ⟨line_says h1.line, h1.spread, h1.greedy, h1.takes, h1.enough⟩, fun a0 => ?_⟩
  refine sameEffect_of_tokenize env t m hend hwf _ _ hargs
    (write_cargs hc (line_cvalues h1.line hargs) fun a ha => hargs a (line_ops h1.line a ha)) ?_
  rw [List.tail_cons, line_tokenize h1.line, line_tokenize (write_line hc (line_says h1.line) env _)]

/-- C74.  A written command line is portable: its effect does not depend on POSIXLY_CORRECT. -/
theorem C74_portable {t : Table σ} (hend : EndOK m t.fin) (hwf : WF (t.entries.map declOf))
    (hc : Clear (t.entries.map declOf)) {gs : List (Nat × Option CStr)} (hs : AllSaid (t.entries.map declOf) gs)
    (ops : List CStr) (hgs : CValues gs) (hops : CArgs ops) (a0 : CStr) (g g' : GState)
    (r : Nat × Table σ × GState) (hr : Returns env (a0 :: write (t.entries.map declOf) gs ops) t g r) :
    ∃ r', Returns (!env) (a0 :: write (t.entries.map declOf) gs ops) t g' r' ∧ observe r' = observe r := by
  have h1 := line_tokenize (write_line hc hs env ops)
  have h2 := line_tokenize (write_line hc hs (!env) ops)
  obtain ⟨es, errs, hm, h3⟩ := returns_inv env t m hend hwf (a0 :: write (t.entries.map declOf) gs ops) (write_cargs hc hgs hops) g h1 hr
  obtain ⟨r', h4, h5⟩ := argParse_returns (!env) t m hend hwf (a0 :: write (t.entries.map declOf) gs ops) (write_cargs hc hgs hops) g' h2 hm
  exact ⟨r', h4, by rw [observe_of_shows h3, observe_of_shows h5]⟩

/-- C74.  Any texts at all, say the user's, can be passed to another program: if entry number `i` is an `arg_str` with an
option letter, entry number `j` is an `arg_str` or `arg_file` for operands, nothing else is required and nothing else takes
operands, then `-c` before each of the texts `vs`, then `--` and the texts `ops` is accepted, and the two entries store
exactly `vs` and `ops`. -/
theorem C74_texts {t : Table (Obj δ)} (hend : EndOK m t.fin) (hwf : WF (t.entries.map declOf))
    (hc : Clear (t.entries.map declOf)) (hl : ∀ h ∈ t.entries, Live lc AnyPat h) (hrx : ∀ h ∈ t.entries, RexDecidable h)
    {i j : Nat} {h k : Hdr (Obj δ)} (hi : t.entries[i]? = some h) (hj : t.entries[j]? = some k)
    {c : Char} {cl : CStr} {so : StrObj} (hch : h.shortopts = some (c :: cl)) (hk : (declOf h).shortKind = .req)
    (hstr : h.parent = .str so) (hku : k.shortopts = none ∧ k.longopts = none)
    (hfile : (∃ o, k.parent = .str o) ∨ ∃ o, k.parent = .file o)
    (hothers : ∀ (n : Nat) (e : Hdr (Obj δ)), t.entries[n]? = some e → n ≠ i → n ≠ j →
      isRem e.parent = true ∨ (e.mincount ≤ 0 ∧ (e.shortopts.isSome ∨ e.longopts.isSome)))
    (vs ops : List CStr) (hvs : CArgs vs) (hops : CArgs ops) (hlv : ∀ v ∈ vs, v.length ≤ 65535)
    (hlo : ∀ v ∈ ops, v.length ≤ 65535)
    (hcv : h.mincount ≤ vs.length ∧ (vs.length : Int) ≤ h.maxcount)
    (hco : k.mincount ≤ ops.length ∧ (ops.length : Int) ≤ k.maxcount) (a0 : CStr) (g : GState) :
    ∃ r q p, Returns env (a0 :: (vs.flatMap fun v => [['-', c], v]) ++ cs "--" :: ops) t g r ∧ r.1 = 0 ∧
      r.2.1.entries[i]? = some { h with parent := q } ∧ Stores lc h (vs.map some) q ∧
      r.2.1.entries[j]? = some { k with parent := p } ∧ Stores lc k (ops.map some) p := by
  have hij : i ≠ j := by
    rintro rfl
    rw [hi] at hj
    cases hj
    rw [hku.1] at hch
    cases hch
  have hjl : j < t.entries.length := (List.getElem?_eq_some_iff.1 hj).1
  let gs : List (Nat × Option CStr) := vs.map fun v => (i, some v)
  let segs : List (List CStr) := List.replicate j [] ++ ops :: List.replicate (t.entries.length - j - 1) []
  have hflat : segs.flatten = ops := by simp [segs]
  have hsegs : ∀ (n : Nat) (seg : List CStr), segs[n]? = some seg → n = j ∧ seg = ops ∨ n ≠ j ∧ seg = [] := by
    intro n seg hn
    by_cases hnj : n = j
    · left
      subst hnj
      simp [segs] at hn
      exact ⟨rfl, hn.symm⟩
    · right
      refine ⟨hnj, ?_⟩
      rcases List.mem_append.1 (List.mem_of_getElem? hn) with h1 | h1
      · exact (List.mem_replicate.1 h1).2
      · rcases Nat.lt_or_gt_of_ne hnj with h2 | h2
        · rw [List.getElem?_append_left (by simpa using h2)] at hn
          exact (List.mem_replicate.1 (List.mem_of_getElem? hn)).2
        · rw [List.getElem?_append_right (by simpa using Nat.le_of_lt h2), List.length_replicate,
            show n - j = (n - j - 1) + 1 by omega, List.getElem?_cons_succ] at hn
          exact (List.mem_replicate.1 (List.mem_of_getElem? hn)).2
  have hgi : given gs i = vs.map some := by simp [given, gs, List.filter_map, Function.comp_def]
  have hgn : ∀ n, n ≠ i → given gs n = [] := by
    intro n hn
    simp [given, gs, List.filter_map, Function.comp_def, Ne.symm hn]
  have hds : (t.entries.map declOf)[i]? = some (declOf h) := by simp [hi]
  have hwr : write (t.entries.map declOf) gs segs.flatten = (vs.flatMap fun v => [['-', c], v]) ++ cs "--" :: ops := by
    unfold write
    rw [hflat, List.flatMap_map]
    congr 2
    funext v
    rw [hds]
    show spell (declOf h) (some v) = _
    unfold spell
    have : (declOf h).short.getD [] = c :: cl := by show (h.shortopts.getD []) = _; rw [hch]; rfl
    rw [this, hk]
  have hsuit : CanHold lc t.entries gs segs := by
    refine ⟨?_, ⟨?_, rfl, ?_⟩, ?_, ?_, ?_⟩
    · intro x hx
      obtain ⟨v, -, rfl⟩ := List.mem_map.1 hx
      exact ⟨declOf h, hds, Or.inl ⟨by show (h.shortopts.getD []) ≠ []; rw [hch]; simp, hk⟩⟩
    · simp [segs]; omega
    · intro n e seg he hseg ht
      rcases hsegs n seg hseg with ⟨rfl, rfl⟩ | ⟨-, h1⟩
      · rw [hj] at he; cases he
        rw [hku.1, hku.2] at ht; simp at ht
      · exact h1
    · intro n e seg a he hseg h1 h2 ha ht
      by_cases hnj : n = j
      · subst hnj
        have : (segs.drop (n + 1)).flatten = [] := by
          simp [segs, List.drop_append]
        rw [this] at ha; cases ha
      · have hni : n ≠ i := by
          rintro rfl
          rw [hi] at he; cases he
          rw [hch] at h1; cases h1
        rcases hothers n e he hni hnj with h3 | ⟨-, h3⟩
        · rcases hsegs n seg hseg with ⟨h4, -⟩ | ⟨-, rfl⟩
          · exact hnj h4
          rw [hgn n hni] at ht
          have := ht.text 0 a (by simp)
          have h5 : e.parent = .rem := by
            revert h3
            cases e.parent <;> simp [isRem]
          cases this with
          | date h6 _ _ => have := (give_date h6).2.2.1; rw [h5] at this; cases this
          | rex h6 _ _ => have := (give_rex h6).2.2.1; rw [h5] at this; cases this
          | lit h6 => rw [h5] at h6; cases h6
          | int h6 _ _ => rw [h5] at h6; cases h6
          | dbl h6 _ => rw [h5] at h6; cases h6
          | str h6 => rw [h5] at h6; cases h6
          | file h6 => rw [h5] at h6; cases h6
        · rw [h1, h2] at h3; simp at h3
    · intro n e seg he hseg
      rcases hsegs n seg hseg with ⟨rfl, rfl⟩ | ⟨h1, rfl⟩
      · rw [hj] at he; cases he
        rw [hgn _ (Ne.symm hij)]
        refine ⟨Or.inr (by simpa using hco.2), fun x a _ => ?_⟩
        rcases hfile with ⟨o, ho⟩ | ⟨o, ho⟩
        · exact .str ho
        · exact .file ho
      · by_cases hni : n = i
        · subst hni
          rw [hi] at he; cases he
          rw [hgi]
          exact ⟨Or.inr (by simpa using hcv.2), fun x a _ => .str hstr⟩
        · rw [hgn n hni]
          exact ⟨Or.inl rfl, fun x a hx => by simp at hx⟩
    · intro n e seg he hseg hrem
      rcases hsegs n seg hseg with ⟨rfl, rfl⟩ | ⟨h1, rfl⟩
      · rw [hj] at he; cases he
        rw [hgn _ (Ne.symm hij)]
        simpa using hco.1
      · by_cases hni : n = i
        · subst hni
          rw [hi] at he; cases he
          rw [hgi]
          simpa using hcv.1
        · rw [hgn n hni]
          rcases hothers n e he hni h1 with h3 | ⟨h3, -⟩
          · rw [h3] at hrem; cases hrem
          · simpa using h3
  have hgs : CValues gs := by
    intro n v hv
    obtain ⟨w, h1, h2⟩ := List.mem_map.1 hv
    cases h2
    exact hvs v h1
  obtain ⟨r, h1, h2, h3⟩ := C74_express (env := env) hend hwf hc hl hrx hsuit hgs (by rw [hflat]; exact hops) (by
    rw [hwr]
    intro a ha
    rcases List.mem_append.1 ha with ha | ha
    · obtain ⟨v, h4, h5⟩ := List.mem_flatMap.1 ha
      simp only [List.mem_cons, List.not_mem_nil, or_false] at h5
      rcases h5 with rfl | rfl
      · simp
      · exact hlv _ h4
    · rcases List.mem_cons.1 ha with rfl | ha
      · decide
      · exact hlo a ha)
    (fun n e o seg a he hseg ho hso hlo ha hlt => by
      by_cases hni : n = i
      · subst hni
        rw [hi] at he; cases he
        rw [hch] at hso; cases hso
      by_cases hnj : n = j
      · subst hnj
        rw [hj] at he; cases he
        rcases hfile with ⟨o', ho'⟩ | ⟨o', ho'⟩ <;> (rw [ho'] at ho; cases ho)
      rcases hothers n e he hni hnj with h1 | ⟨-, h1⟩
      · rw [ho] at h1; cases h1
      · rw [hso, hlo] at h1; simp at h1) a0 g
  rw [hwr] at h1
  have hsi : segs[i]? = some [] := by
    have : i < segs.length := by
      have := (List.getElem?_eq_some_iff.1 hi).1
      simp [segs]; omega
    have h4 := List.getElem?_eq_getElem this
    rcases hsegs i _ h4 with ⟨h5, -⟩ | ⟨-, h5⟩
    · exact absurd h5 hij
    · rw [h4, h5]
  have hsj : segs[j]? = some ops := by simp [segs]
  obtain ⟨q, h4, h5⟩ := h3 i h [] hi hsi
  obtain ⟨p, h6, h7⟩ := h3 j k ops hj hsj
  rw [hgi, List.map_nil, List.append_nil] at h5
  rw [hgn j (Ne.symm hij), List.nil_append] at h7
  exact ⟨r, q, p, h1, h2, h4, h5, h6, h7⟩

namespace Demo

theorem clear : Clear (entries.map declOf) where
  apart := apart
  letters := by decide
  names := by decide

theorem no_rex : ∀ h ∈ entries, RexDecidable h := by
  intro h hh o ho
  simp only [entries, List.mem_cons, List.not_mem_nil, or_false] at hh
  rcases hh with rfl | rfl | rfl | rfl | rfl | rfl | rfl <;> cases ho

/-- The command line for some values: a separate value that looks like an option, an attached one, an optional one that is
left out. -/
example : write (entries.map declOf) [(1, none), (3, some (cs "--")), (4, some (cs "=")), (4, none), (2, some (cs "-3"))]
    [cs "-v", cs "--", []]
    = [cs "-v", cs "-o", cs "--", cs "-p=", cs "-p", cs "-n", cs "-3", cs "--", cs "-v", cs "--", []] := by decide

/-- `-o` with the text `--out=` and the operands `-n` and `--`, under POSIXLY_CORRECT. -/
example : ∃ r q p, Returns true [cs "prog", cs "-o", cs "--out=", cs "--", cs "-n", cs "--"] table g0 r ∧ r.1 = 0 ∧
    r.2.1.entries[3]? = some { o with parent := q } ∧ Stores Demo.lc o [some (cs "--out=")] q ∧
    r.2.1.entries[6]? = some { f with parent := p } ∧ Stores Demo.lc f [some (cs "-n"), some (cs "--")] p :=
  C74_texts (t := table) (env := true) (i := 3) (j := 6) (c := 'o') (cl := []) (so := ⟨0, [[]]⟩) finOK wf clear (live AnyPat)
    no_rex rfl rfl rfl rfl rfl ⟨rfl, rfl⟩ (Or.inr ⟨_, rfl⟩)
    (by
      intro n e he h1 h2
      match n with
      | 0 => cases he; exact Or.inr ⟨by decide, Or.inl rfl⟩
      | 1 => cases he; exact Or.inr ⟨by decide, Or.inl rfl⟩
      | 2 => cases he; exact Or.inr ⟨by decide, Or.inl rfl⟩
      | 3 => exact absurd rfl h1
      | 4 => cases he; exact Or.inr ⟨by decide, Or.inl rfl⟩
      | 5 => cases he; exact Or.inl rfl
      | 6 => exact absurd rfl h2
      | n + 7 => simp [table, entries] at he)
    [cs "--out="] [cs "-n", cs "--"] (by decide) (by decide) (by decide) (by decide)
    (by decide) (by decide) (cs "prog") g0

end Demo

end Argtable
