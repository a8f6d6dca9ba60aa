import Verif.Proofs.Entered
import Verif.Props.Stored
import Verif.Props.Regex
import Verif.Props.Values
/-!
# The command lines that are accepted (C57)

`Right` (Spec/Entered.lean) describes the command lines that are right for a table, from the option names, the value
kinds, `mincount` and `maxcount` of the entries and the texts that each kind of entry admits.
-/

namespace Argtable

open Spec

variable {δ : Type} {lc : Libc δ} {env : Bool} {m : Nat}

/-- C57, completeness.  A right command line is accepted: `arg_parse` returns 0, and each entry holds exactly the
values given to it. -/
theorem C57_complete {t : Table (Obj δ)} (hend : EndOK m t.fin) (hwf : WF (t.entries.map declOf))
    (hl : ∀ h ∈ t.entries, Live lc AnyPat h) (hrx : ∀ h ∈ t.entries, RexDecidable h)
    (argv : List CStr) (hargs : CArgs argv.tail) (hlen : ∀ a ∈ argv.tail, a.length ≤ 65535)
    {gs : List (Nat × Option CStr)} {segs : List (List CStr)} (hdm : NoOverflow t.entries gs segs)
    (hr : Right lc env t.entries argv.tail gs segs) (g : GState) :
    ∃ r, Returns env argv t g r ∧ r.1 = 0 ∧
      ∀ (i : Nat) (h : Hdr (Obj δ)) (seg : List CStr), t.entries[i]? = some h → segs[i]? = some seg →
        ∃ q, r.2.1.entries[i]? = some { h with parent := q } ∧ Stores lc h (given gs i ++ seg.map some) q := by
  have htok := line_tokenize hr.line
  obtain ⟨hlen1, hlen2⟩ := line_length hr.line hlen
  obtain ⟨es0, h0⟩ := live_resetAll t.entries hl
  have hsg : ∀ i : Nat, i < t.entries.length → ∃ seg, segs[i]? = some seg := fun i hi =>
    ⟨_, List.getElem?_eq_getElem (by rw [hr.spread.length]; exact hi)⟩
  have hheld0 : Held lc t.entries (given []) es0 := by
    obtain ⟨l0, he0⟩ := resetAll_entry _ _ h0
    refine ⟨l0, fun i h hi => ?_⟩
    obtain ⟨p, h6, h7⟩ := he0 i h hi
    exact ⟨p, h6, stores_reset (hl h (List.mem_of_getElem? hi)) (by rw [← h7]; cases h.resetfn <;> rfl)⟩
  obtain ⟨es1, h1, h2⟩ := deliverAll_forward hl hrx gs [] es0 hheld0 (fun g hg => by
      obtain ⟨d, hd, -⟩ := line_named hr.line g hg
      simpa using (List.getElem?_eq_some_iff.1 hd).1)
    (fun i h hi => by
      obtain ⟨seg, hseg⟩ := hsg i (List.getElem?_eq_some_iff.1 hi).1
      exact takes_prefix (hr.takes i h seg hi hseg))
    hlen1
  rw [List.nil_append] at h2
  obtain ⟨es2, h3, h4⟩ := operands_forward t.entries es1 (given gs) segs 0 none hl hrx h2 hr.spread.length
    (fun i h seg h1 h2 => hr.spread.tagged i h seg h1 h2) hr.takes
    (fun i h seg a h1 h2 h3 h4 h5 => hr.greedy i h seg a h1 h2 h3 h4 h5) hlen2 hdm
  have hchk : checks es2 0 = [] := by
    refine checks_nil es2 0 fun k hk => ?_
    obtain ⟨i, hi, hki⟩ := List.getElem_of_mem hk
    have hlt : i < t.entries.length := by rw [← h4.1]; exact hi
    obtain ⟨seg, hseg⟩ := hsg i hlt
    obtain ⟨q, h5, h6⟩ := h4.2 i _ (List.getElem?_eq_getElem hlt)
    rw [List.getElem?_eq_getElem hi, hki] at h5
    cases h5
    have hmem := List.getElem_mem hlt
    dsimp only
    rcases live_checkfn (hl _ hmem) with ⟨-, h7⟩ | ⟨h7, h8⟩
    · exact Or.inl h7
    · refine Or.inr ⟨_, h8, ?_⟩
      have he := hr.enough i _ seg (List.getElem?_eq_getElem hlt) hseg h7
      have hc := (stores_count h6).2 h7
      dsimp only at hc
      rw [hseg] at hc
      dsimp only [Option.getD_some] at hc
      unfold countCheck
      rw [hc, if_neg (by omega)]
  have hm : meaning t.entries (gs.map dlv) segs.flatten = .ok (es2, []) := by
    unfold meaning
    rw [h0, bind_ok, h1, bind_ok]
    dsimp only
    rw [h3, bind_ok]
    dsimp only
    rw [List.append_nil, if_pos rfl, hchk]
  have := readsAs_of_tokenize hend hwf hargs htok g
  rw [hm] at this
  obtain ⟨r, h5, h6⟩ := this
  refine ⟨r, h5, by rw [h6.ret]; simp, fun i h seg hi hseg => ?_⟩
  rw [h6.entries]
  obtain ⟨q, h7, h8⟩ := h4.2 i h hi
  dsimp only at h8
  rw [hseg] at h8
  exact ⟨q, h7, h8⟩

theorem tookSteps {es : List (Hdr (Obj δ))} (hl : ∀ h ∈ es, Live lc AnyPat h) (hrx : ∀ h ∈ es, RexDecidable h) :
    ScanSteps (Took lc) es where
  step := fun h hh f hf args p q a hs hq => took_step (hl h hh) (hrx h hh) hf hs hq
  stay := fun h hh f hf p q a c hq hc => C24_rejected (hl h hh) f hf p q a c hq hc
  free := fun h hh hf args p a hs => took_free (hl h hh) hf a hs

/-- C57, soundness.  A command line for which `arg_parse` returns 0 is right, and none of the operands is undefined
behaviour. -/
theorem C57_sound {t : Table (Obj δ)} (hend : EndOK m t.fin) (hwf : WF (t.entries.map declOf))
    (hl : ∀ h ∈ t.entries, Live lc AnyPat h) (hrx : ∀ h ∈ t.entries, RexDecidable h)
    (argv : List CStr) (hargs : CArgs argv.tail) (hlen : ∀ a ∈ argv.tail, a.length ≤ 65535)
    (g : GState) (r : Nat × Table (Obj δ) × GState) (hr : Returns env argv t g r) (h0 : r.1 = 0) :
    ∃ gs segs, Right lc env t.entries argv.tail gs segs ∧ NoOverflow t.entries gs segs ∧
      ∀ (i : Nat) (h : Hdr (Obj δ)) (seg : List CStr), t.entries[i]? = some h → segs[i]? = some seg →
        ∃ q, r.2.1.entries[i]? = some { h with parent := q } ∧ Stores lc h (given gs i ++ seg.map some) q := by
  obtain ⟨evs, ops, raised, htok, hsc, -, hrec⟩ := C16_missing hend hwf hl argv hargs g r hr
  obtain ⟨s, w, h1, h2, h3⟩ := scanned_split hsc
  have e1 : r.2.1.entries = w.1 := congrArg Prod.fst h3
  have e2 : raised = s.2 ++ w.2 := congrArg Prod.snd h3
  obtain ⟨hr0, hmiss⟩ : raised = [] ∧ missing r.2.1.entries 0 = [] := by
    rw [h0, List.take_zero] at hrec
    have := recorded_nil hrec.symm
    split at this
    · rename_i h; exact ⟨h, this⟩
    · rename_i h; exact absurd this h
  rw [hr0] at e2
  obtain ⟨hs2, hw2⟩ := List.append_eq_nil_iff.1 e2.symm
  have hS := tookSteps hl hrx
  have hf := afterOptions_frame h1
  unfold afterOptions at h1
  obtain ⟨es0, h4, h5⟩ := bind_some_ok h1
  obtain ⟨l0, he0⟩ := resetAll_entry _ _ h4
  have hd0 : Delivering (Took lc) t.entries [] (es0, []) := by
    refine ⟨l0, fun i h hi => ?_, fun _ c v h => by cases h⟩
    obtain ⟨p, h6, h7⟩ := he0 i h hi
    exact ⟨[], _, h6, ⟨p, rfl, took_reset (stores_reset (hl h (List.mem_of_getElem? hi)) (by rw [← h7]; cases h.resetfn <;> rfl))⟩,
      List.Sublist.refl _, fun _ => rfl⟩
  have hd := delivering_all hS evs hd0 h5
  rw [List.nil_append] at hd
  obtain ⟨left, h6, h7⟩ := operands_handout s.1 0 none ops w (by
    intro h hh f hs p a q c hq hc
    obtain ⟨k, hk, e⟩ := hf.mem_right hh
    rw [e] at hs
    exact C24_rejected (hl k hk) f hs p q a c hq hc) h2
  rw [hw2] at h7
  have hleft : left = [] := by
    cases left with
    | nil => rfl
    | cons a l => cases h7
  subst hleft
  obtain ⟨segs, l1, l2, l3, l4⟩ := handout_segs h6
  rw [List.append_nil] at l2
  obtain ⟨gs, rfl, hline⟩ := tokenize_line _ _ _ _ (Nat.le_refl _) htok (hd.clean hs2)
  obtain ⟨hlen1, hlen2⟩ := line_length hline hlen
  -- each entry
  have entry : ∀ (i : Nat) (h : Hdr (Obj δ)) (seg : List CStr), t.entries[i]? = some h → segs[i]? = some seg →
      (h.shortopts.isSome ∨ h.longopts.isSome → seg = []) ∧
      ∃ q, w.1[i]? = some { h with parent := q } ∧ Took lc h (given gs i ++ seg.map some) q ∧
        ((seg = [] ∧ (h.shortopts.isSome ∨ h.longopts.isSome ∨ h.scanfn = none)) ∨
          ∃ f, h.scanfn = some f ∧ ∀ a, (segs.drop (i + 1)).flatten.head? = some a → ∃ c, c ≠ 0 ∧ f q (some a) = .ok (q, c)) := by
    intro i h seg hi hseg
    obtain ⟨args, k, g1, ⟨q, rfl, g2⟩, -, g4⟩ := hd.entry i h hi
    rw [g4 hs2, given_delivered] at g2
    obtain ⟨g3, k', g5, g6⟩ := l4 i _ seg g1 hseg
    refine ⟨g3, ?_⟩
    rcases g6 with ⟨rfl, rfl, g7⟩ | ⟨f, q', g7, g8, rfl, g9⟩
    · refine ⟨q, g5, by simpa using g2, Or.inl ⟨rfl, ?_⟩⟩
      by_contra hno
      push Not at hno
      cases hx : h.scanfn with
      | none => exact hno.2.2 hx
      | some f => exact g7 f ⟨by simpa using hno.1, by simpa using hno.2.1, hx⟩
    · refine ⟨q', g5, ?_, Or.inr ⟨f, g7, ?_⟩⟩
      · exact accepts_holding (fun args p q a => hS.step h (List.mem_of_getElem? hi) f g7 args p q a) g8 _ g2
      · simpa using g9
  have short : ∀ (i : Nat) (seg : List CStr), segs[i]? = some seg → ∀ s, some s ∈ given gs i ++ seg.map some → s.length ≤ 65535 := by
    intro i seg hseg s hs
    rcases List.mem_append.1 hs with hs | hs
    · exact hlen1 i s (given_mem.1 hs)
    · refine hlen2 s ?_
      rw [← l2]
      have : s ∈ seg := by simpa using hs
      exact List.mem_flatten.2 ⟨seg, List.mem_of_getElem? hseg, this⟩
  have remGiven : ∀ (i : Nat) (h : Hdr (Obj δ)), t.entries[i]? = some h → h.scanfn = none → given gs i = [] := by
    intro i h hi hsn
    obtain ⟨-, g1, g2⟩ := live_untagged_none (hl h (List.mem_of_getElem? hi)) hsn
    cases hg : given gs i with
    | nil => rfl
    | cons a l =>
      obtain ⟨d, g3, g4⟩ := line_named hline (i, a) (given_mem.1 (by rw [hg]; simp))
      rw [List.getElem?_map, hi] at g3
      cases g3
      simp [declOf, g1, g2] at g4
  have takes : ∀ (i : Nat) (h : Hdr (Obj δ)) (seg : List CStr), t.entries[i]? = some h → segs[i]? = some seg →
      Takes lc h (given gs i ++ seg.map some) := by
    intro i h seg hi hseg
    obtain ⟨-, q, -, g2, g3⟩ := entry i h seg hi hseg
    cases hsn : h.scanfn with
    | none =>
      rcases g3 with ⟨rfl, -⟩ | ⟨f, g4, -⟩
      · rw [remGiven i h hi hsn]; exact takes_nil h
      · rw [hsn] at g4; cases g4
    | some f =>
      refine g2.2 (short i seg hseg) ?_
      rcases live_checkfn (hl h (List.mem_of_getElem? hi)) with ⟨g4, -⟩ | ⟨g4, -⟩
      · cases hl h (List.mem_of_getElem? hi) with
        | rem => cases hsn
        | _ => cases g4
      · exact g4
  refine ⟨gs, segs, ⟨by rw [l2]; exact hline, ⟨by rw [l1, hd.length], rfl, fun i h seg hi hseg => (entry i h seg hi hseg).1⟩,
    ?_, takes, ?_⟩, ?_, ?_⟩
  · intro i h seg a hi hseg hso hlo ha
    obtain ⟨-, q, -, g2, g3⟩ := entry i h seg hi hseg
    rcases g3 with ⟨rfl, g4⟩ | ⟨f, g4, g5⟩
    · rw [hso, hlo] at g4
      have g4 : h.scanfn = none := by simpa using g4
      exact takes_rem (live_untagged_none (hl h (List.mem_of_getElem? hi)) g4).1 []
    · obtain ⟨c, g6, g7⟩ := g5 a ha
      have hamem : a ∈ ops := by
        rw [← l2]
        have : a ∈ (segs.drop (i + 1)).flatten := List.mem_of_mem_head? ha
        obtain ⟨sg, k1, k2⟩ := List.mem_flatten.1 this
        exact List.mem_flatten.2 ⟨sg, List.mem_of_mem_drop k1, k2⟩
      obtain ⟨q', c', k1, k2⟩ := live_answers (hl h (List.mem_of_getElem? hi)) (hrx h (List.mem_of_getElem? hi)) g4 g2.1
        (takes i h seg hi hseg) (a := some a) fun s hs => by cases hs; exact ⟨hlen2 a hamem, Or.inr (Or.inr ⟨_, g7⟩)⟩
      rw [g7] at k1
      cases k1
      exact fun h => g6 (k2.2 h)
  · intro i h seg hi hseg hrem
    obtain ⟨-, q, g1, g2, -⟩ := entry i h seg hi hseg
    obtain ⟨g3, g4⟩ := stores_count g2.1
    rw [← g4 hrem]
    rw [← e1] at g1
    exact missing_nil _ _ hmiss _ (List.mem_of_getElem? g1) (by dsimp only; rw [g3, hrem])
  · intro i h o seg a hi hseg ho hso hlo ha hlt
    obtain ⟨-, q, -, g2, g3⟩ := entry i h seg hi hseg
    rcases g3 with ⟨rfl, g4⟩ | ⟨f, g4, g5⟩
    · rw [hso, hlo] at g4
      have g4 : h.scanfn = none := by simpa using g4
      have := (live_untagged_none (hl h (List.mem_of_getElem? hi)) g4).1
      rw [ho] at this
      cases this
    · obtain ⟨c, g6, g7⟩ := g5 a ha
      exact live_int_safe (hl h (List.mem_of_getElem? hi)) ho g4 g2.1 hlt g7
  · intro i h seg hi hseg
    obtain ⟨-, q, g1, g2, -⟩ := entry i h seg hi hseg
    exact ⟨q, by rw [e1]; exact g1, g2.1⟩

/-- C57.  `arg_parse` returns 0 for exactly the right command lines (except that an operand such as `-0x-9223372036854775808`,
offered to an `arg_int` with room for it, is undefined behaviour, see C23). -/
theorem C57_success {t : Table (Obj δ)} (hend : EndOK m t.fin) (hwf : WF (t.entries.map declOf))
    (hl : ∀ h ∈ t.entries, Live lc AnyPat h) (hrx : ∀ h ∈ t.entries, RexDecidable h)
    (argv : List CStr) (hargs : CArgs argv.tail) (hlen : ∀ a ∈ argv.tail, a.length ≤ 65535) (g : GState) :
    (∃ r, Returns env argv t g r ∧ r.1 = 0) ↔
      ∃ gs segs, Right lc env t.entries argv.tail gs segs ∧ NoOverflow t.entries gs segs := by
  constructor
  · rintro ⟨r, h1, h2⟩
    obtain ⟨gs, segs, h3, h4, -⟩ := C57_sound hend hwf hl hrx argv hargs hlen g r h1 h2
    exact ⟨gs, segs, h3, h4⟩
  · rintro ⟨gs, segs, h, h'⟩
    obtain ⟨r, h1, h2, -⟩ := C57_complete hend hwf hl hrx argv hargs hlen h' h g
    exact ⟨r, h1, h2⟩

/-- C57.  A command line is right in one way only: the values for each entry are determined. -/
theorem C57_unique {es : List (Hdr (Obj δ))} {posix : Bool} {args : List CStr} {gs gs' : List (Nat × Option CStr)}
    {segs segs' : List (List CStr)} (h : Right lc posix es args gs segs) (h' : Right lc posix es args gs' segs') :
    gs = gs' ∧ segs = segs' := by
  have h1 := line_tokenize h.line
  rw [line_tokenize h'.line] at h1
  have h2 := Prod.mk.inj (Option.some.inj h1)
  have hg : gs = gs' := (dlv_map_inj h2.1).symm
  subst hg
  refine ⟨rfl, division_unique segs segs' (fun i seg => ∀ e, es[i]? = some e →
    (e.shortopts.isSome ∨ e.longopts.isSome → seg = []) ∧ Takes lc e (given gs i ++ seg.map some)) ?_ ?_ h2.2.symm ?_ ?_ ?_ ?_⟩
  · intro i s t hT e he
    obtain ⟨h3, h4⟩ := hT e he
    refine ⟨fun ht => (List.append_eq_nil_iff.1 (h3 ht)).1, ?_⟩
    rw [List.map_append, ← List.append_assoc] at h4
    exact takes_prefix h4
  · rw [h.spread.length, h'.spread.length]
  · exact fun i s hs e he => ⟨h.spread.tagged i e s he hs, h.takes i e s he hs⟩
  · exact fun i s hs e he => ⟨h'.spread.tagged i e s he hs, h'.takes i e s he hs⟩
  all_goals
    intro i s a hs ha hT
    first
    | have hi : i < es.length := by rw [← h.spread.length]; exact (List.getElem?_eq_some_iff.1 hs).1
    | have hi : i < es.length := by rw [← h'.spread.length]; exact (List.getElem?_eq_some_iff.1 hs).1
    obtain ⟨h3, h4⟩ := hT _ (List.getElem?_eq_getElem hi)
    have hn : ¬ (es[i].shortopts.isSome ∨ es[i].longopts.isSome) := fun ht => by simpa using h3 ht
    rw [not_or, Bool.not_eq_true, Bool.not_eq_true, Option.isSome_eq_false_iff, Option.isSome_eq_false_iff,
      Option.isNone_iff_eq_none, Option.isNone_iff_eq_none] at hn
    rw [List.map_append, ← List.append_assoc] at h4
    first
    | exact h.greedy i _ s a (List.getElem?_eq_getElem hi) hs hn.1 hn.2 ha h4
    | exact h'.greedy i _ s a (List.getElem?_eq_getElem hi) hs hn.1 hn.2 ha h4

/-! ## A table with a flag, integers and a regular expression -/

namespace Demo

/-- `arg_intn(NULL, NULL, NULL, 0, 2, NULL)`. -/
def count : Hdr (Obj Unit) := made (argIntn none none none 0 2 none)

/-- `arg_rexn(NULL, NULL, "^\\d{4}-\\d{2}(,[a-z]+|;\\w)*$", NULL, 1, 1, 0, NULL)`. -/
def stamp : Hdr (Obj Unit) := made (argRexn none none stamped.text none 1 1 false none)

theorem stamp_entry : RexEntry stamped.text false stamp ⟨0, [[]]⟩ := by
  obtain ⟨h, h1, -, h3⟩ := C53_made (δ := Unit) (so := none) (lo := none) (dt := none) (gl := none) (mn := 1) (mx := 1)
    stamped_ok (by decide)
  have : stamp = h := by unfold stamp; rw [h1]; rfl
  rw [this]
  exact h3

theorem stamped_definite : stamped.Definite false := ⟨stamped_ok, stamped_fits, stamped_spare, stamped_det⟩

theorem stamped_accepts : stamped.Accepts false (cs "2024-05,ab;z") := by
  have hc : rexCompile stamped.text = .ok (some stampedNodes) := by decide +kernel
  have hroom : ((0 : Nat) : Int) < stamp.maxcount := by
    have := (give_rex stamp_entry).1
    rw [← this]; decide
  exact C53_sound stamp_entry stamped_ok (rexScan_of (b := true) (a := cs "2024-05,ab;z") stamp_entry hroom hc (by decide +kernel))

def dated : Table (Obj Unit) := ⟨[v, count, stamp], fin⟩

theorem dated_live : ∀ h ∈ dated.entries, Live Demo.lc AnyPat h := by
  intro h hh
  simp only [dated, List.mem_cons, List.not_mem_nil, or_false] at hh
  rcases hh with rfl | rfl | rfl
  · exact Live.lit _ _ 0 3 _ false 0 (by decide)
  · exact Live.int none none none 0 2 none count false ⟨0, [none, none]⟩ rfl (by decide) rfl
  · generalize hs : stamp = h
    have := stamp_entry
    rw [hs] at this
    cases this with
    | mk so lo pat dt mn mx ic gl h ov o hh hc hl => exact Live.rex (R := AnyPat) so lo _ dt mn mx _ gl h ov _ hh trivial hc hl

theorem dated_decidable : ∀ h ∈ dated.entries, RexDecidable h := by
  intro h hh
  simp only [dated, List.mem_cons, List.not_mem_nil, or_false] at hh
  rcases hh with rfl | rfl | rfl
  · intro o ho; cases ho
  · intro o ho; cases ho
  · intro o ho
    rw [(give_rex stamp_entry).2.2.1] at ho
    cases ho
    exact ⟨stamped, false, stamp_entry, stamped_definite⟩

/-- `-v 3 --verb 0x10 2024-05,ab;z`. -/
theorem dated_right : Right Demo.lc false dated.entries [cs "-v", cs "3", cs "--verb", cs "0x10", cs "2024-05,ab;z"]
    [(0, none), (0, none)] [[], [cs "3", cs "0x10"], [cs "2024-05,ab;z"]] where
  line := by
    have hd : dated.entries.map declOf = [⟨false, false, some (cs "vw"), some (cs "verbose")⟩,
      ⟨true, false, none, none⟩, declOf stamp] := rfl
    have hds : (declOf stamp) = ⟨true, false, none, none⟩ := by decide +kernel
    rw [hd, hds]
    refine .option (body := cs "v") (g := [(0, none)]) (by decide) (.flag (by decide) (by decide) .stop) ?_
    refine .operand (by decide) rfl ?_
    refine .option (body := cs "-verb") (g := [(0, none)]) (by decide) ?_ ?_
    · refine .long (p := cs "verb") (l := ⟨cs "verbose", 0, .no⟩) (by decide) (by decide) ?_ (by decide)
      refine Or.inr ⟨by decide, ⟨[], [], by decide, ⟨cs "ose", by decide⟩, by simp⟩, by decide⟩
    · exact .operand (by decide) rfl (.operand (by decide) rfl .done)
  spread := by
    refine ⟨rfl, rfl, fun i h seg hi hseg ht => ?_⟩
    have : declOf stamp = ⟨true, false, none, none⟩ := by decide +kernel
    match i with
    | 0 => cases hseg; rfl
    | 1 => cases hi; cases hseg; revert ht; decide
    | 2 =>
      cases hi
      have h1 : stamp.shortopts = none := congrArg Decl.short this
      have h2 : stamp.longopts = none := congrArg Decl.long this
      rw [h1, h2] at ht
      simp at ht
    | i + 3 => simp [dated] at hi
  greedy := by
    intro i h seg a hi hseg h1 h2 ha ht
    match i with
    | 0 => cases hi; cases h1
    | 1 =>
      cases hi; cases hseg
      rcases ht.room with h3 | h3
      · simp at h3
      · have h4 : (given [(0, (none : Option CStr)), (0, none)] 1 ++ List.map some [cs "3", cs "0x10"] ++ [some a]).length = 3 := by
          simp [given]
        rw [h4] at h3
        revert h3; decide
    | 2 => simp at ha
    | i + 3 => simp [dated] at hi
  takes := by
    intro i h seg hi hseg
    have mx : stamp.maxcount = 1 := by have := (give_rex stamp_entry).1; simpa using this.symm
    match i with
    | 0 =>
      cases hi; cases hseg
      exact ⟨Or.inr (by decide), fun j a _ => .lit rfl⟩
    | 1 =>
      cases hi; cases hseg
      refine ⟨Or.inr (by decide), fun j a hj => ?_⟩
      match j with
      | 0 =>
        cases hj
        exact .int (n := 3) rfl (.plain _ _ (.mk [] [] [] (cs "3") [] [] 1 10 3 1 (by decide) .none .dec
          (.one '3' 3 (Or.inl rfl) (by decide)) .none (by decide))) (by decide)
      | 1 =>
        cases hj
        exact .int (n := 16) rfl (.plain _ _ (.mk [] [] (cs "0x") (cs "10") [] [] 1 16 16 1 (by decide) .none (.hex 'x' (Or.inl rfl))
          (.snoc ['1'] 1 '0' 0 (.one '1' 1 (Or.inl rfl) (by decide)) (Or.inl rfl) (by decide)) .none (by decide))) (by decide)
      | j + 2 => cases hj
    | 2 =>
      cases hi; cases hseg
      refine ⟨Or.inr (by rw [mx]; decide), fun j a hj => ?_⟩
      match j with
      | 0 => cases hj; exact .rex stamp_entry stamped_definite stamped_accepts
      | j + 1 => cases hj
    | i + 3 => simp [dated] at hi
  enough := by
    intro i h seg hi hseg _
    match i with
    | 0 => cases hi; cases hseg; decide
    | 1 => cases hi; cases hseg; decide
    | 2 =>
      cases hi; cases hseg
      have : stamp.mincount = 1 := by decide +kernel
      rw [this]; decide
    | i + 3 => simp [dated] at hi

/-- It is accepted, and the values are stored. -/
example : ∃ r, Returns false [cs "prog", cs "-v", cs "3", cs "--verb", cs "0x10", cs "2024-05,ab;z"] dated g0 r ∧ r.1 = 0 ∧
    ∃ q, r.2.1.entries[1]? = some { count with parent := q } ∧ Stores Demo.lc count [some (cs "3"), some (cs "0x10")] q := by
  have hwf : WF (dated.entries.map declOf) := by
    have hd : dated.entries.map declOf = [⟨false, false, some (cs "vw"), some (cs "verbose")⟩,
      ⟨true, false, none, none⟩, declOf stamp] := rfl
    have hds : (declOf stamp) = ⟨true, false, none, none⟩ := by decide +kernel
    rw [hd, hds]
    intro d hd
    simp only [List.mem_cons, List.not_mem_nil, or_false] at hd
    rcases hd with rfl | rfl | rfl <;>
      exact ⟨by intro s h; cases h <;> decide, by intro s h; cases h <;> decide⟩
  obtain ⟨r, h1, h2, h3⟩ := C57_complete (t := dated) (env := false) finOK hwf dated_live dated_decidable
    [cs "prog", cs "-v", cs "3", cs "--verb", cs "0x10", cs "2024-05,ab;z"] (by decide) (by decide)
    (segs := [[], [cs "3", cs "0x10"], [cs "2024-05,ab;z"]])
    (fun i h o seg a hi hseg ho _ _ _ hlt => by
      match i with
      | 0 => cases hi; cases ho
      | 1 => cases hi; cases hseg; exact absurd hlt (by decide)
      | 2 =>
        cases hi
        rw [(give_rex stamp_entry).2.2.1] at ho
        cases ho
      | i + 3 => simp [dated] at hi) dated_right g0
  exact ⟨r, h1, h2, h3 1 count [cs "3", cs "0x10"] rfl rfl⟩

end Demo

end Argtable
