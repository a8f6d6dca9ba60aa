import Verif.Proofs.Stored
import Verif.Props.Operands
/-!
# What entries hold after a command line (C56)

`tokenize` (Spec/Cmdline.lean) reads a command line as option events and operands; `delivered evs i` are the values
that the options deliver to entry `i`; `Spread` divides the operands over the entries; `Stores lc h args q`
(Spec/Stored.lean) says what the entry `h` holds after the arguments `args`.
-/

namespace Argtable

open Spec

variable {δ : Type} {lc : Libc δ} {env : Bool} {m : Nat}

theorem liveSteps {es : List (Hdr (Obj δ))} (hl : ∀ h ∈ es, Live lc AnyPat h) : ScanSteps (Stores lc) es where
  step := fun h hh f hf args p q a hs hq => stores_step (hl h hh) hf hs hq
  stay := fun h hh f hf p q a c hq hc => C24_rejected (hl h hh) f hf p q a c hq hc
  free := fun h hh hf args p a hs => stores_free (hl h hh) hf a hs

theorem recorded_nil {m : Nat} {errs : List ErrRec} (h : recorded m errs = []) : errs = [] := by
  unfold recorded at h
  split at h
  · exact h
  · simp at h

/-- C56, with or without errors.  Each entry holds the values of some of the option arguments delivered to it, in
order, followed by those of its segment of the operands.  The operands beyond the segments are left over.  If
`arg_parse` returns 0, no option argument is left out, no operand is left over, and no part of the command line was
in error. -/
theorem C56_accepted {t : Table (Obj δ)} (hend : EndOK m t.fin) (hwf : WF (t.entries.map declOf))
    (hl : ∀ h ∈ t.entries, Live lc AnyPat h) (argv : List CStr) (hargs : CArgs argv.tail)
    (g : GState) (r : Nat × Table (Obj δ) × GState) (hr : Returns env argv t g r) :
    ∃ evs segs left, tokenize (t.entries.map declOf) env argv.tail = some (evs, segs.flatten ++ left) ∧
      Spread t.entries segs.flatten segs ∧
      (∀ (i : Nat) (h : Hdr (Obj δ)) (seg : List CStr), t.entries[i]? = some h → segs[i]? = some seg →
        ∃ args q, args.Sublist (delivered evs i) ∧ (r.1 = 0 → args = delivered evs i) ∧
          r.2.1.entries[i]? = some { h with parent := q } ∧ Stores lc h (args ++ seg.map some) q) ∧
      (r.1 = 0 → left = [] ∧ ∀ c v, Ev.fail c v ∉ evs) := by
  obtain ⟨evs, ops, raised, htok, hsc, -, hrec⟩ := C16_missing hend hwf hl argv hargs g r hr
  obtain ⟨s, w, h1, h2, h3⟩ := scanned_split hsc
  have e1 : r.2.1.entries = w.1 := congrArg Prod.fst h3
  have e2 : raised = s.2 ++ w.2 := congrArg Prod.snd h3
  have hS := liveSteps hl
  have hf := afterOptions_frame h1
  unfold afterOptions at h1
  obtain ⟨es0, h4, h5⟩ := bind_some_ok h1
  obtain ⟨l0, he0⟩ := resetAll_entry _ _ h4
  have hd0 : Delivering (Stores lc) t.entries [] (es0, []) := by
    refine ⟨l0, fun i h hi => ?_, fun _ c v h => by cases h⟩
    obtain ⟨p, h6, h7⟩ := he0 i h hi
    exact ⟨[], _, h6, ⟨p, rfl, stores_reset (hl h (List.mem_of_getElem? hi)) (by rw [← h7]; cases h.resetfn <;> rfl)⟩, List.Sublist.refl _, fun _ => rfl⟩
  have hd := delivering_all hS evs hd0 h5
  rw [List.nil_append] at hd
  obtain ⟨left, h6, h7⟩ := operands_handout s.1 0 none ops w (by
    intro h hh f hs p a q c hq hc
    obtain ⟨k, hk, e⟩ := hf.mem_right hh
    rw [e] at hs
    exact C24_rejected (hl k hk) f hs p q a c hq hc) h2
  obtain ⟨segs, l1, l2, l3, l4⟩ := handout_segs h6
  have h0 : r.1 = 0 → s.2 = [] ∧ w.2 = [] := by
    intro h0
    rw [h0, List.take_zero] at hrec
    have := recorded_nil hrec.symm
    split at this
    · rename_i h; rw [e2] at h; exact List.append_eq_nil_iff.1 h
    · rename_i h; exact absurd this h
  refine ⟨evs, segs, left, by rw [htok, l2], ⟨by rw [l1, hd.length], rfl, ?_⟩, ?_, ?_⟩
  · intro i h seg hi hseg htag
    obtain ⟨args, k, g1, ⟨q, rfl, g2⟩, -⟩ := hd.entry i h hi
    exact (l4 i _ seg g1 hseg).1 htag
  · intro i h seg hi hseg
    obtain ⟨args, k, g1, ⟨q, rfl, g2⟩, g3, g4⟩ := hd.entry i h hi
    obtain ⟨-, k', g5, g6⟩ := l4 i _ seg g1 hseg
    rw [e1, g5]
    rcases g6 with ⟨rfl, rfl, -⟩ | ⟨f, q', g7, g8, rfl, -⟩
    · exact ⟨args, q, g3, fun h => g4 (h0 h).1, rfl, by simpa using g2⟩
    · refine ⟨args, q', g3, fun h => g4 (h0 h).1, rfl, ?_⟩
      exact accepts_holding (fun args p q a => hS.step h (List.mem_of_getElem? hi) f g7 args p q a) g8 args g2
  · intro h
    obtain ⟨g1, g2⟩ := h0 h
    rw [g2] at h7
    refine ⟨?_, hd.clean g1⟩
    cases left with
    | nil => rfl
    | cons a l => cases h7

/-- C56.  When `arg_parse` returns 0, every entry holds exactly the values given to it on the command line: the
arguments of its options and its segment of the operands, each in the order of the command line. -/
theorem C56_stored {t : Table (Obj δ)} (hend : EndOK m t.fin) (hwf : WF (t.entries.map declOf))
    (hl : ∀ h ∈ t.entries, Live lc AnyPat h) (argv : List CStr) (hargs : CArgs argv.tail)
    (g : GState) (r : Nat × Table (Obj δ) × GState) (hr : Returns env argv t g r) (h0 : r.1 = 0) :
    ∃ evs ops segs, tokenize (t.entries.map declOf) env argv.tail = some (evs, ops) ∧
      (∀ c v, Ev.fail c v ∉ evs) ∧ Spread t.entries ops segs ∧
      ∀ (i : Nat) (h : Hdr (Obj δ)) (seg : List CStr), t.entries[i]? = some h → segs[i]? = some seg →
        ∃ q, r.2.1.entries[i]? = some { h with parent := q } ∧ Stores lc h (delivered evs i ++ seg.map some) q := by
  obtain ⟨evs, segs, left, h1, h2, h3, h4⟩ := C56_accepted hend hwf hl argv hargs g r hr
  obtain ⟨rfl, h5⟩ := h4 h0
  refine ⟨evs, _, segs, h1, h5, by rw [List.append_nil]; exact h2, fun i h seg hi hseg => ?_⟩
  obtain ⟨args, q, -, g1, g2, g3⟩ := h3 i h seg hi hseg
  rw [g1 h0] at g3
  exact ⟨q, g2, g3⟩

theorem stores_int {h : Hdr (Obj δ)} {o0 : IntObj} (hp : h.parent = .int o0) {args : List (Option CStr)} {q : Obj δ}
    (hs : Stores lc h args q) : ∃ o, q = .int o ∧ o.count = args.length ∧ o.ival.length = o0.ival.length ∧
      (∀ (j : Nat) (a : CStr), args[j]? = some (some a) → ∃ n, LooseText a n ∧ FitsInt n ∧ o.ival[j]? = some (some n)) ∧
      ∀ j : Nat, args.length ≤ j ∨ args[j]? = some none → o.ival[j]? = o0.ival[j]? := by
  cases hs with
  | @int o1 o h0 h1 h2 =>
    rw [hp] at h0
    cases h0
    refine ⟨o, rfl, h1, h2.length, fun j a ha => ?_, fun j hj => ?_⟩
    · obtain ⟨v0, v, -, h3, n, h4, h5, rfl⟩ := h2.text j a ha
      exact ⟨n, h4, h5, h3⟩
    · refine h2.other j fun a ha => ?_
      rcases hj with hj | hj
      · rw [List.getElem?_eq_none hj] at ha; cases ha
      · rw [hj] at ha; cases ha
  | lit h0 => rw [hp] at h0; cases h0
  | dbl h0 => rw [hp] at h0; cases h0
  | str h0 => rw [hp] at h0; cases h0
  | file h0 => rw [hp] at h0; cases h0
  | date h0 => obtain ⟨-, -, h1, -⟩ := give_date h0; rw [hp] at h1; cases h1
  | rex h0 => obtain ⟨-, -, h1, -⟩ := give_rex h0; rw [hp] at h1; cases h1
  | rem h0 => rw [hp] at h0; cases h0

theorem stores_nil {h : Hdr (Obj δ)} {q : Obj δ} (hs : Stores lc h [] q) : q = presets h.parent := by
  unfold presets
  have key : ∀ {β : Type} {Val : β → CStr → β → Prop} {c0 c : List β}, Cells Val [] c0 c → c = c0 := by
    intro β Val c0 c hc
    exact List.ext_getElem? fun j => hc.other j fun a => by simp
  cases hs with
  | lit h0 => rw [h0]; rfl
  | @int _ o h0 h1 h2 => cases o; rw [h0]; dsimp only; rw [← key h2]; cases h1; rfl
  | @dbl _ o h0 h1 h2 => cases o; rw [h0]; dsimp only; rw [← key h2]; cases h1; rfl
  | @str _ o h0 h1 h2 => cases o; rw [h0]; dsimp only; rw [← key h2]; cases h1; rfl
  | @file _ o h0 h1 h2 h3 h4 => cases o; rw [h0]; dsimp only; rw [← key h2, ← key h3, ← key h4]; cases h1; rfl
  | @date _ _ o h0 h1 h2 => obtain ⟨-, -, h3, -⟩ := give_date h0; cases o; rw [h3]; dsimp only; rw [← key h2]; cases h1; rfl
  | @rex _ _ _ o h0 h1 h2 => obtain ⟨-, -, h3, -⟩ := give_rex h0; cases o; rw [h3]; dsimp only; rw [← key h2]; cases h1; rfl
  | rem h0 => rw [h0]

/-- C56, as a program reads the values of an `arg_int` with option names: it has as many values as its options
were given, and its `j`-th value is the integer denoted by the argument of the `j`-th of them; cells for which the
command line gives no text keep what the program has preset. -/
theorem C56_int {t : Table (Obj δ)} (hend : EndOK m t.fin) (hwf : WF (t.entries.map declOf))
    (hl : ∀ h ∈ t.entries, Live lc AnyPat h) (argv : List CStr) (hargs : CArgs argv.tail)
    (g : GState) (r : Nat × Table (Obj δ) × GState) (hr : Returns env argv t g r) (h0 : r.1 = 0)
    {i : Nat} {h : Hdr (Obj δ)} {o0 : IntObj} (hi : t.entries[i]? = some h) (hp : h.parent = .int o0)
    (htag : h.shortopts.isSome ∨ h.longopts.isSome) {evs : List Ev} {ops : List CStr}
    (htok : tokenize (t.entries.map declOf) env argv.tail = some (evs, ops)) :
    ∃ o, r.2.1.entries[i]? = some { h with parent := .int o } ∧ o.count = (delivered evs i).length ∧
      o.ival.length = o0.ival.length ∧
      (∀ (j : Nat) (a : CStr), (delivered evs i)[j]? = some (some a) →
        ∃ n, LooseText a n ∧ FitsInt n ∧ o.ival[j]? = some (some n)) ∧
      ∀ j : Nat, (delivered evs i).length ≤ j ∨ (delivered evs i)[j]? = some none → o.ival[j]? = o0.ival[j]? := by
  obtain ⟨evs', ops', segs, h1, -, h2, h3⟩ := C56_stored hend hwf hl argv hargs g r hr h0
  rw [htok] at h1
  cases h1
  obtain ⟨seg, hseg⟩ : ∃ seg, segs[i]? = some seg :=
    ⟨_, List.getElem?_eq_getElem (by rw [h2.length]; exact (List.getElem?_eq_some_iff.1 hi).1)⟩
  obtain ⟨q, h4, h5⟩ := h3 i h seg hi hseg
  rw [h2.tagged i h seg hi hseg htag, List.map_nil, List.append_nil] at h5
  obtain ⟨o, rfl, h6⟩ := stores_int hp h5
  exact ⟨o, h4, h6⟩

/-- C56.  An entry with option names that the command line does not give to it keeps the values the program has
preset, with the count 0, whether or not there are errors elsewhere (`presets`: only an `arg_str` that held values
of an earlier command line has these emptied). -/
theorem C56_defaults {t : Table (Obj δ)} (hend : EndOK m t.fin) (hwf : WF (t.entries.map declOf))
    (hl : ∀ h ∈ t.entries, Live lc AnyPat h) (argv : List CStr) (hargs : CArgs argv.tail)
    (g : GState) (r : Nat × Table (Obj δ) × GState) (hr : Returns env argv t g r)
    {i : Nat} {h : Hdr (Obj δ)} (hi : t.entries[i]? = some h)
    (htag : h.shortopts.isSome ∨ h.longopts.isSome) {evs : List Ev} {ops : List CStr}
    (htok : tokenize (t.entries.map declOf) env argv.tail = some (evs, ops)) (hno : ∀ a, Ev.deliver i a ∉ evs) :
    r.2.1.entries[i]? = some { h with parent := presets h.parent } := by
  obtain ⟨evs', segs, left, h1, h2, h3, -⟩ := C56_accepted hend hwf hl argv hargs g r hr
  rw [htok] at h1
  cases h1
  obtain ⟨seg, hseg⟩ : ∃ seg, segs[i]? = some seg :=
    ⟨_, List.getElem?_eq_getElem (by rw [h2.length]; exact (List.getElem?_eq_some_iff.1 hi).1)⟩
  obtain ⟨args, q, h4, -, h5, h6⟩ := h3 i h seg hi hseg
  have hd : delivered evs i = [] := by
    clear h4 htok h3
    induction evs with
    | nil => rfl
    | cons e evs ih =>
      cases e with
      | fail c v => exact ih fun a ha => hno a (by simp [ha])
      | deliver j a =>
        rw [delivered, if_neg (by rintro rfl; exact hno a (by simp))]
        exact ih fun a ha => hno a (by simp [ha])
  rw [hd] at h4
  rw [List.sublist_nil.1 h4, h2.tagged i h seg hi hseg htag] at h6
  rw [h5, stores_nil h6]

/-- `prog x -va --num=3 -n 0x10 y` on the demonstration table: returns 0, and the theorem gives the values. -/
example : ∃ r, Returns false [cs "prog", cs "x", cs "-va", cs "--num=3", cs "-n", cs "0x10", cs "y"] Demo.table Demo.g0 r ∧
    r.1 = 0 ∧ r.2.1.entries.map (·.parent.count) = [1, 1, 2, 0, 0, 0, 2] ∧
    (r.2.1.entries[2]?.map (·.parent)) = some (.int ⟨2, [some 3, some 16]⟩) := by
  obtain ⟨r, hr, hs⟩ := readsAs_of_tokenize (t := Demo.table) (env := false) Demo.finOK Demo.wf
    (argv := [cs "prog", cs "x", cs "-va", cs "--num=3", cs "-n", cs "0x10", cs "y"]) (by decide)
    (evs := [.deliver 1 none, .deliver 0 none, .deliver 2 (some (cs "3")), .deliver 2 (some (cs "0x10"))])
    (ops := [cs "x", cs "y"]) (by decide) Demo.g0
  exact ⟨r, hr, hs.ret, by rw [hs.entries]; rfl, by rw [hs.entries]; rfl⟩

end Argtable
