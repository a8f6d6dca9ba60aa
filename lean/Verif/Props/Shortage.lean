import Verif.Spec.DstrOom
import Verif.Proofs.DstrOom
import Verif.Props.Stream
/-!
# Running out of memory while building and printing text (C77)

The panic function that the program has set jumps back into the program, which carries on.  `attemptAll`, `AddsPart` and
`PrintsWholly` are in Spec/DstrOom.lean.
-/

namespace Argtable

open Spec

variable {P C δ σ : Type}

/-! ### arg_dstr -/

/-- C77.  A program makes any sequence of calls on an object, each of which may run out of memory, and carries on.  There
is no memory error; a call runs out of memory only if memory is limited; the string is always made by the calls
that have returned, as if the others had not been made; and after `arg_dstr_destroy` the allocated blocks are those that
existed before, the strings that the client has passed as `ARG_DSTR_STATIC`, and at most one block for each call of
`arg_dstr_catf` that ran out of memory. -/
theorem C77_dstr (heap : Heap) (hist : List (Supply × DCmd)) (hp : ∀ e ∈ hist, e.2.Proper)
    (hsize : (hist.map fun e => e.2.size).sum ≤ 500000000) :
    ∃ st bs, attemptAll (dstrCreate heap) hist = .ok (st, bs) ∧ bs.length = hist.length ∧
      (∀ (i : Nat) e, hist[i]? = some e → Plenty e.1 → bs[i]? = some true) ∧
      st.cstr (dstrCstr st) = .ok (contents (returned hist bs)) ∧
      (∀ a, a < heap.length → st.heap[a]? = heap[a]?) ∧
      ∃ heap' lost, dstrDestroy st = .ok (heap', (returned hist bs).flatMap DCmd.custom) ∧
        (liveBlocks heap').Perm (liveBlocks heap ++ ((returned hist bs).flatMap DCmd.static).map strBytes ++ lost) ∧
        lost.length ≤ brokenOff hist bs := by
  obtain ⟨st, bs, S, lost, e, hlen, hpl, h, hS, hlost⟩ := (DInv.create heap).attemptAll hist hp (by simpa using hsize)
  obtain ⟨st', e', -, hlog, hh⟩ := h.reset
  refine ⟨st, bs, e, hlen, hpl, h.cstr, h.live_frame, st'.heap, lost, ?_, ?_, hlost⟩
  · unfold dstrDestroy
    rw [e', bind_ok, hlog]
    rfl
  · rw [hh.liveBlocks, List.append_assoc]
    refine List.Perm.append_left _ ?_
    simpa using hS

/-- C77.  Only copying a long string and appending allocate memory: the other calls always return. -/
theorem C77_safe_calls (sup : Supply) (st : DState) {c : DCmd} {r : DState × Bool}
    (hc : c = .setNull ∨ c = .reset ∨ (∃ s, c = .setStatic s) ∨ (∃ s, c = .setDynamic s) ∨ ∃ k s, c = .setCustom k s)
    (h : c.attempt sup st = .ok r) : r.2 = true ∧ c.exec st = .ok r.1 := by
  have key : ∀ {x : M DState}, recover (up x) .ok = .ok r → r.2 = true ∧ x = .ok r.1 := by
    intro x hx
    cases x with
    | error e => cases hx
    | ok v => cases hx; exact ⟨rfl, rfl⟩
  rcases hc with rfl | rfl | ⟨s, rfl⟩ | ⟨s, rfl⟩ | ⟨k, s, rfl⟩
  · refine key (x := dstrSet st none .static) ?_
    rw [← set_mild (sup := sup) _ _ _ (Or.inl rfl)]
    exact h
  · exact key h
  · refine key (x := dstrSet (st.malloc (strBytes s)).2 (some ⟨.blk (st.malloc (strBytes s)).1, 0⟩) .static) ?_
    rw [← set_mild (sup := sup) _ _ _ (Or.inr (by simp))]
    exact h
  · refine key (x := dstrSet (st.malloc (strBytes s)).2 (some ⟨.blk (st.malloc (strBytes s)).1, 0⟩) .dynamic) ?_
    rw [← set_mild (sup := sup) _ _ _ (Or.inr (by simp))]
    exact h
  · refine key (x := dstrSet (st.malloc (strBytes s)).2 (some ⟨.blk (st.malloc (strBytes s)).1, 0⟩) (.custom k)) ?_
    rw [← set_mild (sup := sup) _ _ _ (Or.inr (by simp))]
    exact h

/-! ### Printing -/

theorem addsPart_of {f : DState → M DState} {text : CStr} (h : Appends f text) (hn : '\x00' ∉ text) : AddsPart f text := by
  obtain ⟨cmds, h1, h2⟩ := h
  refine ⟨cmds, h1, h2, fun heap hist sup hp hsize => ?_⟩
  obtain ⟨st, bs, S, lost, e, hlen, hpl, hi, hS, hlost⟩ := (DInv.create heap).attemptAll hist hp (by simp; omega)
  have hbound : ∀ (hist : List (Supply × DCmd)) (bs : List Bool), ((returned hist bs).map DCmd.size).sum ≤
      (hist.map fun e => e.2.size).sum := by
    intro hist
    induction hist with
    | nil => intro bs; simp [returned]
    | cons e hist ih =>
      obtain ⟨s, c⟩ := e
      intro bs
      rcases bs with _ | ⟨_ | _, bs⟩
      · simp [returned]
      · have := ih bs; simp [returned]; omega
      · have := ih bs; simp [returned]; omega
  have hl2 : (contents (returned hist bs)).length ≤ (hist.map fun e => e.2.size).sum :=
    Nat.le_trans (contents_length (Nat.le_refl _)) (hbound hist bs)
  rcases untilShort_of (sup := sup) h1 hn hi (by show (contents _).length + _ ≤ _; omega) with
    ⟨st', S', e', x', hi', hS'⟩ | ⟨hpl', st', S', lost', part, rest, e', he, hi', hS', hl'⟩
  · obtain ⟨st2, e2, -, hlog, hh⟩ := hi'.reset
    refine ⟨st, bs, st', true, e, e', (fun _ => (h2 st).trans x'), (fun h => absurd h (by simp)), text, [], by simp, fun _ => rfl,
      hi'.cstr, st2.heap, lost, ?_, ?_, hlost⟩
    · unfold dstrDestroy
      rw [e2, bind_ok, hlog]
      rfl
    · rw [hh.liveBlocks, hS', List.append_assoc]
      exact List.Perm.append_left _ (by simpa using hS)
  · obtain ⟨st2, e2, -, hlog, hh⟩ := hi'.reset
    refine ⟨st, bs, st', false, e, e', (fun h => absurd h (by simp)), (fun _ => hpl'), part, rest, he, (fun h => absurd h (by simp)),
      hi'.cstr, st2.heap, lost ++ lost', ?_, ?_, ?_⟩
    · unfold dstrDestroy
      rw [e2, bind_ok, hlog]
      rfl
    · rw [hh.liveBlocks, hS', List.append_assoc, ← List.append_assoc _ lost lost']
      exact List.Perm.append_left _ (List.Perm.append_right _ (by simpa using hS))
    · rw [List.length_append]
      show _ ≤ brokenOff hist bs + 1
      omega

theorem printsWholly_of {f : DState → M DState} {text : CStr} (h : Appends f text) (hn : '\x00' ∉ text)
    (hl : text.length ≤ 500000000) : PrintsWholly f text := by
  obtain ⟨cmds, h1, h2⟩ := id h
  refine ⟨cmds, h1, h2, fun heap out sup objSize => ?_⟩
  by_cases hc : sup.malloc heap objSize = true
  · have hcr : dstrCreateOom sup objSize heap = .ok (dstrCreate heap) := by unfold dstrCreateOom; rw [if_pos hc]
    rcases untilShort_of (sup := sup) h1 hn (DInv.create heap) (by simpa using hl) with
      ⟨st', S', e', x', hi', hS'⟩ | ⟨hpl', st', S', lost', part, rest, e', he, hi', hS', hl'⟩
    · obtain ⟨heap', t1, t2, t3⟩ := toStream_of h hn hl heap out
      refine Or.inl ⟨heap', ?_, t1⟩
      unfold streamShort
      rw [hcr]
      dsimp only
      rw [e', bind_ok]
      dsimp only
      rw [if_pos rfl]
      unfold toStream at t1
      dsimp only at t1
      rw [h2, x', bind_ok] at t1
      cases hcs : st'.cstr (dstrCstr st') with
      | error e => rw [hcs] at t1; cases t1
      | ok s =>
        rw [hcs, bind_ok] at t1
        rw [bind_ok]
        cases hd : dstrDestroy st' with
        | error e => rw [hd] at t1; cases t1
        | ok q =>
          rw [hd, bind_ok] at t1
          rw [bind_ok]
          have t1 := Except.ok.inj t1
          rw [t1]
    · refine Or.inr ⟨hpl', st'.heap, ?_, hi'.live_frame, ?_⟩
      · unfold streamShort
        rw [hcr]
        dsimp only
        rw [e', bind_ok]
        rfl
      · have := hi'.live_le
        have h3 := congrArg List.length hS'
        simp only [List.length_map, List.map_nil, List.nil_append] at h3
        omega
  · refine Or.inr ⟨fun hp => hc (hp.1 _ _), heap, ?_, fun _ _ => rfl, by omega⟩
    unfold streamShort dstrCreateOom
    rw [if_neg hc]

/-- C77.  `arg_print_option`. -/
theorem C77_option {so lo dt : Option CStr} {suffix out : CStr} (hs : '\x00' ∉ suffix)
    (h : printOption so lo dt suffix = .ok out) (hl : out.length ≤ 500000000) :
    AddsPart (optionDs so lo dt suffix) out ∧ PrintsWholly (optionDs so lo dt suffix) out :=
  ⟨addsPart_of (appends_option h) (nul_option hs h), printsWholly_of (appends_option h) (nul_option hs h) hl⟩

/-- C77.  `arg_print_syntax`. -/
theorem C77_syntax {es : List (Hdr σ)} {suffix : Option CStr} {out : CStr} (hc : ∀ h ∈ es, CHdr h) (hs : CText suffix)
    (h : printSyntax es suffix = .ok out) (hl : out.length ≤ 500000000) :
    AddsPart (syntaxDs es suffix) out ∧ PrintsWholly (syntaxDs es suffix) out :=
  have hn := nul_syntax (fun x hx => (hc x hx).1) hs h
  ⟨addsPart_of (appends_syntax h) hn, printsWholly_of (appends_syntax h) hn hl⟩

/-- C77.  `arg_print_syntaxv`. -/
theorem C77_syntaxv {es : List (Hdr σ)} {suffix : Option CStr} {out : CStr} (hs : CText suffix)
    (h : printSyntaxv es suffix = .ok out) (hl : out.length ≤ 500000000) :
    AddsPart (syntaxvDs es suffix) out ∧ PrintsWholly (syntaxvDs es suffix) out :=
  ⟨addsPart_of (appends_syntaxv h) (nul_syntaxv hs h), printsWholly_of (appends_syntaxv h) (nul_syntaxv hs h) hl⟩

/-- C77.  `arg_print_glossary`. -/
theorem C77_glossary {fmtlen : Nat} {fmt2 : CStr → CStr → CStr} (hf : fmtlen ≤ 500000000)
    (hf2 : ∀ a b, '\x00' ∉ a → '\x00' ∉ b → '\x00' ∉ fmt2 a b) {es : List (Hdr σ)} {out : CStr}
    (hc : ∀ h ∈ es, CText h.glossary) (h : printGlossary fmt2 es = .ok out) (hl : out.length ≤ 500000000) :
    AddsPart (glossaryDs fmtlen fmt2 es) out ∧ PrintsWholly (glossaryDs fmtlen fmt2 es) out :=
  have hn := nul_glossary hf2 es hc h
  ⟨addsPart_of (appends_glossary hf fmt2 es h) hn, printsWholly_of (appends_glossary hf fmt2 es h) hn hl⟩

/-- C77.  `arg_print_formatted`. -/
theorem C77_formatted {fuel lmargin rmargin : Nat} {text out : CStr} (h : printFormatted fuel lmargin rmargin text = .ok out)
    (hn : '\x00' ∉ out) (hl : out.length ≤ 500000000) :
    AddsPart (formattedDs fuel lmargin rmargin text) out ∧ PrintsWholly (formattedDs fuel lmargin rmargin text) out :=
  ⟨addsPart_of (appends_formatted h) hn, printsWholly_of (appends_formatted h) hn hl⟩

/-- C77.  `arg_print_glossary_gnu`. -/
theorem C77_glossary_gnu {fuel : Nat} {es : List (Hdr σ)} {out : CStr} (hc : ∀ h ∈ es, CText h.glossary)
    (hg : ∀ h ∈ es, ∀ g, h.glossary = some g → g.length < 2 ^ 32 - 1 ∧ g.length < fuel)
    (h : printGlossaryGnu fuel es = .ok out) (hl : out.length ≤ 500000000) :
    AddsPart (glossaryGnuDs fuel es) out ∧ PrintsWholly (glossaryGnuDs fuel es) out :=
  have hn := nul_glossaryGnu hc hg h
  ⟨addsPart_of (appends_glossaryGnu h) hn, printsWholly_of (appends_glossaryGnu h) hn hl⟩

/-- C77.  `arg_print_errors`. -/
theorem C77_errors {lc : Libc δ} {R : CStr → Prop} {t : Table (Obj δ)} (hlive : ∀ h ∈ t.entries, Live lc R h)
    {fns : List (Option (ErrFn (Obj δ)))} (hf : List.Forall₂ (Installed lc) t.entries fns) {prog out : CStr}
    (h : printErrors t prog = .ok out) (hn : '\x00' ∉ out) (hl : out.length ≤ 500000000) :
    AddsPart (errorsDs t fns prog) out ∧ PrintsWholly (errorsDs t fns prog) out :=
  have ha := appends_errors (fnsOf_of hlive hf) h
  ⟨addsPart_of ha hn, printsWholly_of ha hn hl⟩

/-- C77.  `arg_make_get_help_msg`, `arg_make_help_msg` and `arg_make_syntax_err_msg`. -/
theorem C77_messages {lc : Libc δ} {R : CStr → Prop} (limit : Nat → Nat) (m : ModInfo) (reg : Registry P C) (name : CStr)
    {t : Table (Obj δ)} (hlive : ∀ h ∈ t.entries, Live lc R h)
    {fns : List (Option (ErrFn (Obj δ)))} (hf : List.Forall₂ (Installed lc) t.entries fns) :
    ('\x00' ∉ makeGetHelpMsg m → AddsPart (getHelpDs m) (makeGetHelpMsg m)) ∧
    (∀ out, makeHelpMsg limit m reg name t.entries = .ok out → '\x00' ∉ out →
      AddsPart (helpDs limit m reg name t.entries) out) ∧
    (∀ out, makeSyntaxErrMsg m t = .ok out → '\x00' ∉ out → AddsPart (syntaxErrDs m t fns) out) :=
  ⟨addsPart_of (appends_getHelp m), fun _ h hn => addsPart_of (appends_help h) hn,
    fun _ h hn => addsPart_of (appends_syntaxErr (fnsOf_of hlive hf) h) hn⟩

/-! ## The hypotheses are met -/

/-- A supply of memory for blocks of at most `n` bytes. -/
def upTo (n : Nat) : Supply := { malloc := fun _ k => decide (k ≤ n), grow := fun _ _ => true }

/-- Appending works, then fails three times, the last time with a block lost, then works again. -/
def demoHist : List (Supply × DCmd) :=
  [(upTo 200, .cat (cs "usage: ")), (upTo 199, .cat (List.replicate 300 'x')), (upTo 50, .catf (some 9) (List.replicate 300 'y')),
    (upTo 402, .catf (some 9) (List.replicate 200 'z')), (upTo 0, .catc '!')]

example : (∀ e ∈ demoHist, e.2.Proper) ∧ (demoHist.map fun e => e.2.size).sum ≤ 500000000 := by
  refine ⟨fun e he => ?_, by decide +kernel⟩
  simp only [demoHist, List.mem_cons, List.not_mem_nil, or_false] at he
  rcases he with rfl | rfl | rfl | rfl | rfl <;> simp only [DCmd.Proper] <;> decide +kernel

example : (attemptAll (dstrCreate [some [some 'a']]) demoHist).map (fun r => (r.2, (r.1.cstr (dstrCstr r.1)).toOption,
      (dstrDestroy r.1).toOption.map fun q => (liveBlocks q.1).map (·.length))) =
    .ok ([true, false, false, false, true], some (cs "usage: !"), some [1, 402]) := by decide +kernel

/-- The usage of the demo table. -/
example : PrintsWholly (syntaxDs Demo.entries (some (cs "\n")))
    (cs " [-av] [-n <int>] [-n <int>] [-o <string>] [-p [<string>]] FILE [FILE] [FILE]\n") :=
  (C77_syntax (fun h hh => by
      simp only [Demo.entries, List.mem_cons, List.not_mem_nil, or_false] at hh
      rcases hh with rfl | rfl | rfl | rfl | rfl | rfl | rfl <;>
        exact ⟨by intro s h; cases h <;> decide, by intro s h; cases h <;> decide, by intro s h; cases h <;> decide⟩)
    (by intro s h; cases h; decide) (by decide +kernel) (by decide +kernel)).2

/-- Printing breaks off: nothing is on the stream, and one block is left in memory. -/
example : (streamShort (upTo 250) 24 [.cat (cs "usage:"), .cat (List.replicate 100 'x'), .cat (List.replicate 200 'x')]
      [some [some 'a']] (cs "> ")).map (fun r => (r.1.2, r.2, (liveBlocks r.1.1).map (·.length))) =
    .ok (cs "> ", false, [1, 200]) := by decide +kernel

end Argtable
