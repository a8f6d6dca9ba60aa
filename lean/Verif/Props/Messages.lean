import Verif.Proofs.Messages
import Verif.Props.Demo
import Mathlib.Data.List.Forall2
/-!
# Error messages (C48)
-/

namespace Argtable

open Spec

variable {δ σ : Type}

/-- C48.  After `arg_parse` has returned for a table of entries made by the public constructors,
`arg_print_errors` succeeds and prints, in order, exactly one message for each recorded error: the
message that `Says` prescribes.  `NoLowBytes`: no byte 1 to 5 in an argument that starts with `-`.  `SampleFits`: the
sample dates of `arg_date` entries have less than 200 bytes; `C48_long_sample` shows what happens otherwise. -/
theorem C48_errors_partial {lc : Libc δ} (env : Bool) {t : Table (Obj δ)} {m : Nat} (hend : EndOK m t.fin)
    (hwf : WF (t.entries.map declOf)) (hlive : ∀ h ∈ t.entries, Live lc AnyPat h)
    (hch : ∀ h ∈ t.entries, CHdr h) (hsf : ∀ h ∈ t.entries, SampleFits lc h) {argv : List CStr} (hargs : CArgs argv.tail)
    (hlow : ∀ a ∈ argv.tail, NoLowBytes a) {g : GState} {r : Nat × Table (Obj δ) × GState}
    (h : Returns env argv t g r) (prog : CStr) :
    ∃ evs ops es errs msgs, tokenize (t.entries.map declOf) env argv.tail = some (evs, ops) ∧
      meaning t.entries evs ops = .ok (es, errs) ∧
      printErrors r.2.1 prog = .ok msgs.flatten ∧
      List.Forall₂ (Says es prog) (recorded m errs) msgs ∧ msgs.length = r.1 := by
  have hJ : All (LiveC lc) t.entries := fun x hx => ⟨hlive x hx, hch x hx, hsf x hx⟩
  obtain ⟨_, hE, evs, ops, es, errs, htok, hm, hs⟩ :=
    returns_good (lawful_liveC lc) env t m hend hwf hJ argv hargs g h
  have hf := tokenize_fine (P := PlainChar) (t.entries.map declOf) env _ argv.tail (Nat.le_refl _) evs ops
    htok hargs (fun a ha hd c hc => ⟨fun h0 => hargs a ha (h0 ▸ hc), hlow a ha hd c hc⟩)
  have hfine := recorded_fine m (meaning_fine hJ (tokenize_evOK _ _ _ _ (Nat.le_refl _) _ _ htok) hf.1 hf.2 hm)
  obtain ⟨msgs, e, h2⟩ := printErrorsLoop_says (prog := prog) (recorded m errs)
    (fun r hr => printError_says (hfine r hr) prog)
  refine ⟨evs, ops, es, errs, msgs, htok, hm, ?_, h2, ?_⟩
  · unfold printErrors
    rw [if_pos, hs.rel.slots, hs.entries]
    · exact e
    · rw [hs.rel.count, hs.rel.ok.len]; exact Nat.min_le_right _ _
  · rw [← h2.length_eq, hs.ret]
    unfold recorded
    split
    · omega
    · have := hend.pos
      simp only [List.length_append, List.length_take, List.length_cons, List.length_nil]
      omega

/-- C48.  The message about a malformed date, exactly: the argument and the sample date (all members 0, see C72). -/
theorem C48_sample {lc : Libc δ} {so lo fm dt gl : Option CStr} {mn mx : Int} {h : Hdr (Obj δ)}
    (hh : argDaten lc so lo fm dt mn mx gl = .ok h) {f : Obj δ → Int → Option CStr → CStr → M CStr}
    (hf : h.errorfn = some f) (hs : (lc.strftime (fm.getD (cs "%x")) {}).length < 200) (o : Obj δ) (a prog : CStr) :
    f o ARG_ERR_BADDATE (some a) prog = .ok (prog ++ cs ": illegal timestamp format \"" ++ a ++
      cs "\"\ncorrect format is \"" ++ lc.strftime (fm.getD (cs "%x")) {} ++ cs "\"\n") := by
  rw [← Libc.sample_eq] at hs ⊢
  unfold argDaten at hh
  dsimp only at hh
  cases hn : arrayCells (foolproof mn mx) with
  | error e => rw [hn] at hh; cases hh
  | ok n =>
    rw [hn, bind_ok] at hh
    cases hh
    cases hf
    dsimp only
    rw [dateError, stdError_other _ _ _ _ _ _ _ _ (by decide) (by decide) (by rw [if_pos rfl, if_pos hs])]
    simp [cs]

/-- C48, another exception: for a format whose sample date has 200 bytes or more, the message about a malformed date
is made from a buffer with indeterminate contents. -/
theorem C48_long_sample {lc : Libc δ} {so lo fm dt gl : Option CStr} {mn mx : Int} {h : Hdr (Obj δ)}
    (hh : argDaten lc so lo fm dt mn mx gl = .ok h) {f : Obj δ → Int → Option CStr → CStr → M CStr}
    (hf : h.errorfn = some f) (hs : 200 ≤ (lc.strftime (fm.getD (cs "%x")) {}).length) (o : Obj δ) (a prog : CStr) :
    f o ARG_ERR_BADDATE (some a) prog = .error (.ub "use of an indeterminate buffer") := by
  rw [← Libc.sample_eq] at hs
  unfold argDaten at hh
  dsimp only at hh
  cases hn : arrayCells (foolproof mn mx) with
  | error e => rw [hn] at hh; cases hh
  | ok n =>
    rw [hn, bind_ok] at hh
    cases hh
    cases hf
    dsimp only
    unfold dateError stdError
    dsimp only
    rw [if_neg (by decide), if_neg (by decide), if_pos rfl, if_neg (by omega)]
    rfl

/-- C48.  Each message starts with the program name and ends with a newline. -/
theorem C48_shape {es : List (Hdr σ)} {prog : CStr} {r : ErrRec} {msg : CStr} (h : Says es prog r msg) :
    (∃ body, msg = prog ++ cs ": " ++ body) ∧ msg.getLast? = some '\n' := by
  unfold Says at h
  split at h
  · revert h
    generalize r.error = code
    generalize r.argval = a
    intro h
    cases h <;>
    exact ⟨⟨_, by simp [cs, List.append_assoc]; rfl⟩, by rw [List.getLast?_append_of_ne_nil _ (by decide)]; rfl⟩
  · obtain ⟨x, _, h⟩ := h
    revert h
    generalize r.error = code
    generalize r.argval = a
    intro h
    cases h <;>
    exact ⟨⟨_, by simp [cs, List.append_assoc]; rfl⟩, by rw [List.getLast?_append_of_ne_nil _ (by decide)]; rfl⟩

/-- C48.  For any table, whatever the error functions of its entries do: `arg_print_errors` calls
them in the order of the records and concatenates what they print. -/
theorem C48_order (t : Table σ) (prog : CStr) (out : CStr) (h : printErrors t prog = .ok out) :
    ∃ msgs : List CStr, out = msgs.flatten ∧
      List.Forall₂ (fun r msg => printError t.entries prog r = .ok msg)
        (t.fin.slots.take t.fin.count) msgs := by
  unfold printErrors at h
  split at h
  · revert h
    generalize t.fin.slots.take t.fin.count = l
    intro h
    induction l generalizing out with
    | nil => cases h; exact ⟨[], rfl, .nil⟩
    | cons r l ih =>
      rw [printErrorsLoop] at h
      cases h1 : printError t.entries prog r with
      | error e => rw [h1] at h; cases h
      | ok a =>
        rw [h1, bind_ok] at h
        cases h2 : printErrorsLoop t.entries prog l with
        | error e => rw [h2] at h; cases h
        | ok b =>
          rw [h2, bind_ok] at h
          cases h
          obtain ⟨msgs, e, hf⟩ := ih b h2
          exact ⟨a :: msgs, by rw [e]; rfl, .cons h1 hf⟩
  · cases h

/-- The message, as a string. -/
def errorText (env : Bool) (fuel : Nat) (argv : List CStr) (t : Table σ) (g : GState) : Option String :=
  match argParse env fuel argv t g with
  | .ok r => match printErrors r.2.1 (cs "prog") with
    | .ok s => some (String.ofList s)
    | .error _ => none
  | .error _ => none

/-- The hypotheses of C48 on the demo table. -/
theorem demo_chdrs : ∀ h ∈ Demo.entries, CHdr h := by
  intro h hh
  simp only [Demo.entries, List.mem_cons, List.not_mem_nil, or_false] at hh
  rcases hh with rfl | rfl | rfl | rfl | rfl | rfl | rfl <;>
    refine ⟨?_, ?_, ?_⟩ <;> intro t ht <;> cases ht <;> decide

/-- The demo's `strftime` prints short texts. -/
theorem demo_samples : ∀ h ∈ Demo.entries, SampleFits Demo.lc h := by
  intro h _ so lo fm dt mn mx gl h' _ _
  exact (by decide : ([] : CStr).length < 200)

/-- Errors of several kinds. -/
example : errorText false 100 [cs "prog", cs "-n", cs "12x", cs "-aaa", cs "--bogus", cs "-z"]
    Demo.table Demo.g0 = some ("prog: invalid argument \"12x\" to option -n|--number=<int>\n" ++
      "prog: extraneous option -a|--all|--almost\n" ++ "prog: invalid option \"--bogus\"\n" ++
      "prog: invalid option \"-z\"\n") := by decide +kernel

/-- The same through the theorem. -/
example : ∃ r, Returns false [cs "prog", cs "-n", cs "12x", cs "-aaa", cs "--bogus", cs "-z"]
    Demo.table Demo.g0 r ∧ ∃ msgs : List CStr, printErrors r.2.1 (cs "prog") = .ok msgs.flatten ∧
      msgs.length = 4 := by
  obtain ⟨r, hr, h4⟩ : ∃ r, Returns false [cs "prog", cs "-n", cs "12x", cs "-aaa", cs "--bogus", cs "-z"]
      Demo.table Demo.g0 r ∧ r.1 = 4 := by
    cases h : argParse false 100 [cs "prog", cs "-n", cs "12x", cs "-aaa", cs "--bogus", cs "-z"]
      Demo.table Demo.g0 with
    | error e => exact absurd h (by
        have : (argParse false 100 [cs "prog", cs "-n", cs "12x", cs "-aaa", cs "--bogus", cs "-z"]
          Demo.table Demo.g0).isOk = true := by decide +kernel
        intro h; rw [h] at this; cases this)
    | ok r => exact ⟨r, ⟨100, h⟩, by
        have : (argParse false 100 [cs "prog", cs "-n", cs "12x", cs "-aaa", cs "--bogus", cs "-z"]
          Demo.table Demo.g0).toOption.map (·.1) = some 4 := by decide +kernel
        rw [h] at this; exact Option.some.inj this⟩
  obtain ⟨_, _, _, _, msgs, _, _, h1, _, h2⟩ := C48_errors_partial (lc := Demo.lc) false Demo.finOK Demo.wf
    (Demo.live AnyPat) demo_chdrs demo_samples (by decide) (by unfold NoLowBytes; decide) hr (cs "prog")
  exact ⟨r, hr, msgs, h1, by rw [h2, h4]⟩

/-- Both cases of the sample date occur: a format without conversions is its own sample. -/
example (n : Nat) : ∃ h : Hdr (Obj Unit), argDaten ⟨fun s => ((), s), fun f _ => f⟩ (some ['d']) none
    (some (List.replicate n 'x')) none 0 1 none = .ok h ∧ h.errorfn.isSome = true := ⟨_, rfl, rfl⟩

/-- C48, the exception: an unknown short option whose character is byte 3 is taken for an internal
error code, so the message reports an unexpected empty argument. -/
theorem C48_low_byte : errorText false 100 [cs "prog", ['-', Char.ofNat 3], cs "file"] Demo.table Demo.g0 =
    some "prog: unexpected argument \"\"\n" := by decide +kernel

end Argtable
