import Verif.Proofs.Help
import Verif.Props.Messages
/-!
# Help messages and usage errors (C55)
-/

namespace Argtable

open Spec

variable {P C δ σ : Type}

/-- C55.  The message that points to the help names the program and the version set last. -/
theorem C55_get_help (evs : List ModEvent) : makeGetHelpMsg (evs.foldl runMod modInit) =
    progName evs ++ cs " v" ++ progVersion evs ++ cs "\nPlease type '" ++ progName evs ++
      cs " help' to get more information.\n" := by
  unfold makeGetHelpMsg
  rw [moduleName_eq, moduleVersion_eq]
  simp [cs]

/-- C55.  The help message for a command shows the description registered last (if the command is registered),
the program name set last, the syntax line and one line for each entry with a description. -/
theorem C55_help (limit : Nat → Nat) {cmds : List (CmdEvent P C)} (hfit : ∀ e ∈ cmds, e.fits) (evs : List ModEvent)
    (name : CStr) {es : List (Hdr σ)} (hc : ∀ h ∈ es, CHdr h) (hl : FitsLine es) :
    ∃ reg, runEvents limit (cmdInit limit) cmds = .ok reg ∧
      makeHelpMsg limit (evs.foldl runMod modInit) reg name es =
        .ok (helpText name ((latest cmds name).map (·.description)) (progName evs) es) := by
  obtain ⟨reg, h1, h2, -⟩ := C41_info limit hfit
  refine ⟨reg, h1, ?_⟩
  have h3 := h2 name
  unfold cmdInfo at h3
  unfold makeHelpMsg
  cases hr : reg.get with
  | error e => rw [hr] at h3; cases h3
  | ok t =>
    rw [hr, hbind_ok] at h3
    rw [hbind_ok, h3, hbind_ok]
    dsimp only
    rw [printSyntaxv_line es _ hc hl, hbind_ok, glossary_lines es hc hl, hbind_ok, moduleName_eq]
    unfold helpText usageLine
    cases latest cmds name <;> simp [cs] <;> rfl

/-- C55.  Asking for help takes precedence over errors: the text is the help message, the exit code is 0. -/
theorem C55_help_first (limit : Nat → Nat) (m : ModInfo) (reg : Registry P C) (name : CStr) {help : Int} (hh : 0 < help)
    (nerrors : Int) (t : Table σ) (code : Int) {text : CStr} (h : makeHelpMsg limit m reg name t.entries = .ok text) :
    makeSyntaxErrHelpMsg limit m reg name help nerrors t code = .ok (text, 0, 1) := by
  unfold makeSyntaxErrHelpMsg
  rw [if_pos hh, h]
  rfl

/-- C55.  With neither a request for help nor an error nothing is printed and the exit code is not set. -/
theorem C55_nothing (limit : Nat → Nat) (m : ModInfo) (reg : Registry P C) (name : CStr) {help nerrors : Int} (hh : help ≤ 0)
    (hn : nerrors ≤ 0) (t : Table σ) (code : Int) :
    makeSyntaxErrHelpMsg limit m reg name help nerrors t code = .ok ([], code, 0) := by
  unfold makeSyntaxErrHelpMsg
  rw [if_neg (by omega), if_neg (by omega)]

/-- C55.  After `arg_parse` has reported errors, the text is one message for each recorded error, in order, and
the usage of the program; the exit code is 1. -/
theorem C55_errors {lc : Libc δ} (env : Bool) {t : Table (Obj δ)} {n : Nat} (hend : EndOK n t.fin)
    (hwf : WF (t.entries.map declOf)) (hlive : ∀ h ∈ t.entries, Live lc AnyPat h)
    (hch : ∀ h ∈ t.entries, CHdr h) (hsf : ∀ h ∈ t.entries, SampleFits lc h)
    (hl : FitsLine t.entries) {argv : List CStr} (hargs : CArgs argv.tail)
    (hlow : ∀ a ∈ argv.tail, NoLowBytes a) {g : GState} {r : Nat × Table (Obj δ) × GState}
    (h : Returns env argv t g r) (hr : 0 < r.1) (limit : Nat → Nat) (evs : List ModEvent) (reg : Registry P C)
    (name : CStr) {help : Int} (hh : help ≤ 0) (code : Int) :
    ∃ parsed ops es errs msgs, tokenize (t.entries.map declOf) env argv.tail = some (parsed, ops) ∧
      meaning t.entries parsed ops = .ok (es, errs) ∧
      List.Forall₂ (Says es (progName evs)) (recorded n errs) msgs ∧ msgs.length = r.1 ∧
      makeSyntaxErrHelpMsg limit (evs.foldl runMod modInit) reg name help r.1 r.2.1 code =
        .ok (msgs.flatten ++ usageText (progName evs) t.entries, 1, 1) := by
  obtain ⟨parsed, ops, es, errs, msgs, h1, h2, h3, h4, h5⟩ := C48_errors_partial env hend hwf hlive hch hsf hargs hlow h (progName evs)
  refine ⟨parsed, ops, es, errs, msgs, h1, h2, h4, h5, ?_⟩
  obtain ⟨es', errs', h6, h7⟩ := returns_inv env t n hend hwf argv hargs g h1 h
  rw [h2] at h6
  cases h6
  have hfr : Frame t.entries r.2.1.entries := by rw [h7.entries]; exact meaning_frame h2
  unfold makeSyntaxErrHelpMsg
  rw [if_neg (by omega), if_pos (by omega)]
  unfold makeSyntaxErrMsg
  rw [moduleName_eq, h3, hbind_ok, printSyntaxv_line _ _ (same_all (fun _ _ h => h) hfr hch)
    (same_all (p := fun h => (spellings (cs "|") h).length ≤ 198 ∧ (spellings (cs ", ") h).length ≤ 198) (fun _ _ h => h) hfr hl),
    hbind_ok, same_flatMap (f := fun h => entryText h (spellings (cs "|") h)) (fun _ _ => rfl) hfr, hbind_ok]
  unfold usageText usageLine
  simp [cs]

/-- C55 needs `arg_cmd_init`: without it the help message follows a NULL pointer … -/
theorem C55_no_registry (limit : Nat → Nat) (m : ModInfo) (name : CStr) (es : List (Hdr σ)) :
    makeHelpMsg (P := P) (C := C) limit m .null name es = .error (.ub "null table") := rfl

/-- … and after `arg_cmd_uninit` it reads freed memory. -/
theorem C55_after_uninit (limit : Nat → Nat) (m : ModInfo) {reg reg' : Registry P C} (h : cmdUninit reg = .ok reg')
    (name : CStr) (es : List (Hdr σ)) : makeHelpMsg limit m reg' name es = .error (.ub "use of a destroyed table") := by
  unfold cmdUninit at h
  cases hr : reg.get with
  | error e => rw [hr] at h; cases h
  | ok t =>
    rw [hr, hbind_ok] at h
    cases hd : hashDestroy t true with
    | error e => rw [hd] at h; cases h
    | ok u => rw [hd, hbind_ok] at h; cases h; rfl

/-! ## The hypotheses are met -/

namespace Demo

/-- A registration, a name and a version. -/
def helpCmds : List (CmdEvent Unit Unit) := [.register (cs "list") (some ()) (cs "List the files") ()]
def helpMods : List ModEvent := [.name (cs "tool"), .version 1 (-2) 30 (cs "beta")]

example : makeGetHelpMsg (helpMods.foldl runMod modInit) =
    cs "tool v1.-2.30.beta\nPlease type 'tool help' to get more information.\n" := by decide +kernel

example : ∀ e ∈ helpCmds, e.fits := by
  intro e he
  simp only [helpCmds, List.mem_singleton] at he
  subst he
  show _ ∧ _
  decide

theorem fitsLine : FitsLine entries := by unfold FitsLine; decide +kernel

example : helpText (cs "list") (some (cs "List the files")) (cs "tool") entries =
    cs ("list: List the files\nUsage:\n  tool [-a|--all|--almost] [-a|--all|--almost] [-v|-w|--verbose]... " ++
      "[-n|--number=<int>] [-n|--number=<int>] [-o|--out|--output=<string>] [-p|--paint=[<string>]]  FILE [FILE] [FILE]\n" ++
      " \nAvailable options:\n  -a, --all, --almost     list everything\n  -n, --number=<int>      how many\n" ++
      "                          some remark\n  FILE                    input files\n\n") := by decide +kernel

/-- The message for a command line with four errors, through the theorem. -/
example : ∃ r, Returns false [cs "prog", cs "-n", cs "12x", cs "-aaa", cs "--bogus", cs "-z"] table g0 r ∧
    ∃ msgs : List CStr, msgs.length = 4 ∧
      makeSyntaxErrHelpMsg (P := Unit) (C := Unit) (fun _ => 0) (helpMods.foldl runMod modInit) .null (cs "list") 0 r.1 r.2.1 7 =
        .ok (msgs.flatten ++ usageText (cs "tool") entries, 1, 1) := by
  obtain ⟨r, hr, h4⟩ : ∃ r, Returns false [cs "prog", cs "-n", cs "12x", cs "-aaa", cs "--bogus", cs "-z"] table g0 r ∧ r.1 = 4 := by
    have h1 : (argParse false 100 [cs "prog", cs "-n", cs "12x", cs "-aaa", cs "--bogus", cs "-z"] table g0).toOption.map (·.1) =
      some 4 := by decide +kernel
    cases h : argParse false 100 [cs "prog", cs "-n", cs "12x", cs "-aaa", cs "--bogus", cs "-z"] table g0 with
    | error e => rw [h] at h1; cases h1
    | ok r => exact ⟨r, ⟨100, h⟩, by rw [h] at h1; exact Option.some.inj h1⟩
  obtain ⟨_, _, _, _, msgs, _, _, _, h2, h3⟩ := C55_errors (lc := lc) (P := Unit) (C := Unit) false finOK wf (live AnyPat) demo_chdrs demo_samples
    fitsLine (by decide) (by unfold NoLowBytes; decide) hr (by omega) (fun _ => 0) helpMods .null (cs "list") (help := 0)
    (by decide) 7
  exact ⟨r, hr, msgs, by rw [h2, h4], h3⟩

end Demo

end Argtable
