import Verif.Spec.Stream
import Verif.Proofs.Stream
import Verif.Proofs.RegexMatch
import Verif.Props.Print
import Verif.Props.Help
/-!
# Printing to a stream or to an arg_dstr (C63)

The texts are those of C44 to C48 and C55.  The length limit of 500 million characters keeps the `int` arithmetic
of arg_dstr.c in range.
-/

namespace Argtable

open Spec

variable {P C δ σ : Type}

theorem prints_of {f : DState → M DState} {text : CStr} (h : Appends f text) (hn : '\x00' ∉ text)
    (hl : text.length ≤ 500000000) : Prints (toStream f) text := toStream_of h hn hl

theorem adds_of {f : DState → M DState} {text : CStr} (h : Appends f text) (hn : '\x00' ∉ text) : Adds f text :=
  onHistory_of h hn

/-- C63.  `arg_print_option`. -/
theorem C63_option {so lo dt : Option CStr} {suffix out : CStr} (hs : '\x00' ∉ suffix)
    (h : printOption so lo dt suffix = .ok out) (hl : out.length ≤ 500000000) :
    Prints (printOptionTo so lo dt suffix) out ∧ Adds (optionDs so lo dt suffix) out :=
  ⟨prints_of (appends_option h) (nul_option hs h) hl, adds_of (appends_option h) (nul_option hs h)⟩

/-- C63.  `arg_print_option`, stated without the model's text function. -/
theorem C63_option_text (so lo dt : Option CStr) (suffix : CStr) (hso : CText so) (hlo : CText lo) (hdt : CText dt)
    (hs : '\x00' ∉ suffix) (hlen : (fullOptionv so lo dt false (cs "|")).length ≤ 198)
    (hl : suffix.length ≤ 400000000) :
    Prints (printOptionTo so lo dt suffix) (fullOptionv so lo dt false (cs "|") ++ suffix) :=
  (C63_option hs (C44_exact so lo dt suffix hso hlo hdt hlen) (by simp only [List.length_append]; omega)).1

/-- C63.  `arg_print_syntax`. -/
theorem C63_syntax {es : List (Hdr σ)} {suffix : Option CStr} {out : CStr} (hc : ∀ h ∈ es, CHdr h) (hs : CText suffix)
    (h : printSyntax es suffix = .ok out) (hl : out.length ≤ 500000000) :
    Prints (printSyntaxTo es suffix) out ∧ Adds (syntaxDs es suffix) out :=
  have hn := nul_syntax (fun x hx => (hc x hx).1) hs h
  ⟨prints_of (appends_syntax h) hn hl, adds_of (appends_syntax h) hn⟩

/-- C63.  `arg_print_syntaxv`. -/
theorem C63_syntaxv {es : List (Hdr σ)} {suffix : Option CStr} {out : CStr} (hs : CText suffix)
    (h : printSyntaxv es suffix = .ok out) (hl : out.length ≤ 500000000) :
    Prints (printSyntaxvTo es suffix) out ∧ Adds (syntaxvDs es suffix) out :=
  ⟨prints_of (appends_syntaxv h) (nul_syntaxv hs h) hl, adds_of (appends_syntaxv h) (nul_syntaxv hs h)⟩

/-- C63.  `arg_print_glossary`; the format has `fmtlen` characters and the effect `fmt2`. -/
theorem C63_glossary {fmtlen : Nat} {fmt2 : CStr → CStr → CStr} (hf : fmtlen ≤ 500000000)
    (hf2 : ∀ a b, '\x00' ∉ a → '\x00' ∉ b → '\x00' ∉ fmt2 a b) {es : List (Hdr σ)} {out : CStr}
    (hc : ∀ h ∈ es, CText h.glossary) (h : printGlossary fmt2 es = .ok out) (hl : out.length ≤ 500000000) :
    Prints (printGlossaryTo fmtlen fmt2 es) out ∧ Adds (glossaryDs fmtlen fmt2 es) out :=
  have hn := nul_glossary hf2 es hc h
  ⟨prints_of (appends_glossary hf fmt2 es h) hn hl, adds_of (appends_glossary hf fmt2 es h) hn⟩

theorem wraps_size {w : Nat} (hw : 0 < w) {text : CStr} {lines : List CStr} (h : Wraps w text lines) :
    lines.flatten.length ≤ text.length ∧ lines.length ≤ text.length := by
  induction h with
  | nil => simp
  | rest hne _ _ _ _ =>
    have := List.length_pos_iff.2 hne
    simp only [List.length_append] at this
    simp
    omega
  | newline _ _ _ _ _ ih => simp; simp at ih; omega
  | wrap _ _ _ hne _ _ _ _ _ ih =>
    have := List.length_pos_iff.2 hne
    simp; simp at ih; omega
  | cut _ _ hl _ _ ih => simp; simp at ih; omega

theorem laidOut_size {indent : CStr} {lines : List CStr} {out : CStr} (h : LaidOut indent lines out) :
    out.length ≤ lines.flatten.length + lines.length * (indent.length + 1) := by
  induction h with
  | nil => simp
  | one l => simp
  | indented l _ _ ih =>
    simp only [List.length_append, List.flatten_cons, List.length_cons, List.length_nil, Nat.add_mul] at ih ⊢
    omega
  | flush l _ _ ih =>
    simp only [List.length_append, List.flatten_cons, List.length_cons, List.length_nil, Nat.add_mul] at ih ⊢
    omega

/-- C63.  `arg_print_formatted`: a text is printed in the lines described by `Wraps` and `LaidOut` (C46), unless
the column is empty. -/
theorem C63_formatted (lmargin rmargin : Nat) (text : CStr) (ht : '\x00' ∉ text)
    (hw : 0 < columnWidth lmargin rmargin) (hlen : text.length * (lmargin + 2) ≤ 500000000) (fuel : Nat)
    (hf : text.length < fuel) :
    ∃ lines out, Wraps (columnWidth lmargin rmargin) text lines ∧ LaidOut (List.replicate lmargin ' ') lines out ∧
      Prints (printFormattedTo fuel lmargin rmargin text) out ∧ Adds (formattedDs fuel lmargin rmargin text) out := by
  have hn : text.length < 2 ^ 32 - 1 := by
    have : text.length * 2 ≤ text.length * (lmargin + 2) := Nat.mul_le_mul_left _ (by omega)
    omega
  obtain ⟨lines, out, h1, h2, h3⟩ := C46_wraps_partial lmargin rmargin text hn hw fuel hf
  have hz := nul_formatted ht hn hw hf h1
  refine ⟨lines, out, h2, h3, prints_of (appends_formatted h1) hz ?_, adds_of (appends_formatted h1) hz⟩
  have h4 := wraps_size hw h2
  have h5 := laidOut_size h3
  rw [List.length_replicate] at h5
  have h6 : lines.length * (lmargin + 1) ≤ text.length * (lmargin + 1) := Nat.mul_le_mul_right _ h4.2
  have h7 : text.length * (lmargin + 2) = text.length * (lmargin + 1) + text.length := by
    rw [show lmargin + 2 = (lmargin + 1) + 1 from rfl, Nat.mul_add]; simp
  omega

/-- C63.  `arg_print_glossary_gnu`. -/
theorem C63_glossary_gnu {fuel : Nat} {es : List (Hdr σ)} {out : CStr} (hc : ∀ h ∈ es, CText h.glossary)
    (hg : ∀ h ∈ es, ∀ g, h.glossary = some g → g.length < 2 ^ 32 - 1 ∧ g.length < fuel)
    (h : printGlossaryGnu fuel es = .ok out) (hl : out.length ≤ 500000000) :
    Prints (printGlossaryGnuTo fuel es) out ∧ Adds (glossaryGnuDs fuel es) out :=
  have hn := nul_glossaryGnu hc hg h
  ⟨prints_of (appends_glossaryGnu h) hn hl, adds_of (appends_glossaryGnu h) hn⟩

theorem installed_writes {lc : Libc δ} {R : CStr → Prop} {h : Hdr (Obj δ)} (hl : Live lc R h)
    {f : Option (ErrFn (Obj δ))} (hf : Installed lc h f) : (h.errorfn = none ∧ f = none) ∨
      ∃ g f', h.errorfn = some g ∧ f = some f' ∧ Writes (f' h.parent) (g h.parent) := by
  cases hl with
  | lit so lo mn mx gl ov c _ => exact .inr ⟨_, _, rfl, hf, writes_lit so lo none⟩
  | int so lo dt mn mx gl h ov o h1 _ _ =>
    unfold argIntn at h1
    obtain ⟨n, -, h1⟩ := bind_some_ok h1
    cases h1
    exact .inr ⟨_, _, rfl, hf, writes_int so lo _⟩
  | dbl addr so lo dt mn mx gl h ov o h1 _ _ =>
    unfold argDbln at h1
    obtain ⟨n, -, h1⟩ := bind_some_ok h1
    cases h1
    exact .inr ⟨_, _, rfl, hf, writes_dbl so lo _⟩
  | str so lo dt mn mx gl h ov o h1 _ _ =>
    unfold argStrn at h1
    obtain ⟨n, -, h1⟩ := bind_some_ok h1
    cases h1
    exact .inr ⟨_, _, rfl, hf, writes_str so lo _⟩
  | file so lo dt mn mx gl h ov o h1 _ _ _ _ =>
    unfold argFilen at h1
    obtain ⟨n, -, h1⟩ := bind_some_ok h1
    cases h1
    exact .inr ⟨_, _, rfl, hf, writes_file so lo _⟩
  | rex so lo pat dt mn mx ic gl h ov o h1 _ _ _ =>
    unfold argRexn at h1
    obtain ⟨n, -, h1⟩ := bind_some_ok h1
    obtain ⟨n2, -, h1⟩ := bind_some_ok h1
    cases h1
    exact .inr ⟨_, _, rfl, hf, writes_rex so lo _⟩
  | date _ _ _ _ _ _ _ h1 ov1 o1 _ _ _ =>
    obtain ⟨so, lo, fm, dt, mn, mx, gl, h0, ov, o, h2, h3, h4⟩ := hf
    rw [h3] at h4 ⊢
    unfold argDaten at h2
    obtain ⟨n, -, h2⟩ := bind_some_ok h2
    cases h2
    exact .inr ⟨_, _, rfl, h4, writes_date lc.sample _ so lo _⟩
  | rem dt gl => exact .inl ⟨rfl, hf⟩

theorem fnsOf_of {lc : Libc δ} {R : CStr → Prop} {es : List (Hdr (Obj δ))} (hl : ∀ h ∈ es, Live lc R h)
    {fns : List (Option (ErrFn (Obj δ)))} (hf : List.Forall₂ (Installed lc) es fns) : FnsOf es fns := by
  induction hf with
  | nil => exact .nil
  | cons h1 _ ih => exact .cons (installed_writes (hl _ (by simp)) h1) (ih (fun h hh => hl h (by simp [hh])))

/-- C63.  `arg_print_errors`, for a table of entries made by the public constructors, each with its error
function. -/
theorem C63_errors {lc : Libc δ} {R : CStr → Prop} {t : Table (Obj δ)} (hlive : ∀ h ∈ t.entries, Live lc R h)
    {fns : List (Option (ErrFn (Obj δ)))} (hf : List.Forall₂ (Installed lc) t.entries fns) {prog out : CStr}
    (h : printErrors t prog = .ok out) (hn : '\x00' ∉ out) (hl : out.length ≤ 500000000) :
    Prints (printErrorsTo t fns prog) out ∧ Adds (errorsDs t fns prog) out :=
  have ha := appends_errors (fnsOf_of hlive hf) h
  ⟨prints_of ha hn hl, adds_of ha hn⟩

/-- C63.  `arg_make_get_help_msg`. -/
theorem C63_get_help (m : ModInfo) (hn : '\x00' ∉ makeGetHelpMsg m) : Adds (getHelpDs m) (makeGetHelpMsg m) :=
  adds_of (appends_getHelp m) hn

/-- C63.  `arg_make_help_msg`. -/
theorem C63_help {limit : Nat → Nat} {m : ModInfo} {reg : Registry P C} {name : CStr} {es : List (Hdr σ)} {out : CStr}
    (h : makeHelpMsg limit m reg name es = .ok out) (hn : '\x00' ∉ out) : Adds (helpDs limit m reg name es) out :=
  adds_of (appends_help h) hn

/-- C63.  `arg_make_syntax_err_msg`. -/
theorem C63_syntax_error {lc : Libc δ} {R : CStr → Prop} {m : ModInfo} {t : Table (Obj δ)}
    (hlive : ∀ h ∈ t.entries, Live lc R h)
    {fns : List (Option (ErrFn (Obj δ)))} (hf : List.Forall₂ (Installed lc) t.entries fns) {out : CStr}
    (h : makeSyntaxErrMsg m t = .ok out) (hn : '\x00' ∉ out) : Adds (syntaxErrDs m t fns) out :=
  adds_of (appends_syntaxErr (fnsOf_of hlive hf) h) hn

/-! ## The hypotheses are met -/

example : ∃ out, printSyntax Demo.entries (some (cs "\n")) = .ok out ∧ out.length ≤ 500000000 :=
  ⟨cs " [-av] [-n <int>] [-n <int>] [-o <string>] [-p [<string>]] FILE [FILE] [FILE]\n", by decide +kernel,
    by decide +kernel⟩

example : ∀ h ∈ Demo.entries, CHdr h ∧ CText h.glossary := by
  intro h hh
  simp only [Demo.entries, List.mem_cons, List.not_mem_nil, or_false] at hh
  rcases hh with rfl | rfl | rfl | rfl | rfl | rfl | rfl <;>
    exact ⟨⟨by intro s h; cases h <;> decide, by intro s h; cases h <;> decide, by intro s h; cases h <;> decide⟩,
      by intro s h; cases h <;> decide⟩

/-- The error functions of the demo table. -/
def Demo.fns : List (Option (ErrFn (Obj Unit))) :=
  [some fun _ => litErrorDs (some (cs "a")) (some (cs "all,almost")) none,
   some fun _ => litErrorDs (some (cs "vw")) (some (cs "verbose")) none,
   some fun _ => intErrorDs (some (cs "n")) (some (cs "number")) (some (cs "<int>")),
   some fun _ => strErrorDs (some (cs "o")) (some (cs "out,output")) (some (cs "<string>")),
   some fun _ => strErrorDs (some (cs "p")) (some (cs "paint")) (some (cs "<string>")),
   none, some fun _ => fileErrorDs none none (some (cs "FILE"))]

example : List.Forall₂ (Installed Demo.lc) Demo.entries Demo.fns := by
  refine .cons ?_ (.cons ?_ (.cons ?_ (.cons ?_ (.cons ?_ (.cons ?_ (.cons ?_ .nil)))))) <;> exact rfl

/-- Two errors, printed to a stream that already has some text, with some memory in use. -/
example : (printErrorsTo { Demo.table with fin := { Demo.fin with count := 2, slots :=
      [⟨ARG_ERR_BADINT, .entry 2, some (cs "x")⟩, ⟨ARG_ENOMATCH, .endt, some (cs "y")⟩] } } Demo.fns (cs "prog")
      [some [some 'a']] (cs "> ")).map (fun r => (r.2, liveBlocks r.1)) =
    .ok (cs ("> prog: invalid argument \"x\" to option -n|--number=<int>\n" ++ "prog: unexpected argument \"y\"\n"),
      [[some 'a']]) := by decide +kernel

end Argtable
