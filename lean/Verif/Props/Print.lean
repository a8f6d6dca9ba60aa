import Verif.Proofs.Glossary
import Verif.Props.Demo
/-!
# Option texts, syntax lines, glossaries, word wrapping (C44 - C47)
-/

namespace Argtable

open Spec

variable {σ : Type}

/-! ## C44 -/

/-- **C44.** `arg_print_option` is free of memory errors for every option and shows its full text, clipped
to what the 200-byte buffer can hold. -/
theorem C44_option (so lo dt : Option CStr) (suffix : CStr) (hso : CText so) (hlo : CText lo)
    (hdt : CText dt) :
    ∃ s, printOption so lo dt suffix = .ok (s ++ suffix) ∧
      Clipped (fullOptionv so lo dt false (cs "|")) s := by
  obtain ⟨b, e, h⟩ := renderv so lo dt hso hlo hdt false (sep := cs "|") (by decide) [] (by simp) (by simp)
  exact ⟨_, by rw [printOption, e, pbind_ok], by simpa using h⟩

/-- **C44.** A text of at most 198 characters is shown exactly. -/
theorem C44_exact (so lo dt : Option CStr) (suffix : CStr) (hso : CText so) (hlo : CText lo)
    (hdt : CText dt) (hlen : (fullOptionv so lo dt false (cs "|")).length ≤ 198) :
    printOption so lo dt suffix = .ok (fullOptionv so lo dt false (cs "|") ++ suffix) := by
  obtain ⟨s, e, h⟩ := C44_option so lo dt suffix hso hlo hdt
  rw [e, h.1 hlen]

/-- **C44.** The helper behind the syntax line, for the preferred spelling only. -/
theorem C44_short_form (so lo dt : Option CStr) (o : Bool) (hso : CText so) (hlo : CText lo)
    (hdt : CText dt) :
    ∃ b, catOption (syntaxBuf []) so lo dt o = .ok b ∧ b.buf.length = 200 ∧
      Clipped (fullOption so lo dt o) (bufStr b.buf) := by
  obtain ⟨b, e, s, hs, hc⟩ := catOption_ok (syntaxBuf_ok [] (by simp) (by simp)) hso hlo hdt o
  refine ⟨b, e, hs.len, ?_⟩
  rw [bufStr_holds hs]; exact hc

/-- **C44.** The helper behind the long syntax line and the glossaries, for all spellings. -/
theorem C44_long_form (so lo dt : Option CStr) (o : Bool) (sep : CStr) (hso : CText so) (hlo : CText lo)
    (hdt : CText dt) (hsep : '\x00' ∉ sep) :
    ∃ b, catOptionv (syntaxBuf []) so lo dt o sep = .ok b ∧ b.buf.length = 200 ∧
      Clipped (fullOptionv so lo dt o sep) (bufStr b.buf) := by
  obtain ⟨b, e, s, hs, hc⟩ := catOptionv_ok (syntaxBuf_ok [] (by simp) (by simp)) hso hlo hdt o hsep
  refine ⟨b, e, hs.len, ?_⟩
  rw [bufStr_holds hs]; exact hc

example : fullOptionv (some (cs "vw")) (some (cs "out,output")) (some (cs "FILE")) false (cs "|")
    = cs "-v|-w|--out|--output=FILE" := by decide +kernel

example : fullOption (some (cs "vw")) (some (cs "out,output")) (some (cs "FILE")) true
    = cs "-v [FILE]" := by decide +kernel

example : fullOption none (some (cs "out,output")) (some (cs "FILE")) true
    = cs "--out=[FILE]" := by decide +kernel

/-- A long text loses what is beyond 198 characters. -/
example : ∃ s, printOption none (some (List.replicate 300 'x')) (some (cs "N")) [] = .ok s ∧ s.length = 198 :=
  ⟨cs "--" ++ List.replicate 196 'x', by decide +kernel, by decide +kernel⟩

/-- Without a data type one more character is shown. -/
example : ∃ s, printOption none (some (List.replicate 300 'x')) none [] = .ok s ∧ s.length = 199 :=
  ⟨cs "--" ++ List.replicate 197 'x', by decide +kernel, by decide +kernel⟩

/-! ## C45 -/

/-- **C45.** `arg_print_syntax` prints the abbreviated switches, then each other entry in table order, with
its mandatory and optional instances, and then the suffix.  An entry without any text is left out. -/
theorem C45_syntax (es : List (Hdr σ)) (suffix : Option CStr) (hc : ∀ h ∈ es, CHdr h) :
    ∃ ss, List.Forall₂ (fun h s => Clipped (fullOption h.shortopts h.longopts h.datatype h.hasOptValue) s)
        (es.filter (fun h => !Switch h)) ss ∧
      printSyntax es suffix = .ok (switchText es ++
        ((es.filter (fun h => !Switch h)).zip ss).flatMap
          (fun p => if p.2 = [] then [] else entryText p.1 p.2) ++ suffix.getD []) := by
  obtain ⟨ss, hf, e⟩ := syntaxLoop_ok es hc
  refine ⟨ss, hf, ?_⟩
  rw [printSyntax, e, pbind_ok, printGnuswitch_eq]
  rfl

theorem zip_exact {es : List (Hdr σ)} {ss : List CStr} {full : Hdr σ → CStr}
    (hf : List.Forall₂ (fun h s => Clipped (full h) s) es ss) (hl : ∀ h ∈ es, (full h).length ≤ 198)
    (F : Hdr σ → CStr → CStr) :
    (es.zip ss).flatMap (fun p => F p.1 p.2) = es.flatMap (fun h => F h (full h)) := by
  induction hf with
  | nil => rfl
  | cons h _ ih =>
    rw [List.zip_cons_cons, List.flatMap_cons, List.flatMap_cons,
      ih (fun x hx => hl x (List.mem_cons_of_mem _ hx)), h.1 (hl _ (List.mem_cons_self ..))]

/-- **C45.** The same for entries whose text fits the buffer: the syntax line exactly. -/
theorem C45_syntax_exact (es : List (Hdr σ)) (suffix : Option CStr) (hc : ∀ h ∈ es, CHdr h)
    (hl : ∀ h ∈ es, (fullOption h.shortopts h.longopts h.datatype h.hasOptValue).length ≤ 198) :
    printSyntax es suffix = .ok (switchText es ++
      (es.filter (fun h => !Switch h)).flatMap (fun h =>
        let full := fullOption h.shortopts h.longopts h.datatype h.hasOptValue
        if full = [] then [] else entryText h full) ++ suffix.getD []) := by
  obtain ⟨ss, hf, e⟩ := C45_syntax es suffix hc
  rw [e, zip_exact hf (fun h hh => hl h (List.mem_filter.1 hh).1)
    (fun h s => if s = [] then [] else entryText h s)]

/-- **C45.** `arg_print_syntaxv` prints every entry in table order with all its spellings. -/
theorem C45_syntaxv (es : List (Hdr σ)) (suffix : Option CStr) (hc : ∀ h ∈ es, CHdr h) :
    ∃ ss, List.Forall₂ (fun h s => Clipped
        (fullOptionv h.shortopts h.longopts h.datatype h.hasOptValue (cs "|")) s) es ss ∧
      printSyntaxv es suffix = .ok ((es.zip ss).flatMap (fun p => entryText p.1 p.2) ++
        suffix.getD []) := by
  obtain ⟨ss, hf, e⟩ := syntaxvLoop_ok es hc
  exact ⟨ss, hf, by rw [printSyntaxv, e, pbind_ok]⟩

/-- **C45.** The same for entries whose text fits the buffer. -/
theorem C45_syntaxv_exact (es : List (Hdr σ)) (suffix : Option CStr) (hc : ∀ h ∈ es, CHdr h)
    (hl : ∀ h ∈ es,
      (fullOptionv h.shortopts h.longopts h.datatype h.hasOptValue (cs "|")).length ≤ 198) :
    printSyntaxv es suffix = .ok (es.flatMap (fun h => entryText h
        (fullOptionv h.shortopts h.longopts h.datatype h.hasOptValue (cs "|"))) ++ suffix.getD []) := by
  obtain ⟨ss, hf, e⟩ := C45_syntaxv es suffix hc
  rw [e, zip_exact hf hl entryText]

/-- **C45.** The number of words of the syntax line for one entry: `mincount` plain ones, and up to two
bracketed ones. -/
theorem C45_mentions (s : CStr) (mincount maxcount : Int) (h : mincount ≤ maxcount) :
    (mentions s mincount maxcount).take mincount.toNat = List.replicate mincount.toNat s ∧
    (mentions s mincount maxcount).length = mincount.toNat +
      (if maxcount - mincount ≤ 2 then (maxcount - mincount).toNat else 1) := by
  constructor
  · rw [mentions, List.take_append_of_le_length (by simp)]
    simp
  · rw [mentions, List.length_append, List.length_replicate]
    congr 1
    by_cases h0 : maxcount = mincount
    · subst h0; simp
    · by_cases h1 : maxcount = mincount + 1
      · subst h1
        rw [if_neg (by omega), if_pos rfl, if_pos (by omega), show mincount + 1 - mincount = 1 by omega]
        rfl
      · by_cases h2 : maxcount = mincount + 2
        · subst h2
          rw [if_neg (by omega), if_neg (by omega), if_pos rfl, if_pos (by omega),
            show mincount + 2 - mincount = 2 by omega]
          rfl
        · rw [if_neg h0, if_neg h1, if_neg h2, if_neg (by omega)]
          rfl

instance (s : Option CStr) : Decidable (CText s) :=
  match s with
  | none => .isTrue (by intro t h; cases h)
  | some t => if h : '\x00' ∈ t then .isFalse (fun c => c t rfl h)
    else .isTrue (by intro u hu; cases hu; exact h)

instance (h : Hdr σ) : Decidable (CHdr h) := inferInstanceAs (Decidable (_ ∧ _ ∧ _))

theorem demo_chdr : ∀ h ∈ Demo.entries, CHdr h := by decide +kernel

example : printSyntax Demo.entries (some (cs "\n")) =
    .ok (cs " [-av] [-n <int>] [-n <int>] [-o <string>] [-p [<string>]] FILE [FILE] [FILE]\n") := by
  decide +kernel

example : ∀ h ∈ Demo.entries,
    (fullOptionv h.shortopts h.longopts h.datatype h.hasOptValue (cs "|")).length ≤ 198 := by
  decide +kernel

example : printSyntaxv [Demo.a, Demo.f] none =
    .ok (cs " [-a|--all|--almost] [-a|--all|--almost] FILE [FILE] [FILE]") := by
  decide +kernel

/-! ## C46 -/

/-- **C46.** Word wrapping ends, stays inside the text and produces the lines described by `Wraps`, each
followed by a newline and, if it is not the first, possibly indented to the left margin. -/
theorem C46_wraps_partial (lmargin rmargin : Nat) (text : CStr) (hn : text.length < 2 ^ 32 - 1)
    (hw : 0 < columnWidth lmargin rmargin) (fuel : Nat) (hf : text.length < fuel) :
    ∃ lines out, printFormatted fuel lmargin rmargin text = .ok out ∧
      Wraps (columnWidth lmargin rmargin) text lines ∧ LaidOut (List.replicate lmargin ' ') lines out := by
  obtain ⟨out, e, ⟨lines, h1, h2, _, _⟩⟩ := fmtLoop_ok text lmargin (columnWidth lmargin rmargin) hw
    (by omega) text.length 0 fuel (by omega) (by omega) hf
  exact ⟨lines, out, e, by simpa using h1, h2⟩

/-- **C46.** For a text without newlines, all lines but the first are indented. -/
theorem C46_indented (lmargin rmargin : Nat) (text : CStr) (hn : text.length < 2 ^ 32 - 1)
    (hw : 0 < columnWidth lmargin rmargin) (hnl : '\n' ∉ text) (fuel : Nat) (hf : text.length < fuel) :
    ∃ lines, printFormatted fuel lmargin rmargin text =
        .ok (indentedLines (List.replicate lmargin ' ') lines) ∧
      Wraps (columnWidth lmargin rmargin) text lines := by
  obtain ⟨out, e, ⟨lines, h1, _, _, h2⟩⟩ := fmtLoop_ok text lmargin (columnWidth lmargin rmargin) hw
    (by omega) text.length 0 fuel (by omega) (by omega) hf
  have h3 := h2 (by simpa using hnl)
  exact ⟨lines, by rw [← h3]; exact e, by simpa using h1⟩

/-- **C46.** Every line fits the column. -/
theorem C46_width {w : Nat} {text : CStr} {lines : List CStr} (h : Wraps w text lines) :
    ∀ l ∈ lines, l.length ≤ w := wraps_width h

/-- **C46.** Nothing but white space is lost or added. -/
theorem C46_complete {w : Nat} {text : CStr} {lines : List CStr} (h : Wraps w text lines) :
    lines.flatten.filter (fun c => !isSpace c) = text.filter (fun c => !isSpace c) := wraps_chars h

/-- **C46.** If no word is longer than the column then the lines have the words of the text, unbroken and in
order. -/
theorem C46_words {w : Nat} {text : CStr} {lines : List CStr} (h : Wraps w text lines)
    (hw : ∀ wd ∈ wordsOf text, wd.length ≤ w) : lines.flatMap wordsOf = wordsOf text := wraps_words h hw

/-- **C46.** (Defect.) If the right margin is just left of the left margin, the function never returns for
a text that is not blank. -/
theorem C46_hangs (lmargin rmargin : Nat) (text : CStr) (hn : text.length < 2 ^ 32 - 1)
    (hw : columnWidth lmargin rmargin = 0) (c : Char) (hc : c ∈ text) (hs : isSpace c = false)
    (fuel : Nat) : printFormatted fuel lmargin rmargin text = .error .fuel := by
  have h : printFormatted fuel lmargin rmargin text = fmtLoop text lmargin 0 fuel 0 text.length := by
    rw [printFormatted, ← hw]; rfl
  rw [h]
  apply fmtLoop_hang text lmargin (by omega)
  rw [List.drop_zero, Nat.zero_add]
  by_contra hcon
  have hle : (text.takeWhile blank).length ≤ text.length := (List.takeWhile_sublist _).length_le
  have heq : text.takeWhile blank = text := List.takeWhile_prefix _ |>.eq_of_length (by omega)
  rw [← heq] at hc
  have := (blank_iff.1 (List.mem_takeWhile_imp hc)).1
  rw [hs] at this
  exact absurd this (by simp)

example : columnWidth 2 7 = 6 ∧ columnWidth 28 79 = 52 ∧ columnWidth 10 9 = 0 := by decide

/-- The example in the source: `arg_print_formatted(fp, 2, 7, "Some text that doesn't fit.")`. -/
example : printFormatted 100 2 7 (cs "Some text that doesn't fit.") =
    .ok (cs "Some\n  text\n  that\n  doesn'\n  t fit.\n") := by decide +kernel

/-- (Defect.) The line after a newline near the end of the text is not indented. -/
example : printFormatted 100 2 20 (cs "first\nsecond") = .ok (cs "first\nsecond\n") := by decide +kernel

/-- (Defect.) A newline where a line is wrapped is printed twice. -/
example : printFormatted 100 0 4 (cs "abcde\nfgh") = .ok (cs "abcde\n\nfgh\n") := by decide +kernel

/-! ## C47 -/

/-- **C47.** `arg_print_glossary` prints one entry for each table entry that has a description, in table
order, and nothing else; `fmt2` is the effect of the format. -/
theorem C47_glossary (fmt2 : CStr → CStr → CStr) (es : List (Hdr σ)) (hc : ∀ h ∈ es, CHdr h) :
    ∃ ss, List.Forall₂ (fun h s => Clipped
        (fullOptionv h.shortopts h.longopts h.datatype h.hasOptValue (cs ", ")) s)
        (es.filter (fun h => h.glossary.isSome)) ss ∧
      printGlossary fmt2 es = .ok (((es.filter (fun h => h.glossary.isSome)).zip ss).flatMap
        (fun p => fmt2 p.2 (p.1.glossary.getD []))) := printGlossary_ok fmt2 es hc

/-- **C47.** The same for entries whose text fits the buffer. -/
theorem C47_glossary_exact (fmt2 : CStr → CStr → CStr) (es : List (Hdr σ)) (hc : ∀ h ∈ es, CHdr h)
    (hl : ∀ h ∈ es,
      (fullOptionv h.shortopts h.longopts h.datatype h.hasOptValue (cs ", ")).length ≤ 198) :
    printGlossary fmt2 es = .ok ((es.filter (fun h => h.glossary.isSome)).flatMap
      (fun h => fmt2 (fullOptionv h.shortopts h.longopts h.datatype h.hasOptValue (cs ", "))
        (h.glossary.getD []))) := by
  obtain ⟨ss, hf, e⟩ := C47_glossary fmt2 es hc
  rw [e, zip_exact hf (fun h hh => hl h (List.mem_filter.1 hh).1)
    (fun h s => fmt2 s (h.glossary.getD []))]

/-- **C47.** `arg_print_glossary_gnu` prints one wrapped entry for each table entry that has a description,
in table order, then an empty line. -/
theorem C47_gnu (es : List (Hdr σ)) (hc : ∀ h ∈ es, CHdr h) (fuel : Nat)
    (hg : ∀ h ∈ es, ∀ g, h.glossary = some g → g.length < 2 ^ 32 - 1 ∧ g.length < fuel) :
    ∃ ts, List.Forall₂ GnuEntry (es.filter (fun h => h.glossary.isSome)) ts ∧
      printGlossaryGnu fuel es = .ok (ts.flatten ++ cs "\n") := by
  obtain ⟨ts, hf, e⟩ := gnuLoop_ok fuel es hc (fun h hh g hg' => hg h hh g hg')
  exact ⟨ts, hf, by rw [printGlossaryGnu, e, pbind_ok]⟩

/-- **C47.** With the default format the descriptions are aligned in column 23, one line (as far as the
description goes) for each entry that has one. -/
theorem C47_default (es : List (Hdr σ)) (hc : ∀ h ∈ es, CHdr h) :
    ∃ ls, List.Forall₂ DefaultLine (es.filter (fun h => h.glossary.isSome)) ls ∧
      printGlossary defaultGlossary es = .ok ls.flatten := by
  obtain ⟨ss, hf, e⟩ := C47_glossary defaultGlossary es hc
  have key : ∀ (l : List (Hdr σ)) (ss : List CStr), (∀ h ∈ l, h.glossary.isSome = true) →
      List.Forall₂ (fun h s => Clipped
        (fullOptionv h.shortopts h.longopts h.datatype h.hasOptValue (cs ", ")) s) l ss →
      ∃ ls, List.Forall₂ DefaultLine l ls ∧
        (l.zip ss).flatMap (fun p => defaultGlossary p.2 (p.1.glossary.getD [])) = ls.flatten := by
    intro l ss hl hf
    induction hf with
    | nil => exact ⟨[], .nil, rfl⟩
    | @cons h s l ss hc _ ih =>
      obtain ⟨ls, h1, h2⟩ := ih fun x hx => hl x (List.mem_cons_of_mem _ hx)
      obtain ⟨g, hg⟩ := Option.isSome_iff_exists.1 (hl h List.mem_cons_self)
      refine ⟨defaultGlossary s g :: ls, .cons ⟨g, s, 20 - s.length + 1, hg, hc, ?_, by omega, by omega, by omega⟩ h1, ?_⟩
      · simp [defaultGlossary, padRight, cs, List.replicate_succ']
      · simp [h2, hg]
  obtain ⟨ls, h1, h2⟩ := key _ ss (fun h hh => (List.mem_filter.1 hh).2) hf
  exact ⟨ls, h1, by rw [e, h2]⟩

example : printGlossary defaultGlossary Demo.entries = .ok (cs ("  -a, --all, --almost  list everything\n" ++
    "  -n, --number=<int>   how many\n" ++ "                       some remark\n" ++
    "  FILE                 input files\n")) := by decide +kernel

example : printGlossaryGnu 1000 [Demo.f, { Demo.f with
      longopts := some (cs "a-very-long-option-name")
      glossary := some (cs "this description is long enough to be wrapped at the right margin") }] =
    .ok (cs ("  FILE                      input files\n" ++
      "      --a-very-long-option-name=FILE \n" ++
      "                            this description is long enough to be wrapped at the\n" ++
      "                            right margin\n\n")) := by decide +kernel

end Argtable
