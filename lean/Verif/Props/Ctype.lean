import Verif.Proofs.CtypeHigh
/-!
# C95 — characters outside ASCII and the functions of `<ctype.h>`

argtable3 passes plain `char`s to `isspace`, `toupper`, `isprint` and the other functions of `<ctype.h>`.  Where `char` is signed, the
bytes from 128 to 254 are negative and not EOF, and for those the functions are undefined.  `intScanCt`, `dateScanCt`, `rexScanCt` and
`printFormattedCt` (Model/Ctype.lean) are the functions with these calls checked; `intScan`, `dateScan`, `rexScan` and
`printFormatted` are the functions with `<ctype.h>` defined for every `char`.
-/

namespace Argtable
open Spec

/-- C95.  An integer option gives the same result as where `<ctype.h>` is defined for every `char`, or the call is undefined; for an
ASCII argument it is not. -/
theorem C95_int (mx : Int) (o : IntObj) (a : CStr) : UpToCtype [a] (intScanCt mx o (some a)) (intScan mx o (some a)) :=
  Guard.upTo (intScanCt_guard mx o fun h => h a (by simp))

/-- C95.  It is undefined exactly for the arguments in which such a byte is the first character behind white space, or directly behind a
leading zero, or is come to behind the number while a suffix is looked for. -/
theorem C95_int_undefined {mx : Int} {o : IntObj} (hc : (o.count : Int) < mx) (hl : (o.ival.length : Int) = mx) {a : CStr}
    (hd : ¬ DoubleMinus a) : intScanCt mx o (some a) = .error ctypeFault ↔ CtypeInt a := intScanCt_iff hc hl hd

/-- C95.  An argument that is a number, in range or not, has no such byte: nothing that an option takes is affected. -/
theorem C95_int_taken {mx : Int} {o o' : IntObj} (hc : (o.count : Int) < mx) (hl : (o.ival.length : Int) = mx) {a : CStr} {code : Int}
    (h : intScan mx o (some a) = .ok (o', code)) (hb : code ≠ ARG_ERR_BADINT) : Ascii a ∧ intScanCt mx o (some a) = .ok (o', code) := by
  obtain ⟨h1, h2, h3⟩ := intScan_full hc hl a
  have ha : Ascii a := by
    by_cases hd : DoubleMinus a
    · rw [h1 hd] at h; cases h
    · by_cases hn : ∃ n, LooseText a n
      · obtain ⟨n, hn⟩ := hn; exact hn.ascii
      · rw [h3 hd fun n hh => hn ⟨n, hh⟩] at h
        cases h
        exact absurd rfl hb
  refine ⟨ha, ?_⟩
  rw [← h]
  exact (C95_int mx o a).2 fun t ht => by simp only [List.mem_singleton] at ht; subst ht; exact ha

/-- "é": the argument is undefined for an `arg_int`; "7é" too; "x é" is rejected. -/
example : CtypeInt ['\xc3', '\xa9'] ∧ CtypeInt ['7', '\xc3', '\xa9'] ∧
    intScanCt 1 ⟨0, [none]⟩ (some ['\xc3', '\xa9']) = .error ctypeFault ∧
    intScanCt 1 ⟨0, [none]⟩ (some ['7', '\xc3', '\xa9']) = .error ctypeFault ∧
    intScanCt 1 ⟨0, [none]⟩ (some ['x', ' ', '\xc3', '\xa9']) = .ok (⟨0, [none]⟩, ARG_ERR_BADINT) ∧
    intScanCt 1 ⟨0, [none]⟩ (some (cs " 0x1fKB ")) = .ok (⟨1, [some 31744]⟩, 0) := by
  refine ⟨.first [] _ _ (by decide) (by decide), ?_, by decide +kernel, by decide +kernel, by decide +kernel, by decide +kernel⟩
  exact .decimal [] [] ['7'] _ 1 7 (by decide) .none (.one _ _ (Or.inl (by decide)) (by decide))
    (.suffix [] [] _ _ 1 .none (by decide) (by decide))

/-- C95.  The same for a date option, with its format and its argument. -/
theorem C95_date (fmt : CStr) (mx : Int) (o : DateObj) (a : CStr) :
    UpToCtype [fmt, a] (dateScanCt fmt mx o (some a)) (dateScan fmt mx o (some a)) :=
  Guard.upTo (dateScanCt_guard fmt mx o (fun h => h fmt (by simp)) fun h => h a (by simp))

/-- C95.  A format in which such a byte comes first, or behind plain characters that the argument begins with, is undefined; and an
argument in which it comes where the format has white space. -/
theorem C95_date_undefined {lit : CStr} (hl : ∀ c ∈ lit, c.toNat < 128 ∧ isSpace c = false ∧ c ≠ '%') {b : Char} (hb : High b)
    {mx : Int} {o : DateObj} (hc : (o.count : Int) < mx) (hm : (o.tmval.length : Int) = mx) :
    (∀ f r, dateScanCt (lit ++ b :: f) mx o (some (lit ++ r)) = .error ctypeFault) ∧
      ∀ sp f w r, isSpace sp = true → White w → dateScanCt (lit ++ sp :: f) mx o (some (lit ++ (w ++ b :: r))) = .error ctypeFault :=
  ⟨fun _ _ => dateScanCt_format hl hb hc hm, fun _ _ _ _ hs hw => dateScanCt_argument hl hs hw hb hc hm⟩

/-- A format "le %d" and the argument "le é"; the format "é%d". -/
example : dateScanCt (cs "le %d") 1 ⟨0, [{}]⟩ (some (cs "le " ++ ['\xc3', '\xa9'])) = .error ctypeFault ∧
    dateScanCt ('\xc3' :: '\xa9' :: cs "%d") 1 ⟨0, [{}]⟩ (some (cs "12")) = .error ctypeFault ∧
    (dateScanCt (cs "le %d") 1 ⟨0, [{}]⟩ (some (cs "le 14"))).toOption.map (fun r => (r.1.count, r.2)) = some (1, 0) := by
  refine ⟨(C95_date_undefined (lit := cs "le") (by decide) (b := '\xc3') (by decide) (by decide) (by decide)).2 ' ' _ [' '] _
    (by decide) (by decide), (C95_date_undefined (lit := []) (by decide) (b := '\xc3') (by decide) (by decide) (by decide)).1 _ _,
    by decide +kernel⟩

/-- C95.  The same for an option with a regular expression. -/
theorem C95_rex (pat : CStr) (ic : Bool) (mx : Int) (o : StrObj) (a : CStr) :
    UpToCtype [pat, a] (rexScanCt pat ic mx o (some a)) (rexScan pat ic mx o (some a)) :=
  Guard.upTo (rexScanCt_guard (fun h => h pat (by simp)) (fun h => h a (by simp)) ic mx o)

/-- C95.  A pattern in which such a byte comes first or behind ordinary characters is undefined for every argument; and so is an argument
that begins with such a byte for a pattern that is a character class like `\w`. -/
theorem C95_rex_undefined {b : Char} (hb : High b) (ic : Bool) {mx : Int} {o : StrObj} (hc : (o.count : Int) < mx) :
    (∀ w r a, (∀ c ∈ w, Ordinary c) → rexScanCt (w ++ b :: r) ic mx o (some a) = .error ctypeFault) ∧
      ∀ l ∈ cs "aAwWsSdDxXcCpPlu", ∀ r, rexScanCt ['\\', l] ic mx o (some (b :: r)) = .error ctypeFault :=
  ⟨fun _ _ a hw => rexScanCt_pattern hb hw ic hc a, fun _ hl _ => rexScanCt_text (by unfold isClassLetter; simpa using hl) hb ic hc⟩

/-- The pattern "café", which is undefined, and "caf.+", which takes "café". -/
example : rexScanCt (cs "caf" ++ ['\xc3', '\xa9']) false 1 ⟨0, [[]]⟩ (some (cs "tea")) = .error ctypeFault ∧
    rexScanCt (cs "caf.+") false 1 ⟨0, [[]]⟩ (some (cs "caf" ++ ['\xc3', '\xa9'])) =
      .ok (⟨1, [cs "caf" ++ ['\xc3', '\xa9']]⟩, 0) ∧
    rexScanCt (cs "[a-z]+\\d*") true 1 ⟨0, [[]]⟩ (some (cs "Tea9")) = .ok (⟨1, [cs "Tea9"]⟩, 0) := by
  refine ⟨(C95_rex_undefined (b := '\xc3') (by decide) false (by decide)).1 (cs "caf") _ _
    (by unfold Ordinary; decide), by decide +kernel,
    by decide +kernel⟩

/-- C95.  The same for laying out a glossary text in a column. -/
theorem C95_format (fuel lm rm : Nat) (text : CStr) :
    UpToCtype [text] (printFormattedCt fuel lm rm text) (printFormatted fuel lm rm text) :=
  Guard.upTo (fmtLoopCt_guard (fun h => h text (by simp)) _ _ _ _ _)

/-- C95.  A text that begins with such a byte, or with blanks and such a byte, is undefined in every column. -/
theorem C95_format_undefined {w : CStr} (hw : ∀ c ∈ w, isSpace c = true ∧ c ≠ '\n') {b : Char} (hb : High b) (fuel lm rm : Nat) (r : CStr) :
    printFormattedCt (fuel + 1) lm rm (w ++ b :: r) = .error ctypeFault := printFormattedCt_high hw hb fuel lm rm

/-- "été" is undefined; "a été" is laid out in a wide column, and undefined in one in which it has to be broken at "é". -/
example : printFormattedCt 9 2 40 ('\xc3' :: '\xa9' :: cs "t") = .error ctypeFault ∧
    printFormattedCt 9 2 40 (cs "a " ++ ['\xc3', '\xa9', 't']) = .ok (cs "a " ++ ['\xc3', '\xa9', 't', '\n']) ∧
    printFormattedCt 9 2 4 (cs "a " ++ ['\xc3', '\xa9', 't']) = .error ctypeFault :=
  ⟨C95_format_undefined (w := []) (by decide) (by decide) 8 2 40 _, by decide +kernel, by decide +kernel⟩

end Argtable
