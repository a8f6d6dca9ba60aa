import Verif.Proofs.Sample
import Verif.Props.Date
import Verif.Props.Messages
/-!
# The sample in the message about a malformed date (C72)

`Spec.printDate fmt t` is what `strftime` prints for the format and the date in the C locale, and `Spec.StrftimeC lc` says
that the C library has this `strftime`.
-/

namespace Argtable

open Spec

variable {δ : Type} {lc : Libc δ}

/-- C72.  Whatever `strftime` does, the sample is made from a date with all members 0, and not from
1999-12-31 23:59:59: the call that should set the date fails.  The day of the month is outside its range, and then
the C standard leaves open what `strftime` prints. -/
theorem C72_date {so lo fm dt gl : Option CStr} {mn mx : Int} {h : Hdr (Obj δ)}
    (hh : argDaten lc so lo fm dt mn mx gl = .ok h) {f : Obj δ → Int → Option CStr → CStr → M CStr}
    (hf : h.errorfn = some f) (o : Obj δ) (a prog msg : CStr) (hm : f o ARG_ERR_BADDATE (some a) prog = .ok msg) :
    (∃ t : Tm, (∀ m, t.fld m = 0) ∧ msg = prog ++ cs ": illegal timestamp format \"" ++ a ++
      cs "\"\ncorrect format is \"" ++ lc.strftime (fm.getD (cs "%x")) t ++ cs "\"\n") ∧ ¬ InRange .mday 0 := by
  refine ⟨⟨{}, fun m => by cases m <;> rfl, ?_⟩, by unfold InRange; decide⟩
  by_cases hs : (lc.strftime (fm.getD (cs "%x")) {}).length < 200
  · rw [C48_sample hh hf hs] at hm
    exact (Except.ok.inj hm).symm
  · rw [C48_long_sample hh hf (Nat.le_of_not_lt hs)] at hm
    cases hm

/-- C72, as far as it is true: if an unambiguous format does not mention the day of the month, then the same
`arg_date` accepts the sample.  Missing: formats that mention the day of the month (there it is false, see
`C72_rejected`), and ambiguous ones like `%aday`. -/
theorem C72_accepted_partial {fmt : CStr} {h : Hdr (Obj δ)} {o : DateObj} (hd : DateEntry lc fmt h o) {t : Tm}
    (hroom : (o.count : Int) < h.maxcount) (ht : o.tmval[o.count]? = some t) (hlc : StrftimeC lc)
    (hfmt : TidyFmt fmt false) (hour : t.hour ≤ 11) :
    ∃ t', give h (some (lc.strftime fmt {})) = .ok (.date ⟨o.count + 1, o.tmval.set o.count t'⟩, 0) := by
  obtain ⟨S, hS, hb⟩ := tidy_prints hfmt
  obtain ⟨t', hm⟩ := (hb t).2 rfl hour
  rw [hlc fmt {} S hS]
  exact ⟨t', C31_accept hd hroom ht hm⟩

/-- C72 is false for all other formats of this kind: if the format mentions the day of the month, then the same
`arg_date` rejects what its own message calls the correct format. -/
theorem C72_rejected {fmt : CStr} {h : Hdr (Obj δ)} {o : DateObj} (hd : DateEntry lc fmt h o) {t : Tm}
    (hroom : (o.count : Int) < h.maxcount) (ht : o.tmval[o.count]? = some t) (hlc : StrftimeC lc)
    (hfmt : TidyFmt fmt true) : give h (some (lc.strftime fmt {})) = .ok (.date o, ARG_ERR_BADDATE) := by
  obtain ⟨S, hS, hb⟩ := tidy_prints hfmt
  rw [hlc fmt {} S hS]
  exact C31_reject hd hroom ht ((hb t).1 rfl)

/-- C72 is false for the default format: the sample is `01/00/00`, which is rejected. -/
theorem C72_default {h : Hdr (Obj δ)} {o : DateObj} (hd : DateEntry lc (cs "%x") h o) {t : Tm}
    (hroom : (o.count : Int) < h.maxcount) (ht : o.tmval[o.count]? = some t) (hlc : StrftimeC lc) :
    lc.strftime (cs "%x") {} = cs "01/00/00" ∧ give h (some (cs "01/00/00")) = .ok (.date o, ARG_ERR_BADDATE) := by
  have hs : lc.strftime (cs "%x") {} = cs "01/00/00" := hlc _ _ _ (by decide +kernel)
  refine ⟨hs, ?_⟩
  rw [← hs]
  exact C72_rejected hd hroom ht hlc
    (.day 'x' none _ [] false (.plain 'x' [] (by decide) (by decide)) (.inl rfl) (.inl (by decide)) .nil)

/-- A C library with this `strftime`. -/
def Demo.lcDate : Libc Unit := ⟨fun s => ((), s), fun fmt t => (printDate fmt t).getD []⟩

theorem Demo.lcDate_strftime : StrftimeC Demo.lcDate := fun fmt t s h => by
  change (printDate fmt t).getD [] = s
  rw [h]; rfl

/-- The default format. -/
example : ∃ h : Hdr (Obj Unit), DateEntry Demo.lcDate (cs "%x") h ⟨0, [{}]⟩ ∧
    Demo.lcDate.strftime (cs "%x") {} = cs "01/00/00" ∧
    give h (some (cs "01/00/00")) = .ok (.date ⟨0, [{}]⟩, ARG_ERR_BADDATE) := by
  have hd : DateEntry Demo.lcDate (cs "%x")
      { Demo.made (argDaten Demo.lcDate (some (cs "d")) none none none 0 1 none) with parent := .date ⟨0, [{}]⟩ }
      ⟨0, [{}]⟩ := .mk (some (cs "d")) none none none 0 1 none _ false _ rfl (by decide) rfl
  exact ⟨_, hd, C72_default hd (t := {}) (by decide) rfl Demo.lcDate_strftime⟩

/-- A format that mentions the day of the month, between others, and one that does not. -/
example : TidyFmt (cs "on %a, %e %B at%n%H:%M") true ∧ TidyFmt (cs "%I:%M:%OS %p") false ∧
    printDate (cs "on %a, %e %B at%n%H:%M") {} = some (cs "on Sun,  0 January at\n00:00") ∧
    printDate (cs "%I:%M:%OS %p") {} = some (cs "12:00:00 AM") := by
  refine ⟨?_, ?_, by decide +kernel, by decide +kernel⟩
  · exact .char 'o' _ _ (by decide) <| .char 'n' _ _ (by decide) <| .char ' ' _ _ (by decide) <|
      .name 'a' _ _ (by decide) (.inr ⟨',', _, rfl, by decide, by decide⟩) <|
      .char ',' _ _ (by decide) <| .char ' ' _ _ (by decide) <|
      .day 'e' none _ (cs " %B at%n%H:%M") false (.plain 'e' _ (by decide) (by decide)) (.inl rfl)
        (.inr ⟨rfl, .inr ⟨' ', _, rfl, by decide, by decide⟩⟩) <|
      .char ' ' _ _ (by decide) <| .name 'B' _ _ (by decide) (.inr ⟨' ', _, rfl, by decide, by decide⟩) <|
      .char ' ' _ _ (by decide) <| .char 'a' _ _ (by decide) <| .char 't' _ _ (by decide) <|
      .conv 'n' none _ (cs "%H:%M") _ (.plain 'n' _ (by decide) (by decide)) (.inl rfl) (by decide) <|
      .conv 'H' none _ (cs ":%M") _ (.plain 'H' _ (by decide) (by decide)) (.inl rfl) (by decide) <|
      .char ':' _ _ (by decide) <|
      .conv 'M' none _ [] _ (.plain 'M' _ (by decide) (by decide)) (.inl rfl) (by decide) .nil
  · exact .conv 'I' none _ (cs ":%M:%OS %p") _ (.plain 'I' _ (by decide) (by decide)) (.inl rfl) (by decide) <|
      .char ':' _ _ (by decide) <|
      .conv 'M' none _ (cs ":%OS %p") _ (.plain 'M' _ (by decide) (by decide)) (.inl rfl) (by decide) <|
      .char ':' _ _ (by decide) <|
      .conv 'S' (some 'O') _ (cs " %p") _ (.modified 'O' 'S' _ (by decide) (by decide) (by decide))
        (.inr (.inr ⟨rfl, by decide⟩)) (by decide) <|
      .char ' ' _ _ (by decide) <| .half 'p' (by decide)

end Argtable
