import Verif.Proofs.Strtod
import Verif.Props.Values
import Verif.Props.Stored
import Verif.Props.Entered
/-!
# C70: floating-point values
-/

namespace Argtable
open Spec

variable {δ : Type} {lc : Libc δ} {R : CStr → Prop} {round : FloatVal → δ} {env : Bool} {m : Nat}

theorem strtodC_decides {s : CStr} {v : FloatVal} (hne : s ≠ []) : FloatText s v ↔ strtodC id s = (v, []) := by
  constructor
  · exact strtod_all (strtodC_ok id)
  · intro h
    obtain ⟨v', hv⟩ := strtod_rest (strtodC_ok id) (s := s) (by rw [h]) hne
    have := strtod_all (strtodC_ok id) hv
    rw [h] at this
    cases this
    exact hv

/-- C70.  With a C library whose `strtod` is that of the C standard, an `arg_dbl` that has room left accepts exactly the
spellings of floating-point numbers, after white space, and the empty text.  It stores the rounded value of the number
spelled (0 for the empty text), and reports anything else as a bad double. -/
theorem C70_scan (hf : Strtod round lc.strtod) {h : Hdr (Obj δ)} {o : DblObj δ} (hl : Live lc R h)
    (hp : h.parent = .dbl o) (hroom : (o.count : Int) < h.maxcount) (s : CStr) :
    (∀ v, FloatText s v → give h (some s) = .ok (.dbl ⟨o.count + 1, o.dval.set o.count (some (round v))⟩, 0)) ∧
    (s = [] → give h (some s) = .ok (.dbl ⟨o.count + 1, o.dval.set o.count (some (round (.num false 0)))⟩, 0)) ∧
    (s ≠ [] → (∀ v, ¬ FloatText s v) → give h (some s) = .ok (.dbl o, ARG_ERR_BADDOUBLE)) := by
  have hg := C25_strtod hl hp hroom s
  refine ⟨fun v hv => ?_, ?_, fun hne hv => ?_⟩
  · rw [hg, strtod_all hf hv, if_pos rfl]
  · rintro rfl
    rw [hg, strtod_empty hf, if_pos rfl]
  · rw [hg, if_neg]
    intro h0
    obtain ⟨v, hv'⟩ := strtod_rest hf h0 hne
    exact hv v hv'

/-- An entry made by `arg_dbln`, with a conforming `strtod` that does not round: it accepts ` -0x1.8p3` as -12 and the
empty text as 0, and rejects `1e`. -/
example : ∃ (h : Hdr (Obj FloatVal)) (o : DblObj FloatVal), Strtod id (Libc.mk (strtodC id) fun f _ => f).strtod ∧
    Live ⟨strtodC id, fun f _ => f⟩ AnyPat h ∧ h.parent = .dbl o ∧ (o.count : Int) < h.maxcount ∧
    give h (some (cs " -0x1.8p3")) = .ok (.dbl ⟨1, [some (.num true 12), none]⟩, 0) ∧
    give h (some []) = .ok (.dbl ⟨1, [some (.num false 0), none]⟩, 0) ∧
    give h (some (cs "1e")) = .ok (.dbl ⟨0, [none, none]⟩, ARG_ERR_BADDOUBLE) := by
  obtain ⟨h, h1, h2, h3⟩ : ∃ h, argDbln ⟨strtodC id, fun f _ => f⟩ 4 (some (cs "d")) none none 1 2 none = .ok h ∧
      h.parent = .dbl ⟨0, [none, none]⟩ ∧ h.maxcount = 2 := ⟨_, rfl, rfl, rfl⟩
  have hl : Live ⟨strtodC id, fun f _ => f⟩ AnyPat h := by
    have := Live.dbl (lc := ⟨strtodC id, fun f _ => f⟩) (R := AnyPat) 4 (some (cs "d")) none none 1 2 none h h.hasOptValue ⟨0, [none, none]⟩ h1
      (by rw [h3]; decide) (by rw [h3]; rfl)
    rwa [← h2] at this
  have hg := C70_scan (round := id) (strtodC_ok id) hl h2 (by rw [h3]; decide)
  refine ⟨h, _, strtodC_ok id, hl, h2, by rw [h3]; decide, ?_, ?_, ?_⟩
  · exact (hg _).1 _ ((strtodC_decides (by decide)).2 (by decide +kernel))
  · exact (hg _).2.1 rfl
  · refine (hg _).2.2 (by decide) fun v hv => ?_
    rw [strtodC_decides (by decide)] at hv
    have : (strtodC id (cs "1e")).2 ≠ [] := by decide +kernel
    exact this (by rw [hv])

/-- C70: a text spells at most one number. -/
theorem C70_unique {s : CStr} {v v' : FloatVal} (h : FloatText s v) (h' : FloatText s v') : v = v' :=
  floatText_unique h h'

/-- C70: the requirement on `strtod` can be met, with any rounding. -/
theorem C70_conforming (round : FloatVal → δ) : Strtod round (strtodC round) := strtodC_ok round

/-- C70: reading a text with a conforming `strtod` decides whether it spells a number. -/
theorem C70_decides {s : CStr} {v : FloatVal} (hne : s ≠ []) : FloatText s v ↔ strtodC id s = (v, []) :=
  strtodC_decides hne

/-- The texts ` -12.50e-1`, `.5`, `5.`, `0x1.8p3`, `-inf`, `Infinity`, `nan(12_a)` and `0` spell numbers; `1e`, `.`,
`0x`, `1.2.3`, `12 `, `--1`, `1,5`, `infin`, `nan(` and a blank do not. -/
example : FloatText (cs " -12.50e-1") (.num true (mkRat 5 4)) ∧ FloatText (cs ".5") (.num false (mkRat 1 2)) ∧
    FloatText (cs "5.") (.num false 5) ∧ FloatText (cs "0x1.8p3") (.num false 12) ∧
    FloatText (cs "-inf") (.inf true) ∧ FloatText (cs "Infinity") (.inf false) ∧
    FloatText (cs "nan(12_a)") (.nan false (cs "12_a")) ∧ FloatText (cs "0") (.num false 0) ∧
    (∀ s ∈ [cs "1e", cs ".", cs "0x", cs "1.2.3", cs "12 ", cs "--1", cs "1,5", cs "infin", cs "nan(", cs " "],
      ∀ v, ¬ FloatText s v) := by
  refine ⟨(C70_decides (by decide)).2 (by decide +kernel), (C70_decides (by decide)).2 (by decide +kernel),
    (C70_decides (by decide)).2 (by decide +kernel), (C70_decides (by decide)).2 (by decide +kernel),
    (C70_decides (by decide)).2 (by decide +kernel), (C70_decides (by decide)).2 (by decide +kernel),
    (C70_decides (by decide)).2 (by decide +kernel), (C70_decides (by decide)).2 (by decide +kernel), ?_⟩
  have h : ∀ s ∈ [cs "1e", cs ".", cs "0x", cs "1.2.3", cs "12 ", cs "--1", cs "1,5", cs "infin", cs "nan(", cs " "],
      s ≠ [] ∧ (strtodC id s).2 ≠ [] := by decide +kernel
  intro s hs v hv
  rw [C70_decides (h s hs).1] at hv
  exact (h s hs).2 (by rw [hv])

/-- C70: every decimal fraction has a spelling, and so has its negative: the digits of the numerator and an exponent. -/
theorem C70_spelling (neg : Bool) (n : Nat) (e : Int) :
    FloatText ((if neg then cs "-" else []) ++ Nat.toDigits 10 n ++
      'e' :: ((if e < 0 then cs "-" else []) ++ Nat.toDigits 10 e.natAbs)) (.num neg (scaled n 10 e)) := by
  have hm : Mantissa 10 (Nat.toDigits 10 n) n 0 := .whole (numeral_toDigits (by decide) (by decide) n)
  have he : Expo ['e', 'E'] ('e' :: ((if e < 0 then cs "-" else []) ++ Nat.toDigits 10 e.natAbs)) e := by
    have hk := numeral_toDigits (base := 10) (by decide) (by decide) e.natAbs
    by_cases h0 : e < 0
    · rw [if_pos h0]
      have := Expo.some (letters := ['e', 'E']) (c := 'e') (by decide) .minus hk
      rwa [show (-1 : Int) * (e.natAbs : Int) = e by omega] at this
    · rw [if_neg h0]
      have := Expo.some (letters := ['e', 'E']) (c := 'e') (by decide) .none hk
      rwa [show (1 : Int) * (e.natAbs : Int) = e by omega] at this
  have hu := Unsigned.decimal hm he
  have hw : White [] := by intro c hc; cases hc
  rw [show e - ((0 : Nat) : Int) = e by omega] at hu
  cases neg with
  | false =>
    have := FloatText.mk hw (Subject.mk .none hu)
    simpa using this
  | true =>
    have := FloatText.mk hw (Subject.mk .minus hu)
    simpa [cs] using this

/-- C70, as a program reads the values of an `arg_dbl` with option names after a successful `arg_parse`: it has as many
values as its options were given, its `j`-th value is the rounded value of the number the argument of the `j`-th of them
spells (0 for an empty argument), and cells for which the command line gives no text keep what the program has preset. -/
theorem C70_stored (hf : Strtod round lc.strtod) {t : Table (Obj δ)} (hend : EndOK m t.fin)
    (hwf : WF (t.entries.map declOf)) (hl : ∀ h ∈ t.entries, Live lc AnyPat h) (argv : List CStr) (hargs : CArgs argv.tail)
    (g : GState) (r : Nat × Table (Obj δ) × GState) (hr : Returns env argv t g r) (h0 : r.1 = 0)
    {i : Nat} {h : Hdr (Obj δ)} {o0 : DblObj δ} (hi : t.entries[i]? = some h) (hp : h.parent = .dbl o0)
    (htag : h.shortopts.isSome ∨ h.longopts.isSome) {evs : List Ev} {ops : List CStr}
    (htok : tokenize (t.entries.map declOf) env argv.tail = some (evs, ops)) :
    ∃ o, r.2.1.entries[i]? = some { h with parent := .dbl o } ∧ o.count = (delivered evs i).length ∧
      o.dval.length = o0.dval.length ∧
      (∀ (j : Nat) (a : CStr), (delivered evs i)[j]? = some (some a) →
        ∃ v, (FloatText a v ∨ a = [] ∧ v = .num false 0) ∧ o.dval[j]? = some (some (round v))) ∧
      ∀ j : Nat, (delivered evs i).length ≤ j ∨ (delivered evs i)[j]? = some none → o.dval[j]? = o0.dval[j]? := by
  obtain ⟨evs', ops', segs, h1, -, h2, h3⟩ := C56_stored hend hwf hl argv hargs g r hr h0
  rw [htok] at h1
  cases h1
  obtain ⟨seg, hseg⟩ : ∃ seg, segs[i]? = some seg :=
    ⟨_, List.getElem?_eq_getElem (by rw [h2.length]; exact (List.getElem?_eq_some_iff.1 hi).1)⟩
  obtain ⟨q, h4, h5⟩ := h3 i h seg hi hseg
  rw [h2.tagged i h seg hi hseg htag, List.map_nil, List.append_nil] at h5
  cases h5 with
  | @dbl o1 o g0 g1 g2 =>
    rw [hp] at g0
    cases g0
    refine ⟨o, h4, g1, g2.length, fun j a ha => ?_, fun j hj => ?_⟩
    · obtain ⟨v0, v, -, hv, hd⟩ := g2.text j a ha
      obtain ⟨hd1, rfl⟩ := hd
      by_cases hne : a = []
      · subst hne
        refine ⟨_, Or.inr ⟨rfl, rfl⟩, ?_⟩
        rw [hv, strtod_empty hf]
      · obtain ⟨v, hv'⟩ := strtod_rest hf hd1 hne
        refine ⟨v, Or.inl hv', ?_⟩
        rw [hv, strtod_all hf hv']
    · apply g2.other
      intro a ha
      rcases hj with hj | hj
      · rw [List.getElem?_eq_none hj] at ha; cases ha
      · rw [hj] at ha; cases ha
  | lit g0 => rw [hp] at g0; cases g0
  | int g0 => rw [hp] at g0; cases g0
  | str g0 => rw [hp] at g0; cases g0
  | file g0 => rw [hp] at g0; cases g0
  | date g0 => obtain ⟨-, -, g1, -⟩ := give_date g0; rw [hp] at g1; cases g1
  | rex g0 => obtain ⟨-, -, g1, -⟩ := give_rex g0; rw [hp] at g1; cases g1
  | rem g0 => rw [hp] at g0; cases g0

/-- The entry of `arg_dbln("d", "dbl", NULL, 1, 3, NULL)`, with a conforming `strtod` that does not round. -/
def dblDemo : Hdr (Obj FloatVal) :=
  match argDbln ⟨strtodC id, fun f _ => f⟩ 4 (some (cs "d")) (some (cs "dbl")) none 1 3 none with
  | .ok h => h
  | .error _ => argRem none none

/-- `prog -d 2.5e1 --dbl -0x8 -d ""` for that entry. -/
example : ∃ r : Nat × Table (Obj FloatVal) × GState,
    EndOK 4 Demo.fin ∧ WF ([dblDemo].map declOf) ∧ (∀ h ∈ [dblDemo], Live ⟨strtodC id, fun f _ => f⟩ AnyPat h) ∧
    Returns false [cs "prog", cs "-d", cs "2.5e1", cs "--dbl", cs "-0x8", cs "-d", []] ⟨[dblDemo], Demo.fin⟩ Demo.g0 r ∧
    r.1 = 0 ∧ (r.2.1.entries[0]?.map (·.parent)) =
      some (.dbl ⟨3, [some (.num false 25), some (.num true 8), some (.num false 0)]⟩) := by
  have h1 : argDbln ⟨strtodC id, fun f _ => f⟩ 4 (some (cs "d")) (some (cs "dbl")) none 1 3 none = .ok dblDemo := rfl
  have hl : ∀ h ∈ [dblDemo], Live ⟨strtodC id, fun f _ => f⟩ AnyPat h := by
    intro h' hm
    obtain rfl := List.mem_singleton.1 hm
    exact Live.dbl 4 (some (cs "d")) (some (cs "dbl")) none 1 3 none dblDemo dblDemo.hasOptValue
      ⟨0, [none, none, none]⟩ h1 (by decide) rfl
  have hd : [dblDemo].map declOf = [⟨true, false, some (cs "d"), some (cs "dbl")⟩] := rfl
  have hwf : WF ([dblDemo].map declOf) := by
    rw [hd]
    intro d hd
    obtain rfl := List.mem_singleton.1 hd
    exact ⟨by intro s h; cases h <;> decide, by intro s h; cases h <;> decide⟩
  have hm : ∃ es, meaning [dblDemo] [.deliver 0 (some (cs "2.5e1")), .deliver 0 (some (cs "-0x8")), .deliver 0 (some [])] []
      = .ok (es, []) ∧ (es[0]?.map (·.parent)) =
      some (.dbl ⟨3, [some (.num false 25), some (.num true 8), some (.num false 0)]⟩) := ⟨_, by with_unfolding_all rfl, rfl⟩
  obtain ⟨es, hm, he⟩ := hm
  have := readsAs_of_tokenize (t := ⟨[dblDemo], Demo.fin⟩) (env := false) Demo.finOK hwf
    (argv := [cs "prog", cs "-d", cs "2.5e1", cs "--dbl", cs "-0x8", cs "-d", []]) (by decide)
    (evs := [.deliver 0 (some (cs "2.5e1")), .deliver 0 (some (cs "-0x8")), .deliver 0 (some [])])
    (ops := []) (by dsimp only; rw [hd]; decide +kernel) Demo.g0
  dsimp only at this
  rw [hm] at this
  obtain ⟨r, hr, hs⟩ := this
  exact ⟨r, Demo.finOK, hwf, hl, hr, hs.ret, by rw [hs.entries]; exact he⟩

/-- C70: which texts the command lines of C57 may give to an `arg_dbl`. -/
theorem C70_admits (hf : Strtod round lc.strtod) {h : Hdr (Obj δ)} {o : DblObj δ} (hp : h.parent = .dbl o) (j : Nat)
    (a : CStr) : Admits lc h j a ↔ a = [] ∨ ∃ v, FloatText a v := by
  rw [admits_dbl hp]
  constructor
  · intro h0
    by_cases hne : a = []
    · exact Or.inl hne
    · exact Or.inr (strtod_rest hf h0 hne)
  · rintro (rfl | ⟨v, hv⟩)
    · rw [strtod_empty hf]
    · rw [strtod_all hf hv]

end Argtable
