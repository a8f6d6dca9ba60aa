import Verif.Proofs.RexLiteral
import Verif.Props.Demo
/-!
# Regular expressions (C32-C35)

`Spec.RexEntry pat ic h o`: `h` is an `arg_rex` entry with the pattern `pat` and the content `o`;
`Spec.give h (some a)` gives it the argument `a`.
-/

namespace Argtable

open Spec

variable {δ : Type}

/-! ## C32: literal patterns -/

/-- C32.  An entry for a literal pattern with room left accepts the literal itself, up to case if
`ARG_REX_ICASE` was given, and stores the argument in the next cell. -/
theorem C32_accept {pat : CStr} {ic : Bool} {h : Hdr (Obj δ)} {o : StrObj} (hd : RexEntry pat ic h o)
    (hord : ∀ c ∈ pat, Ordinary c) (hroom : (o.count : Int) < h.maxcount) {a : CStr} (ha : SameUpTo ic a pat) :
    give h (some a) = .ok (.rex ⟨o.count + 1, o.sval.set o.count a⟩, 0) := by
  obtain ⟨hlen, -, -, -⟩ := give_rex hd
  rw [give_rex' hd]
  have hne := rexEntry_ne hd
  unfold rexScan
  obtain ⟨b, hb, hiff⟩ := rexMatch_lit hne hord ic a
  rw [if_neg (by omega), rexCompile_lit hne hord]
  dsimp only
  rw [bind_ok]
  dsimp only
  rw [hb, bind_ok, hiff.2 ha, if_pos rfl, storeAt_ok (by omega), bind_ok]
  rfl

/-- C32.  It rejects every other argument, and then nothing changes. -/
theorem C32_reject {pat : CStr} {ic : Bool} {h : Hdr (Obj δ)} {o : StrObj} (hd : RexEntry pat ic h o)
    (hord : ∀ c ∈ pat, Ordinary c) (hroom : (o.count : Int) < h.maxcount) {a : CStr} (ha : ¬ SameUpTo ic a pat) :
    give h (some a) = .ok (.rex o, ARG_ERR_REGNOMATCH) := by
  rw [give_rex' hd]
  have hne := rexEntry_ne hd
  unfold rexScan
  obtain ⟨b, hb, hiff⟩ := rexMatch_lit hne hord ic a
  rw [if_neg (by omega), rexCompile_lit hne hord]
  dsimp only
  rw [bind_ok]
  dsimp only
  have hf : b = false := by
    cases b with
    | false => rfl
    | true => exact absurd (hiff.1 rfl) ha
  rw [hb, bind_ok, hf, if_neg (by simp)]
  rfl

/-- C32.  A non-empty literal pattern is never rejected by the constructor. -/
theorem C32_made {so lo dt gl : Option CStr} {pat : CStr} {mn mx : Int} {ic : Bool} (hne : pat ≠ [])
    (hord : ∀ c ∈ pat, Ordinary c) (h0 : 0 ≤ mn) :
    ∃ h : Hdr (Obj δ), argRexn so lo pat dt mn mx ic gl = .ok h ∧ h.maxcount = max mn mx ∧
      RexEntry pat ic h ⟨0, List.replicate (max mn mx).toNat []⟩ := by
  have hfp : foolproof mn mx = max mn mx := by unfold foolproof; split <;> omega
  have hcells : arrayCells (max mn mx) = .ok (max mn mx).toNat := by
    unfold arrayCells; rw [if_neg (by omega)]
  cases hh : argRexn (δ := δ) so lo pat dt mn mx ic gl with
  | error e =>
    unfold argRexn at hh
    simp only [hfp, hcells, rexCompile_lit hne hord, bind_ok] at hh
    cases hh
  | ok h =>
    have hmax : h.maxcount = max mn mx := by rw [(argRexn_inv hh).1, hfp]
    refine ⟨h, rfl, hmax, ?_⟩
    have := RexEntry.mk (δ := δ) so lo pat dt mn mx ic gl h false ⟨0, List.replicate (max mn mx).toNat []⟩ hh
      (by rw [hmax]; simp; omega) (by rw [hmax]; simp; omega)
    unfold argRexn at hh
    simp only [hfp, hcells, rexCompile_lit hne hord, bind_ok] at hh
    cases hh
    exact this

/-! ## C33: compiling and matching terminate -/

/-- C33.  Compiling never goes on for ever, whatever the pattern (the constructor compiles it). -/
theorem C33_compile (so lo : Option CStr) (pat : CStr) (dt : Option CStr) (mn mx : Int) (ic : Bool)
    (gl : Option CStr) : argRexn (δ := δ) so lo pat dt mn mx ic gl ≠ .error .fuel := by
  unfold argRexn
  intro h
  cases hn : arrayCells (foolproof mn mx) with
  | error e =>
    dsimp only at h
    rw [hn] at h
    unfold arrayCells at hn
    split at hn
    · cases hn; cases h
    · cases hn
  | ok n =>
    cases hr : rexCompile pat with
    | error e =>
      simp only [hn, hr, bind_ok] at h
      cases h
      exact rexCompile_not_fuel pat hr
    | ok r => simp only [hn, hr, bind_ok] at h; cases h

/-- C33.  Matching never goes on for ever, whatever the pattern, the text and the state of the entry. -/
theorem C33_match {pat : CStr} {ic : Bool} {h : Hdr (Obj δ)} {o : StrObj} (hd : RexEntry pat ic h o)
    (a : Option CStr) : give h a ≠ .error .fuel := by
  obtain ⟨hlen, hc, -, -⟩ := give_rex hd
  rw [give_rex' hd]
  have := rexScan_ok (E := fun f => f ≠ .fuel) pat ic h.maxcount o a (rexEntry_compiled hd) hc hlen
    (Or.inl ⟨by simp, by simp⟩)
  cases hx : rexScan pat ic h.maxcount o a with
  | error e =>
    rw [hx] at this
    intro hh
    cases hh
    exact this rfl
  | ok q => intro hh; cases hh

/-! ## C34: reads stay inside the text -/

/-- C34, partial: patterns without `.`, negated classes, word boundaries and the class escapes that contain
NUL, and that compile.  Every argument is accepted or rejected, without any out-of-bounds access.
Missing: the other patterns, for which the property is false (`C34_past_end`). -/
theorem C34_inside_partial {pat : CStr} {ic : Bool} {h : Hdr (Obj δ)} {o : StrObj} (hd : RexEntry pat ic h o)
    (hs : GoodPat pat) (a : Option CStr) : ∃ p e, give h a = .ok (p, e) := by
  obtain ⟨hlen, hc, -, -⟩ := give_rex hd
  rw [give_rex' hd]
  have := rexScan_ok (E := fun _ => False) pat ic h.maxcount o a (rexEntry_compiled hd) hc hlen (Or.inr hs)
  cases hx : rexScan pat ic h.maxcount o a with
  | error e => rw [hx] at this; exact this.elim
  | ok q => exact ⟨_, _, rfl⟩

/-- C34.  For any pattern, the only two ways in which giving an argument can go wrong: a read beyond the NUL
that ends the text, and the NULL pointer of a pattern that does not compile. -/
theorem C34_faults {pat : CStr} {ic : Bool} {h : Hdr (Obj δ)} {o : StrObj} (hd : RexEntry pat ic h o)
    {a : Option CStr} {f : Fault} (hf : give h a = .error f) :
    f = .ub "read past the end of the text" ∨ f = .ub "trex_match: NULL pointer dereference" := by
  obtain ⟨hlen, hc, -, -⟩ := give_rex hd
  rw [give_rex' hd] at hf
  have := rexScan_ok (E := fun f => f = .ub "read past the end of the text" ∨
    f = .ub "trex_match: NULL pointer dereference") pat ic h.maxcount o a (rexEntry_compiled hd) hc hlen
    (Or.inl ⟨Or.inr rfl, Or.inl rfl⟩)
  cases hx : rexScan pat ic h.maxcount o a with
  | error e =>
    rw [hx] at this hf
    cases hf
    exact this
  | ok q => rw [hx] at hf; cases hf

/-- C34 is false in general: an entry for the pattern `a.b` reads past the end of the argument `a`. -/
theorem C34_past_end {h : Hdr (Obj δ)} {o : StrObj} (hd : RexEntry (cs "a.b") false h o)
    (hroom : (o.count : Int) < h.maxcount) :
    give h (some (cs "a")) = .error (.ub "read past the end of the text") := by
  rw [give_rex' hd]
  have hc : rexCompile (cs "a.b") = .ok (some [{ type := .expr, left := 1, right := 0 },
      { type := .char 'a', next := 2 }, { type := .dot, next := 3 }, { type := .char 'b' }]) := by
    decide +kernel
  have hm : rexMatch [{ type := .expr, left := 1, right := 0 }, { type := .char 'a', next := 2 },
      { type := .dot, next := 3 }, { type := .char 'b' }] false (cs "a") =
      .error (.ub "read past the end of the text") := by decide +kernel
  unfold rexScan
  rw [if_neg (by omega), hc]
  dsimp only
  rw [bind_ok]
  dsimp only
  rw [hm]
  rfl

/-! ## C35: invalid patterns -/

/-- C35, partial: an entry whose pattern compiles stores a matching argument and rejects any other, with
nothing changed.  Missing: patterns that do not compile, for which the property is false (`C35_invalid`). -/
theorem C35_handled_partial {pat : CStr} {ic : Bool} {h : Hdr (Obj δ)} {o : StrObj} (hd : RexEntry pat ic h o)
    (hs : GoodPat pat) (hroom : (o.count : Int) < h.maxcount) (a : CStr) :
    give h (some a) = .ok (.rex ⟨o.count + 1, o.sval.set o.count a⟩, 0) ∨
    give h (some a) = .ok (.rex o, ARG_ERR_REGNOMATCH) := by
  obtain ⟨hlen, hc, -, -⟩ := give_rex hd
  obtain ⟨p, e, he⟩ := C34_inside_partial hd hs (some a)
  rw [give_rex' hd] at he ⊢
  unfold rexScan at he ⊢
  obtain ⟨_, nodes, hn⟩ := hs
  rw [if_neg (by omega), hn] at he ⊢
  dsimp only at he ⊢
  rw [bind_ok] at he ⊢
  dsimp only at he ⊢
  cases hb : rexMatch nodes ic a with
  | error f => rw [hb] at he; cases he
  | ok b =>
    rw [bind_ok]
    cases b with
    | true => left; rw [if_pos rfl, storeAt_ok (by omega), bind_ok]; rfl
    | false => right; rw [if_neg (by simp)]; rfl

/-- C35 is false: an entry whose pattern does not compile dereferences NULL as soon as it is given an
argument. -/
theorem C35_invalid {pat : CStr} {ic : Bool} {h : Hdr (Obj δ)} {o : StrObj} (hd : RexEntry pat ic h o)
    (hbad : rexCompile pat = .ok none) (hroom : (o.count : Int) < h.maxcount) (a : CStr) :
    give h (some a) = .error (.ub "trex_match: NULL pointer dereference") := by
  rw [give_rex' hd]
  unfold rexScan
  rw [if_neg (by omega), hbad]
  rfl

/-- C35 is false: the empty pattern makes the constructor write outside the array of nodes. -/
theorem C35_empty (so lo dt gl : Option CStr) (mn mx : Int) (ic : Bool) :
    ∃ w, argRexn (δ := δ) so lo [] dt mn mx ic gl = .error (.ub w) := by
  unfold argRexn
  dsimp only
  cases hn : arrayCells (foolproof mn mx) with
  | error e =>
    unfold arrayCells at hn
    split at hn
    · cases hn; exact ⟨_, rfl⟩
    · cases hn
  | ok n => exact ⟨_, rfl⟩

/-! ## The hypotheses are met -/

namespace Demo

/-- An entry made by `arg_rexn(…, "GET", …, 0, 2, …)`. -/
example : ∃ h : Hdr (Obj Unit), argRexn none none (cs "GET") none 0 2 true none = .ok h ∧
    give h (some (cs "get")) = .ok (.rex ⟨1, [cs "get", []]⟩, 0) ∧
    give h (some (cs "gets")) = .ok (.rex ⟨0, [[], []]⟩, ARG_ERR_REGNOMATCH) := by
  have hord : ∀ c ∈ cs "GET", Ordinary c := by unfold Ordinary; decide
  obtain ⟨h, h1, h2, h3⟩ := C32_made (δ := Unit) (so := none) (lo := none) (dt := none) (gl := none)
    (pat := cs "GET") (mn := 0) (mx := 2) (ic := true) (by decide) hord (by decide)
  refine ⟨h, h1, ?_, ?_⟩
  · exact C32_accept h3 hord (by rw [h2]; decide) (by unfold SameUpTo SameText; decide +kernel)
  · exact C32_reject h3 hord (by rw [h2]; decide) (by unfold SameUpTo SameText; decide +kernel)

/-- A pattern with a group, a repetition and a class satisfies the hypothesis of C34 and C35. -/
example : GoodPat (cs "(a|b)*[0-9]{2,3}$") := ⟨by decide +kernel, _, by
  with_unfolding_all rfl⟩

/-- Patterns that do not compile. -/
example : rexCompile (cs "(ab") = .ok none := by decide +kernel
example : rexCompile (cs "[z-") = .ok none := by decide +kernel

end Demo

end Argtable
