import Verif.Proofs.RegexTrees
import Verif.Props.Walk
/-!
# Every pattern (C76)

C53, C54 and C75 speak of patterns that are written by a syntax tree (Spec/Regex.lean).  Here: this is every pattern.  Any
C string either is written by a well-formed tree whose ranges compile, and then C75 gives the verdict on
every argument, or every argument crashes the program.
-/

namespace Argtable

open Spec

variable {δ : Type}

theorem rexScan_error {pat : CStr} {ic : Bool} {h : Hdr (Obj δ)} {o : StrObj} (hd : RexEntry pat ic h o)
    (hroom : (o.count : Int) < h.maxcount) {f : Fault} (hc : rexCompile pat = .error f) (a : CStr) : give h (some a) = .error f := by
  rw [give_rex' hd]
  unfold rexScan
  rw [if_neg (by omega), hc]
  rfl

theorem fault_ub {pat : CStr} {f : Fault} (h : rexCompile pat = .error f) : ∃ m, f = .ub m := by
  cases f with
  | ub m => exact ⟨m, rfl⟩
  | fuel => exact absurd h (rexCompile_not_fuel pat)

/-- A pattern is written by a tree that compiles exactly if the compiler accepts it. -/
theorem written_iff {pat : CStr} (ha : ∀ c ∈ pat, 0 < c.toNat) :
    (∃ r : Re, r.text = pat ∧ r.Ok ∧ r.Compiles) ↔ ∃ nodes, rexCompile pat = .ok (some nodes) := by
  constructor
  · rintro ⟨r, rfl, hok, hcomp⟩
    rcases rexCompile_rep (E := False) hok (Or.inr hcomp) with ⟨h, _⟩ | ⟨-, nodes, _, _, hc, _⟩
    · exact h.elim
    · exact ⟨nodes, hc⟩
  · rintro ⟨nodes, hc⟩
    obtain ⟨r, hok, rfl⟩ := rexCompile_inv ha hc
    rcases rexCompile_rep (E := True) hok (Or.inl trivial) with ⟨_, h⟩ | ⟨hcomp, _⟩
    · rw [h] at hc; cases hc
    · exact ⟨r, rfl, hok, hcomp⟩

/-- C76.  For every pattern, that is, every string without NUL, there are two possibilities.  Either it is written by a well-formed syntax tree
whose ranges compile, and the walk through this tree (C75) gives the verdict on each argument; or it is not, and each
argument leads to undefined behaviour. -/
theorem C76_every_pattern {pat : CStr} (ha : ∀ c ∈ pat, 0 < c.toNat) {ic : Bool} {h : Hdr (Obj δ)} {o : StrObj}
    (hd : RexEntry pat ic h o) (hroom : (o.count : Int) < h.maxcount) :
    (∃ r : Re, r.text = pat ∧ r.Ok ∧ r.Compiles ∧ ∀ a : CStr, give h (some a) = match r.Walk ic a with
      | .upto j => if j = a.length then .ok (.rex ⟨o.count + 1, o.sval.set o.count a⟩, 0) else .ok (.rex o, ARG_ERR_REGNOMATCH)
      | .no => .ok (.rex o, ARG_ERR_REGNOMATCH)
      | .beyond => .error (.ub "read past the end of the text")) ∨
    (¬ ∃ r : Re, r.text = pat ∧ r.Ok ∧ r.Compiles) ∧ ∀ a : CStr, ∃ m, give h (some a) = .error (.ub m) := by
  by_cases hw : ∃ r : Re, r.text = pat ∧ r.Ok ∧ r.Compiles
  · left
    obtain ⟨r, rfl, hok, hcomp⟩ := hw
    exact ⟨r, rfl, hok, hcomp, C75_verdict hd hok hcomp hroom⟩
  · refine Or.inr ⟨hw, fun a => ?_⟩
    rw [written_iff ha] at hw
    cases hc : rexCompile pat with
    | error f =>
      obtain ⟨m, rfl⟩ := fault_ub hc
      exact ⟨m, rexScan_error hd hroom hc a⟩
    | ok n =>
      cases n with
      | none => exact ⟨_, C35_invalid hd hc hroom a⟩
      | some nodes => exact absurd ⟨nodes, hc⟩ hw

/-- C76.  The constructor.  For a pattern that is written by a tree it succeeds; otherwise either it has undefined behaviour
itself, or it makes an entry for which each argument leads to undefined behaviour. -/
theorem C76_constructor {pat : CStr} (ha : ∀ c ∈ pat, 0 < c.toNat) (so lo dt gl : Option CStr) {mn mx : Int}
    (ic : Bool) (h0 : 0 ≤ mn) (h1 : 0 < mx) :
    ((∃ r : Re, r.text = pat ∧ r.Ok) → ∃ h : Hdr (Obj δ), argRexn so lo pat dt mn mx ic gl = .ok h) ∧
    ((¬ ∃ r : Re, r.text = pat ∧ r.Ok ∧ r.Compiles) →
      (∃ m, argRexn (δ := δ) so lo pat dt mn mx ic gl = .error (.ub m)) ∨
      ∃ h : Hdr (Obj δ), argRexn so lo pat dt mn mx ic gl = .ok h ∧ ∀ a : CStr, ∃ m, give h (some a) = .error (.ub m)) := by
  have hfp : foolproof mn mx = max mn mx := by unfold foolproof; split <;> omega
  have hcells : arrayCells (max mn mx) = .ok (max mn mx).toNat := by
    unfold arrayCells; rw [if_neg (by omega)]
  constructor
  · rintro ⟨r, rfl, hok⟩
    obtain ⟨h, h2, -⟩ := C53_made (δ := δ) (so := so) (lo := lo) (dt := dt) (gl := gl) (mx := mx) (ic := ic) hok h0
    exact ⟨h, h2⟩
  · intro hw
    cases hc : rexCompile pat with
    | error f =>
      obtain ⟨m, rfl⟩ := fault_ub hc
      left
      refine ⟨m, ?_⟩
      unfold argRexn
      simp only [hfp, hcells, hc, bind_ok]
      rfl
    | ok n =>
      right
      cases hh : argRexn (δ := δ) so lo pat dt mn mx ic gl with
      | error e =>
        unfold argRexn at hh
        simp only [hfp, hcells, hc, bind_ok] at hh
        cases hh
      | ok h =>
        have hmax : h.maxcount = max mn mx := by rw [(argRexn_inv hh).1, hfp]
        have h3 : RexEntry pat ic h ⟨0, List.replicate (max mn mx).toNat []⟩ := by
          have := RexEntry.mk (δ := δ) so lo pat dt mn mx ic gl h false ⟨0, List.replicate (max mn mx).toNat []⟩ hh
            (by rw [hmax]; simp; omega) (by rw [hmax]; simp; omega)
          unfold argRexn at hh
          simp only [hfp, hcells, hc, bind_ok] at hh
          cases hh
          exact this
        refine ⟨h, rfl, fun a => ?_⟩
        rcases C76_every_pattern ha h3 (by rw [hmax]; simp; omega) with ⟨r, k1, k2, k3, -⟩ | ⟨-, k⟩
        · exact absurd ⟨r, k1, k2, k3⟩ hw
        · exact k a

/-- C76.  A pattern has one meaning: two trees that are written in the same way accept the same arguments, and their walks go
beyond the NUL for the same arguments. -/
theorem C76_one_meaning {r r' : Re} (hok : r.Ok) (hok' : r'.Ok) (h : r.text = r'.text) (hcomp : r.Compiles) (ic : Bool) (a : CStr) :
    r'.Compiles ∧ (r.Walk ic a = .upto a.length ↔ r'.Walk ic a = .upto a.length) ∧
    (r.Walk ic a = .beyond ↔ r'.Walk ic a = .beyond) := by
  have hcomp' : r'.Compiles := by
    obtain ⟨nodes, hc⟩ : ∃ nodes, rexCompile r.text = .ok (some nodes) := by
      obtain ⟨nodes, hc, -⟩ := rexMatch_walk (ic := ic) hok hcomp a
      exact ⟨nodes, hc⟩
    rcases rexCompile_rep (E := True) hok' (Or.inl trivial) with ⟨_, h2⟩ | ⟨hcomp, _⟩
    · rw [h] at hc; rw [h2] at hc; cases hc
    · exact hcomp
  refine ⟨hcomp', ?_⟩
  obtain ⟨e, -, h2, h3⟩ := C53_made (δ := Unit) (so := none) (lo := none) (dt := none) (gl := none) (mn := 0) (mx := 1) (ic := ic)
    hok (by decide)
  have hroom : ((⟨0, List.replicate (max (0 : Int) 1).toNat []⟩ : StrObj).count : Int) < e.maxcount := by rw [h2]; decide
  have h3' := h3
  rw [h] at h3'
  exact ⟨by rw [← C75_accepted h3 hok hcomp hroom, ← C75_accepted h3' hok' hcomp' hroom],
    by rw [← C75_beyond h3 hok hcomp hroom, ← C75_beyond h3' hok' hcomp' hroom]⟩

/-! ## The hypotheses are met

How some unusual patterns are read, and some that crash. -/

namespace Demo

/-- `[-+]?\\d+`: a `-` at the start of a class stands for itself. -/
def signed : Re := .branch false (.more (.set false (.one (.plain '-')) [.one (.plain '+')]) .opt (.last (.cls 'd') .plus))

example : signed.text = cs "[-+]?\\d+" ∧ signed.Ok ∧ signed.Compiles := by
  refine ⟨?_, ?_, ?_⟩ <;> decide +kernel

/-- `a*?b^c`: the question mark after a repetition and `^` within an alternative stand for themselves. -/
def lazyStar : Re := .branch false (.more (.chr (.plain 'a')) .star (.more (.chr (.plain '?')) .once (.more (.chr (.plain 'b')) .once
  (.more (.chr (.plain '^')) .once (.last (.chr (.plain 'c')) .once)))))

example : lazyStar.text = cs "a*?b^c" ∧ lazyStar.Ok ∧ lazyStar.Compiles := by
  refine ⟨?_, ?_, ?_⟩ <;> decide +kernel

/-- `a||b`: `a` or `|b`; `*a|+`: a star, plus sign or bar at the start of an alternative stands for itself. -/
def bars : Re := .alt false (.last (.chr (.plain 'a')) .once) (.branch false (.more (.chr (.plain '|')) .once (.last (.chr (.plain 'b')) .once)))
def stars : Re := .alt false (.more (.chr (.plain '*')) .once (.last (.chr (.plain 'a')) .once)) (.branch false (.last (.chr (.plain '+')) .once))

example : bars.text = cs "a||b" ∧ bars.Ok ∧ bars.Compiles ∧ stars.text = cs "*a|+" ∧ stars.Ok ∧ stars.Compiles := by
  refine ⟨?_, ?_, ?_, ?_, ?_, ?_⟩ <;> decide +kernel

/-- `[+-]a]`: a range from `+` to `]`, or `a`. -/
def plusRange : Re := .branch false (.last (.set false (.range (.plain '+') (.plain ']')) [.one (.plain 'a')]) .once)

example : plusRange.text = cs "[+-]a]" ∧ plusRange.Ok ∧ plusRange.Compiles := by
  refine ⟨?_, ?_, ?_⟩ <;> decide +kernel

/-- A quoted byte above 127, and a range of such bytes; unquoted ones cannot be used. -/
def highBytes : Re := .branch false (.more (.chr (.quoted '\xe9')) .once (.last (.set false (.range (.quoted '\x80') (.quoted '\xbf')) []) .plus))

example : highBytes.text = cs "\\\xe9[\\\x80-\\\xbf]+" ∧ highBytes.Ok ∧ highBytes.Compiles := by
  refine ⟨?_, ?_, ?_⟩ <;> decide +kernel

example : ¬ ∃ r : Re, r.text = cs "\xe9" ∧ r.Ok ∧ r.Compiles := by
  have hc : rexCompile (cs "\xe9") = .ok none := by decide +kernel
  rw [written_iff (by decide)]
  rintro ⟨nodes, hn⟩
  rw [hc] at hn
  cases hn

/-- `[+-]`, `[\\w-z]`, `a**`, `()`, `a|`, `(a`, `a)`, `[]`, `a{` and `a\\` are written by no tree. -/
example : ∀ pat ∈ [cs "[+-]", cs "[\\w-z]", cs "a**", cs "()", cs "a|", cs "(a", cs "a)", cs "[]", cs "a{", cs "a\\"],
    ¬ ∃ r : Re, r.text = pat ∧ r.Ok ∧ r.Compiles := by
  intro pat hp
  have hc : ∀ pat ∈ [cs "[+-]", cs "[\\w-z]", cs "a**", cs "()", cs "a|", cs "(a", cs "a)", cs "[]", cs "a{", cs "a\\"],
      (∀ c ∈ pat, 0 < c.toNat) ∧ ∀ nodes, rexCompile pat ≠ .ok (some nodes) := by
    have h : ∀ pat ∈ [cs "[+-]", cs "[\\w-z]", cs "a**", cs "()", cs "a|", cs "(a", cs "a)", cs "[]", cs "a{", cs "a\\"],
        (∀ c ∈ pat, 0 < c.toNat) ∧
        (match rexCompile pat with | .ok (some _) => false | _ => true) = true := by decide +kernel
    intro pat hp
    refine ⟨(h pat hp).1, fun nodes hn => ?_⟩
    have := (h pat hp).2
    rw [hn] at this
    cases this
  rw [written_iff (hc pat hp).1]
  rintro ⟨nodes, hn⟩
  exact (hc pat hp).2 nodes hn

/-- An entry for `[+-]`. -/
example : ∃ h : Hdr (Obj Unit), argRexn none none (cs "[+-]") none 0 1 false none = .ok h ∧
    ∀ a : CStr, ∃ m, give h (some a) = .error (.ub m) := by
  have hn : rexCompile (cs "[+-]") = .ok none := by decide +kernel
  rcases (C76_constructor (δ := Unit) (pat := cs "[+-]") (by decide) none none none none (mn := 0) (mx := 1) false (by decide)
    (by decide)).2 (by rw [written_iff (by decide)]; rintro ⟨_, h⟩; rw [hn] at h; cases h) with ⟨m, h⟩ | h
  · exfalso
    unfold argRexn at h
    rw [hn] at h
    cases h
  · exact h

end Demo

end Argtable
