import Verif.Proofs.RegexDec
import Verif.Proofs.RegexRun
import Verif.Props.Regex
/-!
# What an `arg_rex` accepts, for every pattern (C75)

C53 says that accepted arguments belong to the language of the pattern, C54 that the converse holds for deterministic
patterns.  Here the verdict on *every* argument is given for *every* well-formed pattern, in terms of its syntax tree:
`r.Walk ic a` (Spec/RegexRun.lean).
-/

namespace Argtable

open Spec

variable {δ : Type}

/-- C75.  Giving an argument to an entry with room.  If the walk through the pattern leads exactly to the end of the
argument, it is stored; if it leads elsewhere or nowhere, it is reported and the entry stays as it was; if the walk looks
beyond the terminating NUL, the behaviour is undefined.  There are no other cases. -/
theorem C75_verdict {r : Re} {ic : Bool} {h : Hdr (Obj δ)} {o : StrObj} (hd : RexEntry r.text ic h o) (hok : r.Ok)
    (hfit : r.Compiles) (hroom : (o.count : Int) < h.maxcount) (a : CStr) :
    give h (some a) = match r.Walk ic a with
      | .upto j => if j = a.length then .ok (.rex ⟨o.count + 1, o.sval.set o.count a⟩, 0) else .ok (.rex o, ARG_ERR_REGNOMATCH)
      | .no => .ok (.rex o, ARG_ERR_REGNOMATCH)
      | .beyond => .error (.ub "read past the end of the text") := by
  obtain ⟨nodes, hc, hm⟩ := rexMatch_walk hok hfit a
  cases hw : r.Walk ic a with
  | beyond =>
    rw [hw] at hm
    rw [give_rex' hd]
    unfold rexScan
    rw [if_neg (by omega), hc]
    dsimp only
    rw [bind_ok]
    dsimp only
    rw [hm]
    rfl
  | no => rw [hw] at hm; exact rexScan_of hd hroom hc hm
  | upto j =>
    rw [hw] at hm
    rw [rexScan_of hd hroom hc hm]
    by_cases hj : j = a.length
    · dsimp only; rw [if_pos hj, if_pos (by simpa using hj)]
    · dsimp only; rw [if_neg hj, if_neg (by simpa using hj)]

/-- C75.  An argument is accepted (error code 0) exactly if the walk leads to its end. -/
theorem C75_accepted {r : Re} {ic : Bool} {h : Hdr (Obj δ)} {o : StrObj} (hd : RexEntry r.text ic h o) (hok : r.Ok)
    (hfit : r.Compiles) (hroom : (o.count : Int) < h.maxcount) (a : CStr) :
    (∃ p, give h (some a) = .ok (p, 0)) ↔ r.Walk ic a = .upto a.length := by
  rw [C75_verdict hd hok hfit hroom]
  cases r.Walk ic a with
  | beyond => simp
  | no => simp [ARG_ERR_REGNOMATCH]
  | upto j =>
    by_cases hj : j = a.length
    · simp [hj]
    · simp [hj, ARG_ERR_REGNOMATCH]

/-- C75.  The behaviour is undefined exactly if the walk looks beyond the terminating NUL. -/
theorem C75_beyond {r : Re} {ic : Bool} {h : Hdr (Obj δ)} {o : StrObj} (hd : RexEntry r.text ic h o) (hok : r.Ok)
    (hfit : r.Compiles) (hroom : (o.count : Int) < h.maxcount) (a : CStr) :
    (∃ f, give h (some a) = .error f) ↔ r.Walk ic a = .beyond := by
  rw [C75_verdict hd hok hfit hroom]
  cases r.Walk ic a with
  | beyond => simp
  | no => simp
  | upto j => by_cases hj : j = a.length <;> simp [hj]

/-- C75.  The walk and the language of the pattern: a walk to the end is a match; and in a deterministic pattern that does
not describe NUL, each match is a walk to the end, which never looks beyond the NUL. -/
theorem C75_language {r : Re} {ic : Bool} (hok : r.Ok) (hfit : r.Compiles) (a : CStr) :
    (r.Walk ic a = .upto a.length → r.Accepts ic a) ∧
    (r.Spare → r.Det ic (fun _ => False) → a.length ≤ 65535 →
      (r.Accepts ic a → r.Walk ic a = .upto a.length) ∧ r.Walk ic a ≠ .beyond) := by
  obtain ⟨h, -, h2, h3⟩ := C53_made (δ := Unit) (so := none) (lo := none) (dt := none) (gl := none) (mn := 0) (mx := 1)
    hok (by decide)
  have hroom : ((⟨0, List.replicate (max (0 : Int) 1).toNat []⟩ : StrObj).count : Int) < h.maxcount := by rw [h2]; decide
  refine ⟨fun hw => ?_, fun hsp hdet hlen => ⟨fun hacc => ?_, fun hw => ?_⟩⟩
  · obtain ⟨p, hp⟩ := (C75_accepted h3 hok hfit hroom a).2 hw
    exact C53_sound h3 hok hp
  · exact (C75_accepted h3 hok hfit hroom a).1 ⟨_, (C54_decides h3 hok hfit hsp hdet hroom hlen).1 hacc⟩
  · obtain ⟨f, hf⟩ := (C75_beyond h3 hok hfit hroom a).2 hw
    obtain ⟨d1, d2⟩ := C54_decides h3 hok hfit hsp hdet hroom hlen
    by_cases hacc : r.Accepts ic a
    · rw [d1 hacc] at hf; cases hf
    · rw [d2 hacc] at hf; cases hf

/-- C75.  Alternatives are tried in the order in which they are written, and the first that matches some part of the
argument decides: if it does not match the argument to its end, the argument is rejected, whatever the other
alternatives. -/
theorem C75_first_alternative {bol : Bool} {es : Elems} {r : Re} {ic : Bool} {h : Hdr (Obj δ)} {o : StrObj}
    (hd : RexEntry (Re.alt bol es r).text ic h o) (hok : (Re.alt bol es r).Ok)
    (hfit : (Re.alt bol es r).Compiles) (hroom : (o.count : Int) < h.maxcount) {a : CStr} {j : Nat}
    (hj : es.Go ic a true nothing 0 = .upto j) (hne : j ≠ a.length) : give h (some a) = .ok (.rex o, ARG_ERR_REGNOMATCH) := by
  have hw : (Re.alt bol es r).Walk ic a = .upto j := by
    unfold Re.Walk Re.Go
    rw [if_neg (by simp), hj]
    rfl
  rw [C75_verdict hd hok hfit hroom, hw]
  dsimp only
  rw [if_neg hne]

/-- C75.  Two patterns that differ only in the kind of their groups (`(…)` or `(?:…)`), in parentheses around a single atom,
in the way repetitions are written (`*` or `{0,}`, `+` or `{1,}`, `?` or `{0,1}`, `{n}` or `{n,n}`) and in backslashes in
front of characters are the same to an `arg_rex`, for every argument and every state of the entry. -/
theorem C75_same {r r' : Re} {ic : Bool} {h h' : Hdr (Obj δ)} {o : StrObj} (hd : RexEntry r.text ic h o)
    (hd' : RexEntry r'.text ic h' o) (hmax : h.maxcount = h'.maxcount) (hok : r.Ok) (hok' : r'.Ok)
    (hfit : r.Compiles) (hfit' : r'.Compiles) (hp : r.plain = r'.plain) (a : Option CStr) :
    give h a = give h' a := by
  by_cases hroom : (o.count : Int) = h.maxcount
  · rw [give_rex' hd, give_rex' hd']
    unfold rexScan
    rw [if_pos hroom, if_pos (by rw [← hmax]; exact hroom)]
  · have hlt : (o.count : Int) < h.maxcount := by
      have := (give_rex hd).2.1
      omega
    cases a with
    | none =>
      rw [give_rex' hd, give_rex' hd']
      unfold rexScan
      rw [if_neg hroom, if_neg (by rw [← hmax]; exact hroom)]
    | some a =>
      rw [C75_verdict hd hok hfit hlt, C75_verdict hd' hok' hfit' (by rw [← hmax]; exact hlt), walk_plain hp]

/-! ## The hypotheses are met -/

namespace Demo

/-- `(a)+(?:b|c){2}\\.` and `a{1,}(b|c){2,2}(\\.)`. -/
def groups : Re := .branch false (.more (.group true (.branch false (.last (.chr (.plain 'a')) .once))) .plus
  (.more (.group false (.alt false (.last (.chr (.plain 'b')) .once) (.branch false (.last (.chr (.plain 'c')) .once)))) (.exactly 2)
  (.last (.chr (.quoted '.')) .once)))
def groups' : Re := .branch false (.more (.chr (.plain 'a')) (.atLeast 1)
  (.more (.group true (.alt false (.last (.chr (.plain 'b')) .once) (.branch false (.last (.chr (.plain 'c')) .once)))) (.between 2 2)
  (.last (.group true (.branch false (.last (.chr (.quoted '.')) .once))) .once)))

example : groups.text = cs "(a)+(?:b|c){2}\\." ∧ groups'.text = cs "a{1,}(b|c){2,2}(\\.)" := by decide +kernel

theorem groups_ok : groups.Ok ∧ groups'.Ok ∧ groups.Compiles ∧ groups'.Compiles := by
  refine ⟨?_, ?_, ?_, ?_⟩ <;> decide +kernel

/-- Two entries as in C75_same. -/
example : ∃ (h h' : Hdr (Obj Unit)) (o : StrObj), RexEntry groups.text false h o ∧ RexEntry groups'.text false h' o ∧
    h.maxcount = h'.maxcount ∧ groups.plain = groups'.plain ∧ groups.text ≠ groups'.text := by
  obtain ⟨h, -, h2, h3⟩ := C53_made (δ := Unit) (so := none) (lo := none) (dt := none) (gl := none) (mn := 0) (mx := 3)
    (ic := false) groups_ok.1 (by decide)
  obtain ⟨h', -, h2', h3'⟩ := C53_made (δ := Unit) (so := none) (lo := none) (dt := none) (gl := none) (mn := 0) (mx := 3)
    (ic := false) groups_ok.2.1 (by decide)
  exact ⟨h, h', _, h3, h3', by rw [h2, h2'], by simp [groups, groups', Re.plain, Elems.plain, Atom.plain, Re.single, Quant.long, Lit.bare, Lit.char], by decide +kernel⟩

/-- The first alternative of `a|ab` takes one of the two characters of `ab` (C75_first_alternative). -/
example : (Elems.last (.chr (.plain 'a')) .once).Go false (cs "ab") true nothing 0 = .upto 1 ∧ 1 ≠ (cs "ab").length := by
  refine ⟨?_, by decide⟩
  unfold Elems.Go element Atom.Go take
  rw [if_pos rfl, if_neg (by decide)]
  exact if_pos rfl

/-- `[^a][^a][^a]` reads beyond the end of `b` (C75_beyond): `[^a]` takes the NUL, too. -/
def threeOthers : Re := .branch false (.more (.set true (.one (.plain 'a')) []) .once (.more (.set true (.one (.plain 'a')) []) .once
  (.last (.set true (.one (.plain 'a')) []) .once)))

example : threeOthers.Walk false (cs "b") = .beyond := by
  have h : ∀ c : Char, c ≠ 'a' → ¬ ∃ x ∈ [SetItem.one (.plain 'a')], x.Has false c := by
    rintro c hc ⟨x, hx, hh⟩
    rw [List.mem_singleton] at hx
    subst hx
    exact hc hh
  have step : ∀ after i, i ≤ 1 → (Atom.set true (.one (.plain 'a')) []).Go false (cs "b") after i = .upto (i + 1) := by
    intro after i hi
    unfold Atom.Go take
    rw [if_neg (by show ¬ 1 < i; omega)]
    refine if_pos ?_
    dsimp only; rw [if_pos rfl]
    refine h _ ?_
    obtain rfl | rfl : i = 0 ∨ i = 1 := by omega
    · decide
    · decide
  have last : ∀ after, (Atom.set true (.one (.plain 'a')) []).Go false (cs "b") after 2 = .beyond := by
    intro after
    unfold Atom.Go take
    exact if_pos (by decide)
  unfold threeOthers Re.Walk Re.Go
  rw [if_neg (by simp)]
  rw [Elems.Go, element, if_pos rfl, step _ 0 (by omega)]
  show Elems.Go _ _ _ _ _ 1 = _
  rw [Elems.Go, element, if_pos rfl, step _ 1 (by omega)]
  show Elems.Go _ _ _ _ _ 2 = _
  rw [Elems.Go, element, if_pos rfl, last]

end Demo

end Argtable
