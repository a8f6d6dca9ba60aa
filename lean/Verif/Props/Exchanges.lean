import Verif.Proofs.ExchangesWorst
import Verif.Proofs.ExchangesNone
import Verif.Proofs.ExchangesExact
import Verif.Spec.Exchanges
import Verif.Props.Parse
import Verif.Props.Cmdline

/-!
# How many exchanges a call of `arg_parse` makes (C99)
-/

namespace Argtable

open Spec

variable {α σ : Type} {env : Bool} {argv : List CStr} {t : Table σ} {g : GState}

/-- **C99.**  Counting changes nothing: `arg_parse` returns `r` if and only if it does so after some number of exchanges. -/
theorem C99_same (r : Nat × Table σ × GState) : Returns env argv t g r ↔ ∃ c, ReturnsAfter env argv t g r c := by
  constructor
  · rintro ⟨fuel, h⟩
    rw [← argParseX_fst] at h
    cases hx : argParseX env fuel argv t g with
    | error e => rw [hx] at h; cases h
    | ok p =>
      rw [hx] at h
      cases h
      exact ⟨p.2, fuel, hx⟩
  · rintro ⟨c, fuel, h⟩
    exact ⟨fuel, by rw [← argParseX_fst, h]; rfl⟩

/-- **C99.**  The number of exchanges is determined by the call. -/
theorem C99_one {r r' : Nat × Table σ × GState} {c c' : Nat} (h : ReturnsAfter env argv t g r c) (h' : ReturnsAfter env argv t g r' c') :
    c = c' := by
  obtain ⟨f, h⟩ := h
  obtain ⟨f', h'⟩ := h'
  exact argParseX_unique h h'

/-- **C99.**  To move a block of options before a block of operands takes exactly as many exchanges as the two blocks have
elements. -/
theorem C99_blocks (before operands options after : List α) (h1 : operands ≠ []) (h2 : options ≠ []) :
    permuteArgsX before.length (before.length + operands.length) (before.length + operands.length + options.length)
        (before ++ operands ++ options ++ after) =
      .ok (before ++ options ++ operands ++ after, operands.length + options.length) :=
  permuteArgsX_blocks before operands options after h1 h2

/-- **C99.**  Without POSIXLY_CORRECT the number of exchanges of a call that returns is `exchanges`: the arguments between two
operands that are not operands themselves are moved together, before all the operands met so far. -/
theorem C99_exact (hwf : WF (t.entries.map declOf)) (hargs : CArgs argv.tail) {r : Nat × Table σ × GState} {c : Nat}
    (h : ReturnsAfter false argv t g r c) : c = exchanges (t.entries.map declOf) argv.tail 0 0 := by
  cases htok : tokenize (t.entries.map declOf) false argv.tail with
  | none => exact absurd ((C99_same r).2 ⟨c, h⟩) (argParse_hung false t hwf argv hargs g htok r)
  | some p =>
    obtain ⟨f, h⟩ := h
    exact argParseX_exact hwf hargs h (by rw [htok]; rfl)

/-- **C99.**  When `arg_parse` returns and the command line has `n` operands, and `m` arguments that are not operands, then at most
`1 + 2 + … + n + m` exchanges have been made. -/
theorem C99_bound (hwf : WF (t.entries.map declOf)) (hargs : CArgs argv.tail) {r : Nat × Table σ × GState} {c : Nat}
    (h : ReturnsAfter env argv t g r c) {evs : List Ev} {ops : List CStr}
    (htok : tokenize (t.entries.map declOf) env argv.tail = some (evs, ops)) :
    ops.length ≤ argv.tail.length ∧ c ≤ ops.length * (ops.length + 1) / 2 + (argv.tail.length - ops.length) := by
  obtain ⟨f, h⟩ := h
  obtain ⟨-, h2, h3⟩ := argParseX_bound hwf hargs h htok
  dsimp only at h3
  exact ⟨h2, by omega⟩

/-- **C99.**  So there are never more than `1 + 2 + … + m` exchanges when there are `m` arguments behind the program's name. -/
theorem C99_square (hwf : WF (t.entries.map declOf)) (hargs : CArgs argv.tail) {r : Nat × Table σ × GState} {c : Nat}
    (h : ReturnsAfter env argv t g r c) : c ≤ argv.tail.length * (argv.tail.length + 1) / 2 := by
  cases htok : tokenize (t.entries.map declOf) env argv.tail with
  | none => exact absurd ((C99_same r).2 ⟨c, h⟩) (argParse_hung env t hwf argv hargs g htok r)
  | some p =>
    obtain ⟨f, h⟩ := h
    obtain ⟨-, h2, h3⟩ := argParseX_bound hwf hargs h htok
    dsimp only at h3
    have : p.2.length * (p.2.length + 1) + 2 * (argv.tail.length - p.2.length) ≤ argv.tail.length * (argv.tail.length + 1) := by
      obtain ⟨d, hd⟩ := Nat.exists_eq_add_of_le h2
      rw [hd, Nat.add_sub_cancel_left]
      nlinarith [Nat.zero_le (p.2.length * d), Nat.le_mul_self d]
    omega

/-- **C99.**  With POSIXLY_CORRECT, or without operands, there are none. -/
theorem C99_none (hwf : WF (t.entries.map declOf)) (hargs : CArgs argv.tail) {r : Nat × Table σ × GState} {c : Nat}
    (h : ReturnsAfter env argv t g r c) {evs : List Ev} {ops : List CStr}
    (htok : tokenize (t.entries.map declOf) env argv.tail = some (evs, ops)) (hn : env = true ∨ ops = []) : c = 0 := by
  obtain ⟨f, h⟩ := h
  exact (argParseX_bound hwf hargs h htok).1 hn

/-- **C99.**  And exactly when POSIXLY_CORRECT would make no difference: without it `arg_parse` makes no exchange if and only if the
command line reads the same with it. -/
theorem C99_zero (hwf : WF (t.entries.map declOf)) (hargs : CArgs argv.tail) {r : Nat × Table σ × GState} {c : Nat}
    (h : ReturnsAfter false argv t g r c) :
    c = 0 ↔ tokenize (t.entries.map declOf) true argv.tail = tokenize (t.entries.map declOf) false argv.tail := by
  cases htok : tokenize (t.entries.map declOf) false argv.tail with
  | none => exact absurd ((C99_same r).2 ⟨c, h⟩) (argParse_hung false t hwf argv hargs g htok r)
  | some p =>
    obtain ⟨f, h⟩ := h
    rw [← htok]
    exact argParseX_zero hwf hargs h htok

/-- **C99.**  The bound of `C99_bound` is attained: `k` operands and `k` flags in turn take exactly `1 + 2 + … + k + k` exchanges,
so the time that `arg_parse` takes is quadratic in the number of arguments. -/
theorem C99_worst (hwf : WF (t.entries.map declOf)) {prog x : CStr} {o : Char} {i k : Nat} (ho : o ≠ '-')
    (hflag : shortLookup o (t.entries.map declOf) 0 = some (i, .no)) (hx : isOperand x = true) {r : Nat × Table σ × GState} {c : Nat}
    (h : ReturnsAfter false (inTurn prog x o k) t g r c) : c = k * (k + 1) / 2 + k := by
  obtain ⟨f, h⟩ := h
  have := argParseX_worst hwf ho hflag hx h
  dsimp only at this
  rw [show k * (k + 3) = k * (k + 1) + 2 * k by ring] at this
  omega

/-! ## The hypotheses are met -/

/-- Three operands and three flags in turn: nine exchanges. -/
example : ∃ r, ReturnsAfter false (inTurn (cs "prog") (cs "x") 'a' 3) Demo.table Demo.g0 r 9 := by
  obtain ⟨r, hr, -⟩ := readsAs_of_tokenize (m := 4) (t := Demo.table) (env := false) Demo.finOK Demo.wf
    (argv := inTurn (cs "prog") (cs "x") 'a' 3) (by decide) (evs := [.deliver 0 none, .deliver 0 none, .deliver 0 none])
    (ops := [cs "x", cs "x", cs "x"]) (by decide) Demo.g0
  obtain ⟨c, hc⟩ := (C99_same r).1 hr
  obtain rfl : c = 9 := C99_worst Demo.wf (i := 0) (by decide) (by decide) (by decide) hc
  exact ⟨r, hc⟩

/-- With any number of pairs `arg_parse` returns, so that `C99_worst` speaks of command lines of any length. -/
example (k : Nat) : ∃ r, ReturnsAfter false (inTurn (cs "prog") (cs "x") 'a' k) Demo.table Demo.g0 r (k * (k + 1) / 2 + k) := by
  have ht : ∀ k, tokenize (Demo.table.entries.map declOf) false (List.replicate k [cs "x", ['-', 'a']]).flatten =
      some (List.replicate k (.deliver 0 none), List.replicate k (cs "x")) := by
    intro k
    induction k with
    | zero => rfl
    | succ k ih =>
      have h1 : ∀ rest : List CStr, tokenize (Demo.table.entries.map declOf) false ([cs "x", ['-', 'a']] ++ rest) =
          ((tokenize (Demo.table.entries.map declOf) false rest).map fun (evs, ops) => ([Ev.deliver 0 none] ++ evs, ops)).map
            fun (evs, ops) => (evs, cs "x" :: ops) := by
        intro rest
        rw [List.cons_append, tokenize, if_neg (by decide), if_pos (by decide), if_neg (by decide), List.cons_append, tokenize, if_neg (by decide),
          if_neg (by decide)]
        rfl
      rw [List.replicate_succ, List.flatten_cons, h1, ih]
      rfl
  have hargs : CArgs (inTurn (cs "prog") (cs "x") 'a' k).tail := by
    intro a ha
    simp only [inTurn, List.tail_cons, List.mem_flatten, List.mem_replicate] at ha
    obtain ⟨l, ⟨-, rfl⟩, ha⟩ := ha
    rcases List.mem_cons.1 ha with rfl | ha
    · decide
    · rcases List.mem_cons.1 ha with rfl | ha
      · decide
      · cases ha
  obtain ⟨es, errs, r, -, -, hr, -⟩ := argParse_terminates
    (lawful_live Demo.lc (A := OneMinus) (E := fun _ => False) (Or.inr fun _ h => h) (Or.inr fun _ h => h)) false Demo.table 4
    Demo.finOK Demo.wf (Demo.live _) (inTurn (cs "prog") (cs "x") 'a' k) hargs Demo.g0 (ht k)
    ⟨fun i a h => (by cases (List.mem_replicate.1 h).2; trivial), fun a h => (by
      cases (List.mem_replicate.1 h).2
      show (cs "x").count '-' ≤ 1
      decide)⟩
  obtain ⟨c, hc⟩ := (C99_same r).1 hr
  obtain rfl := C99_worst Demo.wf (i := 0) (by decide) (by decide) (by decide) hc
  exact ⟨r, hc⟩

/-- Another command line, `prog f -a -n 3 g`: at most `1 + 2 + 3` exchanges; none with POSIXLY_CORRECT. -/
example : (∃ r c, ReturnsAfter false [cs "prog", cs "f", cs "-a", cs "-n", cs "3", cs "g"] Demo.table Demo.g0 r c ∧ c ≤ 6) ∧
    ∃ r, ReturnsAfter true [cs "prog", cs "f", cs "-a", cs "-n", cs "3", cs "g"] Demo.table Demo.g0 r 0 := by
  constructor
  · obtain ⟨r, hr, -⟩ := readsAs_of_tokenize (m := 4) (t := Demo.table) (env := false) Demo.finOK Demo.wf
      (argv := [cs "prog", cs "f", cs "-a", cs "-n", cs "3", cs "g"]) (by decide) (evs := [.deliver 0 none, .deliver 2 (some (cs "3"))])
      (ops := [cs "f", cs "g"]) (by decide) Demo.g0
    obtain ⟨c, hc⟩ := (C99_same r).1 hr
    exact ⟨r, c, hc, (C99_bound Demo.wf (by decide) hc (evs := [.deliver 0 none, .deliver 2 (some (cs "3"))])
      (ops := [cs "f", cs "g"]) (by decide)).2⟩
  · obtain ⟨r, hr, -⟩ := readsAs_of_tokenize (m := 4) (t := Demo.table) (env := true) Demo.finOK Demo.wf
      (argv := [cs "prog", cs "f", cs "-a", cs "-n", cs "3", cs "g"]) (by decide) (evs := [])
      (ops := [cs "f", cs "-a", cs "-n", cs "3", cs "g"]) (by decide) Demo.g0
    obtain ⟨c, hc⟩ := (C99_same r).1 hr
    obtain rfl := C99_none Demo.wf (by decide) hc (evs := []) (ops := [cs "f", cs "-a", cs "-n", cs "3", cs "g"]) (by decide) (.inl rfl)
    exact ⟨r, hc⟩

/-- `prog -a -n 3 f g` is read as it stands, `prog f -a` is not. -/
example : (∃ r, ReturnsAfter false [cs "prog", cs "-a", cs "-n", cs "3", cs "f", cs "g"] Demo.table Demo.g0 r 0) ∧
    ∃ r c, ReturnsAfter false [cs "prog", cs "f", cs "-a"] Demo.table Demo.g0 r c ∧ c ≠ 0 := by
  constructor
  · obtain ⟨r, hr, -⟩ := readsAs_of_tokenize (m := 4) (t := Demo.table) (env := false) Demo.finOK Demo.wf
      (argv := [cs "prog", cs "-a", cs "-n", cs "3", cs "f", cs "g"]) (by decide) (evs := [.deliver 0 none, .deliver 2 (some (cs "3"))])
      (ops := [cs "f", cs "g"]) (by decide) Demo.g0
    obtain ⟨c, hc⟩ := (C99_same r).1 hr
    obtain rfl := (C99_zero Demo.wf (by decide) hc).2 (by decide)
    exact ⟨r, hc⟩
  · obtain ⟨r, hr, -⟩ := readsAs_of_tokenize (m := 4) (t := Demo.table) (env := false) Demo.finOK Demo.wf
      (argv := [cs "prog", cs "f", cs "-a"]) (by decide) (evs := [.deliver 0 none]) (ops := [cs "f"]) (by decide) Demo.g0
    obtain ⟨c, hc⟩ := (C99_same r).1 hr
    exact ⟨r, c, hc, fun h0 => absurd ((C99_zero Demo.wf (by decide) hc).1 h0) (by decide)⟩

/-- `prog f -a -n 3 g -a -- h`: `-a -n 3` is moved before `f`, then `-a --` before `f g`: eight exchanges. -/
example : ∃ r, ReturnsAfter false [cs "prog", cs "f", cs "-a", cs "-n", cs "3", cs "g", cs "-a", cs "--", cs "h"] Demo.table Demo.g0 r 8 := by
  obtain ⟨r, hr, -⟩ := readsAs_of_tokenize (m := 4) (t := Demo.table) (env := false) Demo.finOK Demo.wf
    (argv := [cs "prog", cs "f", cs "-a", cs "-n", cs "3", cs "g", cs "-a", cs "--", cs "h"]) (by decide)
    (evs := [.deliver 0 none, .deliver 2 (some (cs "3")), .deliver 0 none]) (ops := [cs "f", cs "g", cs "h"]) (by decide) Demo.g0
  obtain ⟨c, hc⟩ := (C99_same r).1 hr
  obtain rfl : c = 8 := (C99_exact Demo.wf (by decide) hc).trans (by decide)
  exact ⟨r, hc⟩

/-- Two operands and three options change places: five exchanges. -/
example : permuteArgsX 1 3 6 [0, 1, 2, 3, 4, 5, 6] = .ok ([0, 3, 4, 5, 1, 2, 6], 5) :=
  C99_blocks [0] [1, 2] [3, 4, 5] [6] (by decide) (by decide)

end Argtable
