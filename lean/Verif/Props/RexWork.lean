import Verif.Proofs.RexWork
/-!
# C88 — how much work an `arg_rex` does

The work is counted in calls of the function that matches a node of the compiled pattern (`trex_matchnode`); `rexScanN` is
the scan function of `arg_rex` with this counter (Model/RexWork.lean).
-/

namespace Argtable
open Spec

/-- C88.  Counting does not change what `arg_rex` does with an argument. -/
theorem C88_same (pat : CStr) (ic : Bool) (mx : Int) (o : StrObj) (a : Option CStr) :
    (rexScanN pat ic mx o a).out = rexScan pat ic mx o a := rexScanN_out pat ic mx o a

/-- C88.  An argument is checked in at most as many calls as the pattern has characters, plus one, times the number of
tries: the product, over the repetitions of the pattern, of how often each can be tried, plus one. -/
theorem C88_calls {r : Re} (hok : r.Ok) (ic : Bool) (mx : Int) (o : StrObj) (a : CStr) :
    (rexScanN r.text ic mx o (some a)).calls ≤ r.tries a.length * (r.text.length + 1) :=
  rexScanN_calls _ ic mx o a fun _ hc => Nat.le_trans (rexMatchN_calls hok hc ic a)
    (Nat.mul_le_mul_left _ (Nat.succ_le_succ (re_size_le r)))

/-- C88.  If nothing that may be empty is repeated, the work is a polynomial in the length of the argument, whose degree is
the number of repetitions. -/
theorem C88_brisk {r : Re} (hok : r.Ok) (hb : r.Brisk) (ic : Bool) (mx : Int) (o : StrObj) (a : CStr) :
    (rexScanN r.text ic mx o (some a)).calls ≤ (a.length + 2) ^ r.reps * (r.text.length + 1) :=
  Nat.le_trans (C88_calls hok ic mx o a) (Nat.mul_le_mul_right _ (re_brisk_le _ r hb))

/-- C88.  A pattern without the characters `*`, `+`, `?` and `{` takes at most one call for each of its characters and one
more, however long the argument is. -/
theorem C88_linear {pat : CStr} (ha : ∀ c ∈ pat, 0 < c.toNat) (h : repeaters pat = 0) (ic : Bool) (mx : Int) (o : StrObj) (a : CStr) :
    (rexScanN pat ic mx o (some a)).calls ≤ pat.length + 1 := by
  refine rexScanN_calls _ ic mx o a fun nodes hc => ?_
  obtain ⟨r, hok, rfl⟩ := rexCompile_inv ha hc
  have h0 : r.reps = 0 := Nat.le_zero.1 (h ▸ re_reps_le r)
  have h1 := re_tries_le a.length r hok
  rw [h0, Nat.pow_zero] at h1
  exact Nat.le_trans (rexMatchN_calls hok hc ic a) (Nat.le_trans (Nat.mul_le_mul h1 (Nat.succ_le_succ (re_size_le r))) (by omega))

/-- C88.  For every pattern there is a bound that does not depend on the argument at all: each of the characters `*`, `+`,
`?` and `{` multiplies the work by at most 65537. -/
theorem C88_always {pat : CStr} (ha : ∀ c ∈ pat, 0 < c.toNat) (ic : Bool) (mx : Int) (o : StrObj) (a : CStr) :
    (rexScanN pat ic mx o (some a)).calls ≤ 65537 ^ repeaters pat * (pat.length + 1) := by
  refine rexScanN_calls _ ic mx o a fun nodes hc => ?_
  obtain ⟨r, hok, rfl⟩ := rexCompile_inv ha hc
  have h1 := Nat.le_trans (re_tries_le a.length r hok) (Nat.pow_le_pow_right (by omega) (re_reps_le r))
  exact Nat.le_trans (rexMatchN_calls hok hc ic a) (Nat.mul_le_mul h1 (Nat.succ_le_succ (re_size_le r)))

/-- C88.  Such work is really done: the pattern `(((a*)*)*…)*` with `k` pairs of parentheses, which has `3k + 2` characters, makes
at least 65536^k calls for the argument `b`, of one character (to say that it does not match). -/
theorem C88_blowup (k : Nat) (ic : Bool) (mx : Int) (o : StrObj) (hroom : (o.count : Int) ≠ mx) :
    (starred k).text.length = 3 * k + 2 ∧ 65536 ^ k ≤ (rexScanN (starred k).text ic mx o (some (cs "b"))).calls := by
  constructor
  · induction k with
    | zero => rfl
    | succ k ih =>
      have : (starred (k + 1)).text = '(' :: ((starred k).text ++ cs ")*") := by
        show (Re.branch false (.last (.group true (starred k)) .star)).text = _
        rw [Re.text, Elems.text, Atom.text]
        simp [Quant.text, cs]
      rw [this, List.length_cons, List.length_append, ih]
      rfl
  · obtain ⟨nodes, hc, h⟩ := rexMatchN_starred k ic
    unfold rexScanN
    rw [if_neg hroom]
    dsimp only
    rw [free_bind hc]
    dsimp only
    rw [Nat.zero_add]
    exact Nat.le_trans h (Counted.le_bind_calls _ _)

/-- C88.  The degree of the polynomial in `C88_brisk` cannot be improved: the pattern `a*(a*(…(b)))` with `k` stars repeats nothing
that may be empty, and for an argument of `n` times `a` it makes at least as many calls as there are sets of `k` things among
`n`. -/
theorem C88_degree (k : Nat) (ic : Bool) (mx : Int) (o : StrObj) (hroom : (o.count : Int) ≠ mx) {n : Nat} (hn : n ≤ 65535) :
    (stars k).Ok ∧ (stars k).Brisk ∧ (stars k).reps = k ∧
      Nat.choose n k ≤ (rexScanN (stars k).text ic mx o (some (List.replicate n 'a'))).calls := by
  refine ⟨(stars_ok k).1, (stars_brisk k).1, (stars_brisk k).2, ?_⟩
  obtain ⟨nodes, hc, h⟩ := rexMatchN_stars k ic hn
  unfold rexScanN
  rw [if_neg hroom]
  dsimp only
  rw [free_bind hc]
  dsimp only
  rw [Nat.zero_add]
  exact Nat.le_trans h (Counted.le_bind_calls _ _)

/-! ### examples -/

/-- The pattern `([a-z]+,)*[a-z]+` repeats nothing that may be empty; it has three repetitions. -/
def list88 : Re := .branch false (.more (.group true (.branch false
  (.more (.set false (.range (.plain 'a') (.plain 'z')) []) .plus (.last (.chr (.plain ',')) .once)))) .star
  (.last (.set false (.range (.plain 'a') (.plain 'z')) []) .plus))

example : list88.text = cs "([a-z]+,)*[a-z]+" := by
  simp only [list88, Re.text, Elems.text, Atom.text]
  decide

theorem list88_ok : list88.Ok := by
  simp only [list88, Re.Ok, Elems.Ok, Atom.Ok, Elems.text, Atom.text, Re.text, Quant.Ok, Lit.Ok, Opens, Continues, Separate]
  decide

theorem list88_brisk : list88.Brisk ∧ list88.reps = 3 := by
  simp [list88, Re.Brisk, Elems.Brisk, Atom.Brisk, Atom.Eats, Re.Eats, Elems.Eats, Quant.Allows, Re.reps, Elems.reps, Atom.reps, Quant.size]

example (ic : Bool) (mx : Int) (o : StrObj) (a : CStr) :
    (rexScanN list88.text ic mx o (some a)).calls ≤ (a.length + 2) ^ 3 * (list88.text.length + 1) := by
  have := C88_brisk list88_ok list88_brisk.1 ic mx o a
  rwa [list88_brisk.2] at this

example (a : CStr) : (rexScanN (cs "^(yes|no)$") true 1 ⟨0, [[]]⟩ (some a)).calls ≤ 11 :=
  C88_linear (by decide) (by decide) true 1 ⟨0, [[]]⟩ a

/-- Three pairs of parentheses, eleven characters: more than 2^48 calls. -/
example : (starred 3).text = cs "(((a*)*)*)*" ∧ 2 ^ 48 ≤ (rexScanN (starred 3).text false 1 ⟨0, [[]]⟩ (some (cs "b"))).calls := by
  refine ⟨?_, Nat.le_trans (by norm_num) (C88_blowup 3 false 1 ⟨0, [[]]⟩ (by decide)).2⟩
  simp only [starred, Re.text, Elems.text, Atom.text]
  decide

/-- Two stars and an argument of 60000 characters: more than 10^9 calls. -/
example : (stars 2).text = cs "a*(a*(b))" ∧
    10 ^ 9 ≤ (rexScanN (stars 2).text false 1 ⟨0, [[]]⟩ (some (List.replicate 60000 'a'))).calls := by
  refine ⟨?_, Nat.le_trans (by rw [Nat.choose_two_right]; norm_num) (C88_degree 2 false 1 ⟨0, [[]]⟩ (by decide) (by norm_num)).2.2.2⟩
  simp only [stars, Re.text, Elems.text, Atom.text]
  decide

end Argtable
