import Verif.Proofs.RexDepth
import Verif.Proofs.RexWork
/-!
# C91 — how deep the calls of an `arg_rex` go

Compiling a pattern and matching an argument with it are done by functions that call themselves; `rexScanIn d` is the scan
function of `arg_rex` on a stack that has room for `d` nested calls of them (Model/RexDepth.lean): one more ends it, with the
outcome `.fuel`.
-/

namespace Argtable
open Spec

/-- C91.  A stack with room for as many nested calls as the pattern has characters, and one more, is enough for every pattern
that compiles, whatever the argument is and however long: nothing is different from a stack without limit. -/
theorem C91_enough {pat : CStr} (ha : ∀ c ∈ pat, 0 < c.toNat) {nodes : List RNode} (hc : rexCompile pat = .ok (some nodes)) {d : Nat}
    (hd : pat.length + 1 ≤ d) (ic : Bool) (mx : Int) (o : StrObj) (a : Option CStr) :
    rexScanIn d pat ic mx o a = rexScan pat ic mx o a ∧ rexScan pat ic mx o a ≠ .error .fuel := by
  obtain ⟨r, hok, rfl⟩ := rexCompile_inv ha hc
  obtain ⟨hnf, hlen⟩ := rexCompileIn_tree hok hd
  have heq : rexCompileIn d r.text = rexCompile r.text := by
    rw [← rexCompileIn_eq]
    refine Agrees.both (f := fun d => rexCompileIn d r.text) (fun d e h => rexCompileIn_agrees _ h) hnf ?_
    rw [rexCompileIn_eq, hc]
    nofun
  have hn := hlen nodes (by rw [heq, hc])
  have hm : ∀ t, rexMatchIn d nodes ic t = rexMatch nodes ic t := fun t =>
    rexMatchIn_room hc ic t (by have := re_size_le r; omega)
  unfold rexScanIn rexScan
  split
  · exact ⟨rfl, nofun⟩
  · cases a with
    | none => exact ⟨rfl, nofun⟩
    | some t =>
      dsimp only
      rw [heq, hc, bind_ok]
      dsimp only
      rw [hm]
      refine ⟨rfl, ?_⟩
      have h := rexMatch_not_fuel ic t hc
      rw [bind_ok]
      dsimp only
      cases hx : rexMatch nodes ic t with
      | error e =>
        rw [hx] at h
        rw [bind_err]
        exact fun he => h (by cases he; rfl)
      | ok b =>
        rw [bind_ok]
        cases b with
        | false => nofun
        | true =>
          rw [if_pos rfl]
          unfold storeAt
          split <;> nofun

/-- C91.  For any pattern, also one that is rejected, twice its length and two is enough for reading it. -/
theorem C91_any (pat : CStr) {d : Nat} (hd : 2 * pat.length + 2 ≤ d) :
    rexCompileIn d pat = rexCompile pat ∧ rexCompile pat ≠ .error .fuel :=
  ⟨rexCompileIn_room pat hd, rexCompile_not_fuel pat⟩

/-- C91.  The first bound is exact: `((…(a)…))` with `k` pairs of parentheses, `2k + 1` characters, needs room for `2k + 2` calls. -/
theorem C91_exact (k d : Nat) (ic : Bool) (mx : Int) (o : StrObj) (hroom : (o.count : Int) ≠ mx) (a : CStr) :
    (nested k).text.length = 2 * k + 1 ∧ (rexScanIn d (nested k).text ic mx o (some a) = .error .fuel ↔ d ≤ 2 * k + 1) := by
  have hlen : (nested k).text.length = 2 * k + 1 := by rw [nested_text]; simp; omega
  refine ⟨hlen, fun h => ?_, fun h => ?_⟩
  · by_contra hd
    obtain ⟨hok, hfit, -⟩ := nested_ok k
    rcases rexCompile_rep (E := False) hok (Or.inr (hfit 1)) with ⟨h, _⟩ | ⟨-, nodes, -, -, hc, -⟩
    · exact h.elim
    · have ha : ∀ c ∈ (nested k).text, 0 < c.toNat := by
        intro c hc
        rw [nested_text, List.mem_append, List.mem_cons] at hc
        rcases hc with hc | rfl | hc
        · rw [List.eq_of_mem_replicate hc]; decide
        · decide
        · rw [List.eq_of_mem_replicate hc]; decide
      obtain ⟨h1, h2⟩ := C91_enough ha hc (d := d) (by omega) ic mx o (some a)
      rw [h1] at h
      exact h2 h
  · unfold rexScanIn
    rw [if_neg hroom]
    dsimp only
    rw [nested_text, rexCompileIn_deep (by simp) (by simp) (by omega)]
    rfl

/-- C91.  So is the second: a pattern that begins with `k` opening parentheses needs room for at least `2k + 2` calls, and
`k` opening parentheses alone are a pattern of length `k`. -/
theorem C91_unclosed (k d : Nat) (hk : 0 < k) : rexCompileIn d (List.replicate k '(') = .error .fuel ↔ d ≤ 2 * k + 1 := by
  constructor
  · intro h
    by_contra hd
    obtain ⟨h1, h2⟩ := C91_any (List.replicate k '(') (d := d) (by simp; omega)
    rw [h1] at h
    exact h2 h
  · intro h
    have := rexCompileIn_deep (k := k) (d := d) (rest := []) (by cases k <;> simp_all [List.replicate_succ]) (by simp) (by omega)
    rwa [List.append_nil] at this

/-- C91.  Matching alone: there is room for it if there is room for one call for each node of the compiled pattern, of which there
are at most as many as the pattern has characters, and one. -/
theorem C91_match {pat : CStr} (ha : ∀ c ∈ pat, 0 < c.toNat) {nodes : List RNode} (hc : rexCompile pat = .ok (some nodes)) :
    nodes.length ≤ pat.length + 1 ∧ ∀ d, nodes.length ≤ d → ∀ (ic : Bool) (text : CStr),
      rexMatchIn d nodes ic text = rexMatch nodes ic text ∧ rexMatch nodes ic text ≠ .error .fuel := by
  obtain ⟨r, hok, rfl⟩ := rexCompile_inv ha hc
  have h1 := (rexCompileIn_tree hok (d := 2 * r.text.length + 2) (by omega)).2 nodes hc
  exact ⟨by have := re_size_le r; omega, fun d hd ic text => ⟨rexMatchIn_room hc ic text hd, rexMatch_not_fuel ic text hc⟩⟩

/-- C91.  And for some patterns no less will do, whatever the text: `((…(a)…))` has `k + 2` nodes for `k` pairs of parentheses. -/
theorem C91_match_exact (k d : Nat) {nodes : List RNode} (hc : rexCompile (nested k).text = .ok (some nodes)) (ic : Bool) (text : CStr) :
    nodes.length = k + 2 ∧ (rexMatchIn d nodes ic text = .error .fuel ↔ d < nodes.length) := by
  obtain ⟨hok, hfit, hsz⟩ := nested_ok k
  have h1 := (rexCompileIn_tree hok (d := 2 * (nested k).text.length + 2) (by omega)).2 nodes hc
  refine ⟨by omega, fun h => ?_, fun h => rexMatchIn_deep hc ic text (by omega)⟩
  by_contra hd
  have h2 := rexMatchIn_room hc ic text (d := d) (by omega)
  rw [h2] at h
  exact rexMatch_not_fuel ic text hc h

/-! ### satisfiability -/

/-- The pattern `(a|b)*c` compiles; seven characters, so eight calls are enough, for every argument. -/
example (a : CStr) : rexScanIn 8 (cs "(a|b)*c") false 3 ⟨0, [[], [], []]⟩ (some a) =
    rexScan (cs "(a|b)*c") false 3 ⟨0, [[], [], []]⟩ (some a) := by
  obtain ⟨nodes, h⟩ : ∃ nodes, rexCompile (cs "(a|b)*c") = .ok (some nodes) := ⟨_, rfl⟩
  exact (C91_enough (by decide) h (by decide) _ _ _ _).1

/-- With room for three calls it cannot even be read; with room for eight, `abc` is accepted. -/
example : (rexScanIn 3 (cs "(a|b)*c") false 3 ⟨0, [[], [], []]⟩ (some (cs "abc"))).toOption = none ∧
    ((rexScanIn 8 (cs "(a|b)*c") false 3 ⟨0, [[], [], []]⟩ (some (cs "abc"))).toOption.map fun r => (r.1.count, r.2)) = some (1, 0) := by
  decide +kernel

/-- Four pairs of parentheses: nine characters, ten calls. -/
example (o : StrObj) (ho : (o.count : Int) ≠ 3) : rexScanIn 9 (cs "((((a))))") false 3 o (some (cs "a")) = .error .fuel :=
  (C91_exact 4 9 false 3 o ho (cs "a")).2.2 (by decide)

end Argtable
