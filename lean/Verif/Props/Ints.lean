import Verif.Proofs.ParseInt
import Verif.Props.Getopt
import Verif.Props.Parse
/-!
# C86: the `int` variables
-/

namespace Argtable

open Spec

/-- One call of `getopt`, `getopt_long` or `getopt_long_only`, where all variables are `int`s of 32 bits: with fewer than `INT_MAX` arguments and
at most `INT_MAX` long options no operation overflows and no index is out of range.  The code returned, the variables, the messages and
the vector are those of the description with unbounded numbers (`Fn.call`, which C67 is about), and are again as the next call needs them. -/
theorem C86_getopt (fn : Getopt.Fn) (env : Bool) (optstring : CStr) (idx : Bool) {i : IntState} {g : GState} (h : SameInts i g) {argc : Nat}
    (ho : InOrder argc g) (h1 : 1 ≤ argc) (hargc : argc < 2147483647) (hl : (fn.longs.getD []).length ≤ 2147483647) {r : Int} {g' : GState}
    (hr : fn.call env argc optstring g = .ok (r, g')) :
    ∃ i', fn.callInt env argc optstring idx i = .ok (r, i') ∧ SameInts i' g' ∧ InOrder argc g' := by
  cases fn with
  | getopt =>
    obtain ⟨i', e1, e2, e3, _⟩ := getoptInternal_int (idx := false) (longs := none) h ho h1 hargc env hl (.inl ⟨rfl, rfl, rfl⟩) hr
    exact ⟨i', e1, e2, e3⟩
  | getoptLong longs =>
    obtain ⟨i', e1, e2, e3, _⟩ := getoptInternal_int (idx := idx) (longs := some longs) h ho h1 hargc env hl (.inr (.inl ⟨rfl, rfl, rfl⟩)) hr
    exact ⟨i', e1, e2, e3⟩
  | getoptLongOnly longs =>
    obtain ⟨i', e1, e2, e3, _⟩ := getoptInternal_int (idx := idx) (longs := some longs) h ho h1 hargc env hl (.inr (.inr ⟨rfl, rfl, rfl⟩)) hr
    exact ⟨i', e1, e2, e3⟩

theorem loop_int (fn : Getopt.Fn) (env : Bool) (optstring : CStr) (idx : Bool) {argc : Nat} (h1 : 1 ≤ argc) (hargc : argc < 2147483647)
    (hl : (fn.longs.getD []).length ≤ 2147483647) : ∀ (n : Nat) (i : IntState) (g : GState) (l : List Getopt.Obs) (gf : GState), SameInts i g →
      InOrder argc g → Getopt.loop (fn.call env argc optstring) n g = .ok (l, gf) →
      ∃ f, loopInt (fn.callInt env argc optstring idx) n i = .ok (l, f) ∧ SameInts f gf
  | 0, _, _, _, _, _, _, hr => by cases hr
  | n + 1, i, g, l, gf, h, ho, hr => by
    rw [Getopt.loop] at hr
    rw [loopInt]
    obtain ⟨⟨r, g1⟩, e1, hr⟩ := mbind_ok_inv hr
    obtain ⟨i1, f1, f2, f3⟩ := C86_getopt fn env optstring idx h ho h1 hargc hl e1
    rw [f1, bind_ok]
    simp only at hr ⊢
    by_cases hc : r = -1
    · rw [if_pos hc] at hr
      rw [if_pos hc]
      cases hr
      exact ⟨i1, rfl, f2⟩
    · rw [if_neg hc] at hr
      rw [if_neg hc]
      obtain ⟨⟨l1, gf1⟩, e2, hr⟩ := mbind_ok_inv hr
      cases hr
      obtain ⟨f, u1, u2⟩ := loop_int fn env optstring idx h1 hargc hl n i1 g1 l1 _ f2 f3 e2
      rw [u1, bind_ok]
      refine ⟨f, ?_, u2⟩
      unfold seeInt Getopt.see
      rw [f2.optarg, f2.optopt, f2.getoptval, f2.stderr]
      rfl

/-- The whole loop of a program with `int` variables: what C67 says, for fewer than `INT_MAX` arguments. -/
theorem C86_loop (fn : Getopt.Fn) (env : Bool) (optstring : CStr) (hff : '\xff' ∉ Getopt.bare optstring) (idx : Bool) {i : IntState} {g : GState}
    (h : SameInts i g) (hfresh : Getopt.Fresh g) {prog args : List CStr} (hv : g.nargv = prog ++ args) (hi : prog.length = Getopt.first g)
    (hargc : g.nargv.length < 2147483647) (hl : (fn.longs.getD []).length ≤ 2147483647) {fs : List Getopt.Found} {ops : List CStr}
    (hr : Getopt.readArgs fn (Getopt.posix env g) (Getopt.bare optstring) (fn.operands (Getopt.posix env g) optstring) 0 args = some (fs, ops))
    (n : Nat) (hn : fs.length < n) :
    ∃ f, loopInt (fn.callInt env g.nargv.length optstring idx) n i =
        .ok (Getopt.trace (Getopt.bare optstring) g.opterr (Getopt.see 0 g) fs, f) ∧
      ∃ opts, f.nargv = prog ++ opts ++ ops ∧ f.optind = (prog ++ opts).length ∧ opts.Sublist args ∧ (opts ++ ops).Perm args := by
  obtain ⟨gf, e1, _, ⟨opts, e3, e4, e5⟩, _⟩ := C67_loop fn env optstring hff hfresh hv hi hr n hn
  have hfirst : Getopt.first g ≠ 0 ∧ (g.optind ≠ 0 → Getopt.first g = g.optind) := by
    unfold Getopt.first
    split
    · exact ⟨by decide, fun hh => absurd (by assumption) hh⟩
    · exact ⟨by assumption, fun _ => rfl⟩
  have hlen : g.nargv.length = prog.length + args.length := by rw [hv, List.length_append]
  have ho : InOrder g.nargv.length g := by
    refine ⟨rfl, ?_, fun h1 h2 h3 => ?_, fun h1 h2 => ?_, fun h1 h2 => ?_⟩
    · by_cases h0 : g.optind = 0
      · omega
      · have := hfirst.2 h0; omega
    all_goals
      rcases hfresh with hf | hf | ⟨f1, f2, f3⟩
      · exact absurd hf h2
      · rw [h1] at hf; cases hf
    · exact absurd f1 h3
    · intro b hb; rw [f2] at hb; cases hb
    · intro b hb; rw [f3] at hb; cases hb
  obtain ⟨f, u1, u2⟩ := loop_int fn env optstring idx (by omega) hargc hl n i g _ gf h ho e1
  exact ⟨f, u1, opts, by rw [u2.nargv]; exact e3, by rw [u2.optind, e4], e5⟩

/-- `*idx`: if `getopt_long` or `getopt_long_only` returns a code that is not -1, `?`, `:`, 1 or a character of the option string, then it
is for the long option with this index: its value is the code, or it was stored and the code is 0. -/
theorem C86_idx {fn : Getopt.Fn} (hfn : fn ≠ .getopt) (env : Bool) (optstring : CStr) {i : IntState} {g : GState} (h : SameInts i g) {argc : Nat}
    (ho : InOrder argc g) (h1 : 1 ≤ argc) (hargc : argc < 2147483647) (hl : (fn.longs.getD []).length ≤ 2147483647) {r : Int} {g' : GState}
    (hr : fn.call env argc optstring g = .ok (r, g')) (hcode : r ∉ [-1, charInt '?', charInt ':', 1]) (hletter : ∀ c ∈ optstring, r ≠ charInt c) :
    ∃ (i' : IntState) (k : Nat) (l : LongOpt), fn.callInt env argc optstring true i = .ok (r, i') ∧ i'.idx = k ∧ (fn.longs.getD [])[k]? = some l ∧
      (if l.flag then r = 0 ∧ i'.getoptval = l.val else r = l.val) := by
  have key : ∃ i', fn.callInt env argc optstring true i = .ok (r, i') ∧ SameInts i' g' ∧
      IdxEnd (Getopt.bare optstring) (fn.longs.getD []) true i r i' g' := by
    cases fn with
    | getopt => exact absurd rfl hfn
    | getoptLong longs =>
      obtain ⟨i', e1, e2, _, e4⟩ := getoptInternal_int (idx := true) (longs := some longs) h ho h1 hargc env hl (.inr (.inl ⟨rfl, rfl, rfl⟩)) hr
      exact ⟨i', e1, e2, e4⟩
    | getoptLongOnly longs =>
      obtain ⟨i', e1, e2, _, e4⟩ := getoptInternal_int (idx := true) (longs := some longs) h ho h1 hargc env hl (.inr (.inr ⟨rfl, rfl, rfl⟩)) hr
      exact ⟨i', e1, e2, e4⟩
  obtain ⟨i', e1, e2, e3⟩ := key
  rcases e3 with ⟨k, l, w1, w2, w3⟩ | ⟨_, w⟩
  · exact ⟨i', k, l, e1, w2, w1, by rw [e2.getoptval]; simpa using w3⟩
  · exfalso
    simp only [List.mem_cons, List.not_mem_nil, or_false, not_or] at hcode
    rcases w with w | w | w | w | ⟨c, hc, w⟩
    · exact hcode.1 w
    · exact hcode.2.1 w
    · unfold BADARG at w
      split at w
      · exact hcode.2.2.1 w
      · exact hcode.2.1 w
    · exact hcode.2.2.2 w
    · refine hletter c ?_ w
      unfold Getopt.bare at hc
      split at hc
      · exact List.mem_of_mem_tail hc
      · exact hc

/-- `arg_parse` with `int` variables: for fewer than `INT_MAX` arguments, table entries and characters in all long option strings together, no
operation overflows and no index is out of range, and the results are those of the description with unbounded numbers. -/
theorem C86_parse {σ : Type} {i : IntState} {g : GState} (h : SameInts i g) {env : Bool} {fuel : Nat} {argv : List CStr}
    (hargc : argv.length < 2147483647) {t : Table σ} (hl : t.entries.length < 2147483647)
    (hs : (t.entries.map fun h => (h.longopts.getD []).length).sum < 2147483647) {r : Nat} {t' : Table σ} {g' : GState}
    (hr : argParse env fuel argv t g = .ok (r, t', g')) :
    ∃ i', argParseInt env fuel argv t i = .ok (r, t', i') ∧ SameInts i' g' :=
  argParse_int h hargc hl hs hr

/-- With `INT_MAX` arguments `argc + 1` overflows. -/
theorem C86_limit {σ : Type} (i : IntState) (env : Bool) (fuel : Nat) {argv : List CStr} (hargc : argv.length = 2147483647) {t : Table σ}
    (hl : t.entries.length < 2147483647) {es : List (Hdr σ)} (hr : resetEntries t.entries = .ok es) :
    argParseInt env fuel argv t i = .error (.ub "signed overflow") := by
  have h3 := reset_int (t.entries.length + 1) [] t.entries es rfl (by simpa using hl) hr
  simp only [List.length_nil, Nat.cast_zero, List.nil_append] at h3
  unfold argParseInt
  rw [h3, bind_ok, int32_ok (by omega) (by omega), bind_ok, if_neg (by omega), hargc]
  rfl

/-! ### Examples -/

/-- `int` variables for every description. -/
def i86 (g : GState) : IntState :=
  { optind := g.optind, opterr := if g.opterr then 1 else 0, optopt := g.optopt, optreset := if g.optreset then 1 else 0, optarg := g.optarg,
    place := g.place, nonoptStart := orMinusOne g.nonoptStart, nonoptEnd := orMinusOne g.nonoptEnd, dashPrefix := 0,
    posixly := match g.posixly with | none => -1 | some true => 1 | some false => 0, getoptval := g.getoptval, idx := 77, nargv := g.nargv,
    stderr := g.stderr }

theorem i86_same (g : GState) : SameInts (i86 g) g := by
  constructor <;> try rfl
  · unfold i86; cases g.opterr <;> simp
  · unfold i86; cases g.optreset <;> simp
  · unfold i86
    rcases g.posixly with _ | _ | _ <;> simp
  · intro b hb
    unfold i86
    rw [hb]
    cases b <;> simp

/-- `getopt_long` with the options of `longs67`: two operands are moved behind the options, and the codes are those of C67. -/
example : ∃ f, loopInt (Getopt.Fn.callInt (.getoptLong longs67) false 7 (cs "ab:") true) 9
      (i86 (g67 ["prog", "one", "--fi=x", "-ab", "val", "two", "--alp"])) =
    .ok ([⟨102, some (cs "x"), 63, 0, []⟩, ⟨97, none, 63, 0, []⟩, ⟨98, some (cs "val"), 63, 0, []⟩, ⟨0, none, 63, 7, []⟩], f) ∧
    f.optind = 5 ∧ f.nargv = ["prog", "--fi=x", "-ab", "val", "--alp", "one", "two"].map cs := by
  obtain ⟨f, h, opts, h1, h2, h3, h4⟩ := C86_loop (.getoptLong longs67) false (cs "ab:") (by decide) true (i86_same _)
    (g67_fresh ["prog", "one", "--fi=x", "-ab", "val", "two", "--alp"]) (prog := [cs "prog"])
    (args := ["one", "--fi=x", "-ab", "val", "two", "--alp"].map cs) rfl rfl (by decide) (by decide)
    (fs := [.long ⟨cs "file", 1, false, 'f'.toNat⟩ (some (cs "x")), .short 'a' none, .short 'b' (some (cs "val")), .long ⟨cs "alpha", 0, true, 7⟩ none])
    (ops := ["one", "two"].map cs) (by decide +kernel) 9 (by decide)
  refine ⟨f, h, ?_⟩
  have hf := congrArg (fun x => x.toOption.map fun y => (y.2.optind, y.2.nargv)) h
  simp only [Except.toOption, Option.map_some] at hf
  have hk : ((loopInt (Getopt.Fn.callInt (.getoptLong longs67) false 7 (cs "ab:") true) 9
      (i86 (g67 ["prog", "one", "--fi=x", "-ab", "val", "two", "--alp"]))).toOption.map fun y => (y.2.optind, y.2.nargv)) =
      some (5, ["prog", "--fi=x", "-ab", "val", "--alp", "one", "two"].map cs) := by decide +kernel
  have := hf.symm.trans hk
  simpa using this

/-- `--alp`: the code is 0, the stored value is 7 and `*idx` is 1. -/
example : ∃ i', Getopt.Fn.callInt (.getoptLong longs67) false 2 (cs "ab:") true (i86 (g67 ["prog", "--alp"])) = .ok (0, i') ∧ i'.idx = 1 ∧
    i'.getoptval = 7 := by
  have hr : ∃ g', Getopt.Fn.call (.getoptLong longs67) false 2 (cs "ab:") (g67 ["prog", "--alp"]) = .ok (0, g') :=
    ⟨{ g67 ["prog", "--alp"] with optind := 2, posixly := some false, getoptval := 7 }, by decide +kernel⟩
  obtain ⟨g', hr⟩ := hr
  have ho : InOrder 2 (g67 ["prog", "--alp"]) := by
    refine ⟨rfl, by decide, fun _ _ h => absurd rfl h, fun _ _ _ h => (by cases h), fun _ _ _ h => (by cases h)⟩
  obtain ⟨i', k, l, e1, e2, e3, e4⟩ := C86_idx (fn := .getoptLong longs67) (by simp) false (cs "ab:") (i86_same _) ho (by decide) (by decide)
    (by decide) hr (by decide) (by decide)
  refine ⟨i', e1, ?_⟩
  match k, e3 with
  | 0, e3 => cases e3; exact absurd e4 (by simp)
  | 1, e3 => cases e3; exact ⟨e2, e4.2⟩
  | 2, e3 => cases e3; exact absurd e4 (by simp)
  | 3, e3 => cases e3; exact absurd e4 (by simp)

/-- `arg_parse` on a command line with operands between the options, and variables left by an earlier use of getopt. -/
example : ∃ fuel r, argParseInt false fuel [cs "prog", cs "-a", cs "file1", cs "-vn", cs "3", cs "file2"] Demo.table (i86 Demo.g0) = .ok r ∧
    r.1 = 0 ∧ r.2.1.entries.map (fun h => h.parent.count) = [1, 1, 1, 0, 0, 0, 2] := by
  obtain ⟨⟨n, t', g'⟩, ⟨fuel, hr⟩, hs⟩ := readsAs_of_tokenize (t := Demo.table) (env := false) Demo.finOK Demo.wf
    (argv := [cs "prog", cs "-a", cs "file1", cs "-vn", cs "3", cs "file2"]) (by decide)
    (evs := [.deliver 0 none, .deliver 1 none, .deliver 2 (some (cs "3"))]) (ops := [cs "file1", cs "file2"]) (by decide) Demo.g0
  obtain ⟨i', e, _⟩ := C86_parse (i86_same Demo.g0) (by decide) (by decide) (by decide) hr
  exact ⟨fuel, _, e, hs.ret, by rw [hs.entries]; rfl⟩

/-- There are such command lines. -/
example (fuel : Nat) : argParseInt false fuel (List.replicate 2147483647 (cs "x")) Demo.table (i86 Demo.g0) = .error (.ub "signed overflow") :=
  C86_limit _ false fuel List.length_replicate (by decide) (es := Demo.table.entries) rfl

end Argtable
