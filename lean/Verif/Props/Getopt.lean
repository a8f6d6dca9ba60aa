import Verif.Proofs.GetoptAny
/-!
# C67: the getopt functions
-/

namespace Argtable

open Spec.Getopt

/-- A program calls `getopt`, `getopt_long` or `getopt_long_only` until -1 is returned, with any option string, any long
options and any argument vector.  If the description `readArgs` of the arguments after the program name has an end, the
loop makes exactly one call more than there are results; after each call the program sees the described code, `optarg`,
`optopt`, stored value and messages; and afterwards the operands `ops` are at the end of the vector, starting at `optind`.
The other arguments are in their old order, nothing is lost, and unless operands are to be moved the vector is unchanged. -/
theorem C67_loop (fn : Fn) (env : Bool) (optstring : CStr) (hff : '\xff' ∉ bare optstring) {g : GState} (hfresh : Fresh g)
    {prog args : List CStr} (hv : g.nargv = prog ++ args) (hi : prog.length = first g) {fs : List Found} {ops : List CStr}
    (hr : readArgs fn (posix env g) (bare optstring) (fn.operands (posix env g) optstring) 0 args = some (fs, ops)) (n : Nat) (hn : fs.length < n) :
    ∃ gf, loop (fn.call env g.nargv.length optstring) n g = .ok (trace (bare optstring) g.opterr (see 0 g) fs, gf) ∧
      see 0 gf = { last (bare optstring) g.opterr (see 0 g) fs with code := 0, optarg := none } ∧
      (∃ opts, gf.nargv = prog ++ opts ++ ops ∧ gf.optind = (prog ++ opts).length ∧ opts.Sublist args ∧ (opts ++ ops).Perm args) ∧
      (fn.operands (posix env g) optstring ≠ .moved → gf.nargv = g.nargv) := by
  have h0 : prog ≠ [] := by
    rintro rfl
    unfold first at hi
    split at hi
    · cases hi
    · next h => exact h hi.symm
  have ht := todo_started (fn := fn) (px := posix env g) (opts := bare optstring) (mode := fn.operands (posix env g) optstring) env hv hi hfresh
  rw [hr] at ht
  have hpx : (started env g).posixly = some (posix env g) := by
    unfold started posix; split <;> rfl
  have hsame : (started env g).nargv = g.nargv ∧ (started env g).opterr = g.opterr ∧ see 0 (started env g) = see 0 g := by
    unfold started; split <;> exact ⟨rfl, rfl, rfl⟩
  obtain ⟨gf, e1, e2, e3⟩ := loop_any env hff h0 fs 0 hpx ht n hn
  rw [hsame.1, hsame.2.1, hsame.2.2, ← loop_started] at e1
  rw [hsame.2.1, hsame.2.2] at e3
  refine ⟨gf, e1, e3, ?_, fun hm => by rw [hv]; exact e2.still hm⟩
  obtain ⟨Y, y1, y2, y3⟩ := e2.split
  refine ⟨Y, y1, y2, y3, ?_⟩
  have := e2.perm
  rw [y1, List.append_assoc] at this
  exact (List.perm_append_left_iff prog).1 this

/-- If the description has no end, the loop never ends: after any number of calls -1 has not been returned. -/
theorem C67_hangs (fn : Fn) (env : Bool) (optstring : CStr) (hff : '\xff' ∉ bare optstring) {g : GState} (hfresh : Fresh g)
    {prog args : List CStr} (hv : g.nargv = prog ++ args) (hi : prog.length = first g)
    (hr : readArgs fn (posix env g) (bare optstring) (fn.operands (posix env g) optstring) 0 args = none) (n : Nat) :
    loop (fn.call env g.nargv.length optstring) n g = .error .fuel := by
  have h0 : prog ≠ [] := by
    rintro rfl
    unfold first at hi
    split at hi
    · cases hi
    · next h => exact h hi.symm
  have ht := todo_started (fn := fn) (px := posix env g) (opts := bare optstring) (mode := fn.operands (posix env g) optstring) env hv hi hfresh
  rw [hr] at ht
  have hpx : (started env g).posixly = some (posix env g) := by
    unfold started posix; split <;> rfl
  have hsame : (started env g).nargv = g.nargv := by
    unfold started; split <;> rfl
  have := loop_hang env hff h0 n hpx ht
  rw [hsame, ← loop_started] at this
  exact this

/-- `getopt` itself always comes to an end, and never changes the vector. -/
theorem C67_getopt_ends (env : Bool) (optstring : CStr) (hff : '\xff' ∉ bare optstring) {g : GState} (hfresh : Fresh g)
    {prog args : List CStr} (hv : g.nargv = prog ++ args) (hi : prog.length = first g) :
    ∃ n l gf, loop (Fn.getopt.call env g.nargv.length optstring) n g = .ok (l, gf) ∧ gf.nargv = g.nargv := by
  cases hr : readArgs .getopt (posix env g) (bare optstring) (Fn.getopt.operands (posix env g) optstring) 0 args with
  | none => exact absurd hr (readArgs_getopt _ _ _ _)
  | some r =>
    obtain ⟨gf, h1, _, _, h2⟩ := C67_loop .getopt env optstring hff hfresh hv hi hr (r.1.length + 1) (Nat.lt_succ_self _)
    refine ⟨_, _, gf, h1, h2 ?_⟩
    unfold Fn.operands
    split
    · simp
    · split <;> simp

/-! ### Examples -/

/-- The variables as a program finds them. -/
def g67 (argv : List String) : GState :=
  { optind := 1, opterr := true, optopt := 63, optreset := false, optarg := none, place := [], nonoptStart := none,
    nonoptEnd := none, posixly := none, getoptval := 0, nargv := argv.map cs, stderr := [] }

def longs67 : List LongOpt := [⟨cs "all", 0, false, 'a'.toNat⟩, ⟨cs "alpha", 0, true, 7⟩, ⟨cs "file", 1, false, 'f'.toNat⟩,
  ⟨cs "level", 2, false, 300⟩]

theorem g67_fresh (argv : List String) : Fresh (g67 argv) := Or.inr (Or.inr ⟨rfl, rfl, rfl⟩)

/-- `getopt(argc, argv, "ab:c::")` on `-ab val -cx -c -z -b`. -/
example : readArgs .getopt false (bare (cs "ab:c::")) (Fn.getopt.operands false (cs "ab:c::")) 0
    (["-ab", "val", "-cx", "-c", "-z", "-b"].map cs) =
    some ([.short 'a' none, .short 'b' (some (cs "val")), .short 'c' (some (cs "x")), .short 'c' none,
      .bad (cs "invalid option -- z") false 'z'.toNat, .bad (cs "option requires an argument -- b") true 'b'.toNat], []) := by
  decide +kernel

/-- `getopt` stops at the first operand, `getopt_long` goes on, and with `-` operands are returned. -/
example : readArgs .getopt false (cs "a") (Fn.getopt.operands false (cs "a")) 0 (["-a", "x", "-a"].map cs) =
      some ([.short 'a' none], ["x", "-a"].map cs) ∧
    readArgs (.getoptLong []) false (cs "a") (Fn.operands (.getoptLong []) false (cs "a")) 0 (["-a", "x", "-a"].map cs) =
      some ([.short 'a' none, .short 'a' none], ["x"].map cs) ∧
    readArgs (.getoptLong []) true (cs "a") (Fn.operands (.getoptLong []) true (cs "a")) 0 (["-a", "x", "-a"].map cs) =
      some ([.short 'a' none], ["x", "-a"].map cs) ∧
    readArgs (.getoptLong []) true (bare (cs "-a")) (Fn.operands (.getoptLong []) true (cs "-a")) 0 (["-a", "x", "-a"].map cs) =
      some ([.short 'a' none, .operand (cs "x"), .short 'a' none], []) := by
  decide +kernel

/-- `getopt_long`: abbreviations, values, mistakes. -/
example : readArgs (.getoptLong longs67) false (cs "a") .moved 0
    (["--al", "--alp", "--fi=x", "one", "--file", "y", "--level", "two", "--level=3", "--all=4", "--no", "--", "-a"].map cs) =
    some ([.bad (cs "option `--al' is ambiguous") false 0, .long ⟨cs "alpha", 0, true, 7⟩ none, .long ⟨cs "file", 1, false, 'f'.toNat⟩ (some (cs "x")),
      .long ⟨cs "file", 1, false, 'f'.toNat⟩ (some (cs "y")), .long ⟨cs "level", 2, false, 300⟩ none,
      .long ⟨cs "level", 2, false, 300⟩ (some (cs "3")), .bad (cs "option `--all' doesn't allow an argument") false 'a'.toNat,
      .bad (cs "unrecognized option `--no'") false 0], ["one", "two", "-a"].map cs) := by
  decide +kernel

/-- `getopt_long_only`: a dash may introduce a name, but a letter is a letter. -/
example : readArgs (.getoptLongOnly longs67) false (cs "afx") .moved 0 (["-file", "y", "-a", "-xa", "-alp", "-nix", "-f"].map cs) =
    some ([.long ⟨cs "file", 1, false, 'f'.toNat⟩ (some (cs "y")), .short 'a' none, .short 'x' none, .short 'a' none,
      .long ⟨cs "alpha", 0, true, 7⟩ none, .bad (cs "unrecognized option `-nix'") false 0, .short 'f' none], []) := by
  decide +kernel

/-- The theorem applies: the loop of the first example. -/
example : ∃ gf, loop (Fn.getopt.call false 7 (cs "ab:c::")) 7 (g67 ["prog", "-ab", "val", "-cx", "-c", "-z", "-b"]) =
    .ok ([⟨97, none, 63, 0, []⟩, ⟨98, some (cs "val"), 63, 0, []⟩, ⟨99, some (cs "x"), 63, 0, []⟩, ⟨99, none, 63, 0, []⟩,
      ⟨63, none, 122, 0, [cs "invalid option -- z"]⟩, ⟨63, none, 98, 0, [cs "invalid option -- z", cs "option requires an argument -- b"]⟩], gf) := by
  obtain ⟨gf, h, _⟩ := C67_loop .getopt false (cs "ab:c::") (by decide) (g67_fresh ["prog", "-ab", "val", "-cx", "-c", "-z", "-b"])
    (prog := [cs "prog"]) (args := ["-ab", "val", "-cx", "-c", "-z", "-b"].map cs) rfl rfl
    (fs := [.short 'a' none, .short 'b' (some (cs "val")), .short 'c' (some (cs "x")), .short 'c' none,
      .bad (cs "invalid option -- z") false 'z'.toNat, .bad (cs "option requires an argument -- b") true 'b'.toNat]) (ops := []) (by decide +kernel) 7 (by decide)
  exact ⟨gf, h⟩

/-- `getopt_long` never ends on `-a-`; `getopt` stops there. -/
example : readArgs (.getoptLong []) false (cs "a") .moved 0 [cs "-a-"] = none ∧
    readArgs .getopt false (cs "a") .stop 0 [cs "-a-"] = some ([.short 'a' none], [cs "-a-"]) := by
  decide +kernel

/-- Why the option string must not have the character 255 (as a signed char, -1): finding it looks like the end. -/
theorem C67_byte_255 : loop (Fn.getopt.call false 3 ['a', '\xff']) 5 { g67 [] with nargv := [cs "prog", ['-', '\xff'], cs "-a"] } =
    .ok ([], { g67 [] with nargv := [cs "prog", ['-', '\xff'], cs "-a"], optind := 2, posixly := some false }) := by
  with_unfolding_all rfl

end Argtable
