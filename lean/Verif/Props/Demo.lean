import Verif.Spec.Live
import Verif.Spec.Outcome
/-!
# A concrete argument table

Used beside the property theorems to show that their hypotheses are met by ordinary tables:

    struct arg_lit *a = arg_litn("a", "all,almost", 0, 2, "list everything");
    struct arg_lit *v = arg_litn("vw", "verbose", 0, 3, NULL);
    struct arg_int *n = arg_intn("n", "number", NULL, 0, 2, "how many");
    struct arg_str *o = arg_strn("o", "out,output", NULL, 0, 1, NULL);
    struct arg_str *p = arg_strn("p", "paint", NULL, 0, 1, NULL);  p->hdr.flag |= ARG_HASOPTVALUE;
    struct arg_rem *r = arg_rem(NULL, "some remark");
    struct arg_file *f = arg_filen(NULL, NULL, "FILE", 1, 3, "input files");
    struct arg_end *end = arg_end(4);
-/

namespace Argtable.Demo

open Spec

/-- `strtod` and `strftime` do not matter here. -/
def lc : Libc Unit := ⟨fun _ => ((), []), fun _ _ => []⟩

/-- The entry made by a constructor that succeeds. -/
def made (x : M (Hdr (Obj Unit))) : Hdr (Obj Unit) :=
  match x with
  | .ok h => h
  | .error _ => argRem none none

def a : Hdr (Obj Unit) := argLitn (some (cs "a")) (some (cs "all,almost")) 0 2 (some (cs "list everything"))
def v : Hdr (Obj Unit) := argLitn (some (cs "vw")) (some (cs "verbose")) 0 3 none
def n : Hdr (Obj Unit) :=
  made (argIntn (some (cs "n")) (some (cs "number")) none 0 2 (some (cs "how many")))
def o : Hdr (Obj Unit) := made (argStrn (some (cs "o")) (some (cs "out,output")) none 0 1 none)
def p : Hdr (Obj Unit) :=
  { made (argStrn (some (cs "p")) (some (cs "paint")) none 0 1 none) with hasOptValue := true }
def r : Hdr (Obj Unit) := argRem none (some (cs "some remark"))
def f : Hdr (Obj Unit) := made (argFilen none none (some (cs "FILE")) 1 3 (some (cs "input files")))

def entries : List (Hdr (Obj Unit)) := [a, v, n, o, p, r, f]

/-- `arg_end(4)`; the uninitialised cells hold rubbish. -/
def fin : EndTbl := ⟨4, List.replicate 4 ⟨77, .endt, some (cs "rubbish")⟩, 0⟩

def table : Table (Obj Unit) := ⟨entries, fin⟩

/-- Some state of getopt's variables. -/
def g0 : GState :=
  { optind := 7, opterr := true, optopt := 120, optreset := false, optarg := some (cs "stale"),
    place := cs "stale", nonoptStart := some 3, nonoptEnd := some 5, posixly := some true,
    getoptval := 99, nargv := [], stderr := [] }

instance (args : List CStr) : Decidable (CArgs args) :=
  inferInstanceAs (Decidable (∀ a ∈ args, '\x00' ∉ a))

theorem finOK : EndOK 4 fin := ⟨by decide, rfl, rfl⟩

theorem wf : WF (entries.map declOf) := by
  have hd : entries.map declOf =
    [⟨false, false, some (cs "a"), some (cs "all,almost")⟩,
     ⟨false, false, some (cs "vw"), some (cs "verbose")⟩,
     ⟨true, false, some (cs "n"), some (cs "number")⟩,
     ⟨true, false, some (cs "o"), some (cs "out,output")⟩,
     ⟨true, true, some (cs "p"), some (cs "paint")⟩,
     ⟨false, false, none, none⟩, ⟨true, false, none, none⟩] := rfl
  rw [hd]
  intro d hd
  simp only [List.mem_cons, List.not_mem_nil, or_false] at hd
  rcases hd with rfl | rfl | rfl | rfl | rfl | rfl | rfl <;>
    exact ⟨by intro s h; cases h <;> decide, by intro s h; cases h <;> decide⟩

theorem live (R : CStr → Prop) : ∀ h ∈ entries, Live lc R h := by
  intro h hh
  simp only [entries, List.mem_cons, List.not_mem_nil, or_false] at hh
  rcases hh with rfl | rfl | rfl | rfl | rfl | rfl | rfl
  · exact Live.lit _ _ 0 2 _ false 0 (by decide)
  · exact Live.lit _ _ 0 3 _ false 0 (by decide)
  · exact Live.int (some (cs "n")) (some (cs "number")) none 0 2 (some (cs "how many")) n false
      ⟨0, [none, none]⟩ rfl (by decide) rfl
  · exact Live.str (some (cs "o")) (some (cs "out,output")) none 0 1 none o false ⟨0, [[]]⟩ rfl
      (by decide) rfl
  · exact Live.str (some (cs "p")) (some (cs "paint")) none 0 1 none
      (made (argStrn (some (cs "p")) (some (cs "paint")) none 0 1 none)) true ⟨0, [[]]⟩ rfl
      (by decide) rfl
  · exact Live.rem _ _
  · exact Live.file none none (some (cs "FILE")) 1 3 (some (cs "input files")) f false
      ⟨0, [[], [], []], [[], [], []], [[], [], []]⟩ rfl (by decide) rfl rfl rfl

end Argtable.Demo
