import Verif.Model.Rex
/-!
# `arg_rex` on a limited stack

`trex_list`, `trex_element` and `trex_matchnode` call themselves and each other.  The functions here are those of
Model/Rex.lean on a stack that has room for `d` nested calls of these functions: one call more ends the run, with the outcome
`.fuel` (the stack overflows).  The first argument of `rexList`, `rexElement` and `matchnode` is this room: each call passes
one less to the calls it makes.
-/

namespace Argtable

/-- `trex_compile`, arg_rex.c:903-943, on a stack for `d` nested calls of `trex_list` and `trex_element`; see `rexCompile`. -/
def rexCompileIn (d : Nat) (pattern : CStr) : M (Option (List RNode)) :=
  let r : RM (List RNode) := do
    let (first, s) ← newnode .expr ⟨pattern, [], pattern.length, 0⟩
    let (res, s) ← rexList d s
    let s := s.setLeft first res
    if s.p ≠ [] then .error (.bad "unexpected character") else .ok s.nodes
  match r with
  | .ok nodes => .ok (some nodes)
  | .error (.bad _) => .ok none
  | .error (.fault f) => .error f

/-- `trex_match`, arg_rex.c:954-963, on a stack for `d` nested calls of `trex_matchnode`; see `rexMatch`. -/
def rexMatchIn (d : Nat) (nodes : List RNode) (icase : Bool) (text : CStr) : M Bool := do
  let r ← matchnode nodes icase text d 0 0 none
  .ok (r = some text.length)

/-- `arg_rex_scanfn`, arg_rex.c:130-162, on a stack for `d` nested calls of those functions; see `rexScan`. -/
def rexScanIn (d : Nat) (pattern : CStr) (icase : Bool) (maxcount : Int) (o : StrObj) (argval : Option CStr) :
    M (StrObj × Int) :=
  if (o.count : Int) = maxcount then .ok (o, ARG_ERR_MAXCOUNT)
  else match argval with
    | none => .ok ({ o with count := o.count + 1 }, 0)
    | some a => do
      match ← rexCompileIn d pattern with
      | none => .error (.ub "trex_match: NULL pointer dereference")
      | some nodes => do
        if ← rexMatchIn d nodes icase a then
          let sval ← storeAt o.sval o.count a
          .ok ({ count := o.count + 1, sval := sval }, 0)
        else .ok (o, ARG_ERR_REGNOMATCH)

end Argtable
