import Verif.Proofs.Own
import Verif.Props.Demo
/-!
# C82: the callbacks that `arg_parse` calls

The entries of a table may be of the program's own types, with callbacks that share memory; the same object may occur
in the table more than once.
-/

namespace Argtable
open Spec

variable {W σ : Type} {env : Bool}

/-- **C82.**  Suppose that `arg_parse` returns.  Then it has called the callbacks of `CallsFor`, in this order: first the
reset functions of all entries, then the scan functions for the options and operands of the command line, and, only if
no error had been recorded until then, the check functions of all entries.  The callbacks were called one after the other
on the common memory and nothing else changed it.  The errors are the codes other than 0 that they returned, and those of
the command line itself; the return value is their number, as far as the `arg_end` has room for them. -/
theorem C82_calls {m : Nat} {w : W} {e : EndTbl} {g : GState} {argv : List CStr} {es : List (Entry W)}
    {r : Nat × SState W} (hend : EndOK m e) (hwf : WF (es.map (·.decl))) (hargs : CArgs argv.tail)
    (h : ReturnsShared env argv (es.map Entry.hdr) ⟨w, e, g⟩ r) :
    ∃ evs ops calls errs, tokenize (es.map (·.decl)) env argv.tail = some (evs, ops) ∧ CallsFor es evs ops calls errs ∧
      Performs es w calls r.2.world ∧ r.1 = min errs.length m ∧ EndRel m errs r.2.fin ∧
      (argv ≠ [] → r.2.g.nargv.Perm argv) :=
  sParse_calls hend hwf hargs h

/-- **C82, converse.**  If the command line can be read and none of these calls goes wrong, then `arg_parse` returns with
their effect. -/
theorem C82_returns {m : Nat} {w w' : W} {e : EndTbl} (g : GState) {argv : List CStr} {es : List (Entry W)}
    {evs : List Ev} {ops : List CStr} {calls : List (Call × Int)} {errs : List ErrRec} (hend : EndOK m e)
    (hwf : WF (es.map (·.decl))) (hargs : CArgs argv.tail)
    (htok : tokenize (es.map (·.decl)) env argv.tail = some (evs, ops)) (hc : CallsFor es evs ops calls errs)
    (hp : Performs es w calls w') :
    ∃ r, ReturnsShared env argv (es.map Entry.hdr) ⟨w, e, g⟩ r ∧ r.2.world = w' ∧ r.1 = min errs.length m ∧
      EndRel m errs r.2.fin := by
  obtain ⟨r, hr, hw⟩ := calls_sParse (env := env) g hend hwf hargs htok hc hp
  obtain ⟨evs', ops', calls', errs', htok', hc', hp', hn, hrel, _⟩ := sParse_calls hend hwf hargs hr
  have htok' : tokenize (decls es) env argv.tail = some (evs', ops') := htok'
  have htok : tokenize (decls es) env argv.tail = some (evs, ops) := htok
  rw [htok] at htok'
  cases htok'
  obtain ⟨_, rfl, _⟩ := hc.unique hc' hp hp'
  exact ⟨r, hr, hw, hn, hrel⟩

/-- **C82, callbacks that always return.**  With such callbacks `arg_parse` returns whenever the command line can be
read. -/
theorem C82_total {m : Nat} (w : W) {e : EndTbl} (g : GState) {argv : List CStr} {es : List (Entry W)} {evs : List Ev}
    {ops : List CStr} (hend : EndOK m e) (hwf : WF (es.map (·.decl))) (hargs : CArgs argv.tail) (ht : Spec.Total es)
    (htok : tokenize (es.map (·.decl)) env argv.tail = some (evs, ops)) :
    ∃ r, ReturnsShared env argv (es.map Entry.hdr) ⟨w, e, g⟩ r := by
  have hE := tokenize_evOK _ env argv.tail.length argv.tail (Nat.le_refl _) evs ops htok
  obtain ⟨calls, errs, w', hc, hp⟩ := callsFor_exist (es := es) ht (fun i a h => by simpa using hE i a h) ops w
  obtain ⟨r, hr, _⟩ := C82_returns (env := env) g hend hwf hargs htok hc hp
  exact ⟨r, hr⟩

/-- **C82, one result.**  This holds for all callbacks, even for those that change getopt's variables. -/
theorem C82_unique {hs : List (SHdr W)} {argv : List CStr} {s : SState W} {r r' : Nat × SState W}
    (h : ReturnsShared env argv hs s r) (h' : ReturnsShared env argv hs s r') : r = r' := h.unique h'

/-- **C82, the calls are determined.**  The command line and the memory determine which calls are made. -/
theorem C82_determined {es : List (Entry W)} {evs : List Ev} {ops : List CStr} {l l' : List (Call × Int)}
    {e e' : List ErrRec} {w w1 w2 : W} (h : CallsFor es evs ops l e) (h' : CallsFor es evs ops l' e')
    (hp : Performs es w l w1) (hp' : Performs es w l' w2) : l = l' ∧ e = e' ∧ w1 = w2 := h.unique h' hp hp'

/-- **C82, distinct objects.**  For a table whose entries are distinct objects, each with callbacks on itself alone, this is
the `arg_parse` of the other properties: the same return value, the same objects afterwards, and the same errors. -/
theorem C82_distinct {m : Nat} {t : Table σ} {g : GState} {argv : List CStr} {r : Nat × Table σ × GState}
    (hend : EndOK m t.fin) (hwf : WF (t.entries.map declOf)) (hargs : CArgs argv.tail) (h : Returns env argv t g r) :
    ∃ r', ReturnsShared env argv ((ownTable t.entries).map Entry.hdr) ⟨objects t.entries, t.fin, g⟩ r' ∧ r'.1 = r.1 ∧
      r'.2.world = objects r.2.1.entries ∧ ∃ errs, EndRel m errs r.2.1.fin ∧ EndRel m errs r'.2.fin := by
  cases htok : tokenize (t.entries.map declOf) env argv.tail with
  | none => exact absurd h (argParse_hung env t hwf argv hargs g htok r)
  | some p =>
    obtain ⟨evs, ops⟩ := p
    obtain ⟨N, hN⟩ := argParse_spec env t m hend hwf argv hargs g htok
    obtain ⟨fuel, h⟩ := h
    have h' := argParse_mono env fuel N argv t g _ h (by simp)
    have hN := hN (fuel + N) (by omega)
    rw [h'] at hN
    cases hm : meaning t.entries evs ops with
    | error f => rw [hm] at hN; cases hN
    | ok q =>
      obtain ⟨es', errs⟩ := q
      rw [hm] at hN
      obtain ⟨r1, h1, hs⟩ := hN
      cases h1
      obtain ⟨l, hc, hp⟩ := meaning_own hm
      have hd : (ownTable t.entries).map (·.decl) = t.entries.map declOf := decls_ownTable _
      obtain ⟨r', hr', hw, hn, hrel⟩ := C82_returns (env := env) (es := ownTable t.entries) g hend (by rw [hd]; exact hwf)
        hargs (by rw [hd]; exact htok) hc hp
      exact ⟨r', hr', by rw [hn, hs.ret], by rw [hw, hs.entries], errs, hs.rel, hrel⟩

/-! ### an example

A counter that takes at most two occurrences, and at least one.  The same counter occurs in the table twice, as `-v` and as
`-w`. -/

namespace CallbackDemo

/-- The option with the given letter. -/
def counter (c : String) : Entry Nat :=
  { decl := ⟨false, false, some (cs c), none⟩
    reset := some fun _ => .ok 0
    scan := some fun n _ => .ok (if n < 2 then (n + 1, 0) else (n, 5))
    check := some fun n => .ok (n, if n = 0 then 6 else 0) }

/-- The check function of this entry, which has no options, parses another command line. -/
def nester : Entry Nat :=
  { decl := ⟨false, false, none, none⟩
    reset := none
    scan := none
    check := some fun n => .ok (n, 0)
    checkG := fun _ g =>
      match sParse (W := Unit) [] false 1 [cs "sub"] ⟨(), ⟨1, [⟨0, .endt, none⟩], 0⟩, g⟩ with
      | .ok r => r.2.g
      | .error _ => g }

def table : List (Entry Nat) := [counter "v", counter "w", nester]

theorem wf : WF (table.map (·.decl)) := by
  have hd : table.map (·.decl) = [⟨false, false, some (cs "v"), none⟩, ⟨false, false, some (cs "w"), none⟩,
    ⟨false, false, none, none⟩] := rfl
  rw [hd]
  intro d hd
  simp only [List.mem_cons, List.not_mem_nil, or_false] at hd
  rcases hd with rfl | rfl | rfl <;> exact ⟨by intro s h; cases h <;> decide, by intro s h; cases h⟩

/-- `prog -v -w`: both count. -/
example : ∃ r, ReturnsShared false [cs "prog", cs "-v", cs "-w"] (table.map Entry.hdr) ⟨7, Demo.fin, Demo.g0⟩ r ∧
    r.2.world = 2 ∧ r.1 = 0 := by
  obtain ⟨r, hr, hw, hn, _⟩ := C82_returns (env := false) (w := 7) (w' := 2) (es := table) Demo.g0 Demo.finOK wf
    (argv := [cs "prog", cs "-v", cs "-w"]) (by decide) (evs := [.deliver 0 none, .deliver 1 none]) (ops := []) (by decide)
    (errs := [])
    (.checked (.accept (.accept .nil)) (.done (by decide))
      (.accept (by simp [counter]) (.accept (by simp [counter]) (.accept (by simp [nester]) .nil))))
    (.cons rfl (.cons rfl (.cons rfl (.cons rfl (.cons rfl (.cons rfl (.cons rfl .nil)))))))
  exact ⟨r, hr, hw, hn⟩

/-- `prog -v -w -v`: the third one is one too many, and no check function is called. -/
example : ∃ r, ReturnsShared false [cs "prog", cs "-v", cs "-w", cs "-v"] (table.map Entry.hdr) ⟨7, Demo.fin, Demo.g0⟩ r ∧
    r.2.world = 2 ∧ r.1 = 1 ∧ EndRel 4 [⟨5, .entry 0, none⟩] r.2.fin := by
  obtain ⟨r, hr, hw, hn, he⟩ := C82_returns (env := false) (w := 7) (w' := 2) (es := table) Demo.g0 Demo.finOK wf
    (argv := [cs "prog", cs "-v", cs "-w", cs "-v"]) (by decide)
    (evs := [.deliver 0 none, .deliver 1 none, .deliver 0 none]) (ops := []) (by decide)
    (errs := [⟨5, .entry 0, none⟩])
    (.failed (errs := [⟨5, .entry 0, none⟩]) (errs' := []) (.accept (.accept (.reject (by decide) .nil))) (.done (by decide))
      (by simp))
    (.cons rfl (.cons rfl (.cons rfl (.cons rfl (.cons rfl .nil)))))
  exact ⟨r, hr, hw, hn, he⟩

/-- The callbacks always return. -/
theorem total : Spec.Total table := by
  refine ⟨?_, ?_, ?_⟩ <;> intro e he f hf <;> simp only [table, List.mem_cons, List.not_mem_nil, or_false] at he <;>
    rcases he with rfl | rfl | rfl <;> cases hf
  all_goals first
    | exact fun w a => ⟨_, rfl⟩
    | exact fun w => ⟨_, rfl⟩

example : ∃ r, ReturnsShared false [cs "prog", cs "-v"] (table.map Entry.hdr) ⟨7, Demo.fin, Demo.g0⟩ r :=
  C82_total (env := false) 7 (es := table) Demo.g0 Demo.finOK wf (argv := [cs "prog", cs "-v"]) (by decide) total
    (evs := [.deliver 0 none]) (ops := []) (by decide)

end CallbackDemo

/-- `C82_distinct` for the sample table of the other properties. -/
example : ∃ r, Returns false [cs "prog", cs "-a", cs "x"] Demo.table Demo.g0 r ∧
    ∃ r', ReturnsShared false [cs "prog", cs "-a", cs "x"] ((ownTable Demo.entries).map Entry.hdr)
      ⟨objects Demo.entries, Demo.fin, Demo.g0⟩ r' ∧ r'.1 = r.1 ∧ r'.2.world = objects r.2.1.entries := by
  obtain ⟨r, hr, hs⟩ := readsAs_of_tokenize (t := Demo.table) (env := false) Demo.finOK Demo.wf
    (argv := [cs "prog", cs "-a", cs "x"]) (by decide) (evs := [.deliver 0 none]) (ops := [cs "x"]) (by decide) Demo.g0
  obtain ⟨r', h1, h2, h3, _⟩ := C82_distinct Demo.finOK Demo.wf (by decide) hr
  exact ⟨r, hr, r', h1, h2, h3⟩

/-! ### callbacks that call `arg_parse` -/

/-- A scan function that parses another, empty, command line with another, empty, table, and then returns 0. -/
def nestedScan (n : Nat) (g : GState) (_ : Option CStr) : M (Nat × GState × Int) := do
  let r ← sParse (W := Unit) [] false 1 [cs "sub"] ⟨(), ⟨1, [⟨0, .endt, none⟩], 0⟩, g⟩
  .ok (n + 1, r.2.g, 0)

/-- An option `-x` with this scan function; the memory counts the calls. -/
def nestedHdr : SHdr Nat := ⟨false, false, some (cs "x"), none, none, some nestedScan, none⟩

/-- getopt's variables after each round. -/
def nestedState : GState :=
  { optind := 1, opterr := false, optopt := 120, optreset := false, optarg := none, place := [], nonoptStart := none,
    nonoptEnd := none, posixly := some false, getoptval := 99, nargv := [cs "prog", cs "-x"], stderr := [] }

theorem nested_round (n w : Nat) (e : EndTbl) :
    sLoop [nestedHdr] false 2 (cs ":x") [] (n + 1) ⟨w, e, nestedState⟩ =
      sLoop [nestedHdr] false 2 (cs ":x") [] n ⟨w + 1, e, nestedState⟩ := by
  with_unfolding_all rfl

theorem nested_forever : ∀ (n w : Nat) (e : EndTbl),
    sLoop [nestedHdr] false 2 (cs ":x") [] n ⟨w, e, nestedState⟩ = .error .fuel := by
  intro n
  induction n with
  | zero => intro w e; rfl
  | succ n ih => intro w e; rw [nested_round]; exact ih _ _

/-- **C82, a scan function must not call `arg_parse`.**  The two calls share getopt's variables: the inner call leaves
`optind` at the start, and the outer call reads the same option again, for ever. -/
theorem C82_nested_scan (r : Nat × SState Nat) :
    ¬ ReturnsShared false [cs "prog", cs "-x"] [nestedHdr] ⟨0, Demo.fin, Demo.g0⟩ r := by
  rintro ⟨fuel, h⟩
  have key : ∀ k, sTagged [nestedHdr] false k 2 ⟨0, { Demo.fin with count := 0 },
      { Demo.g0 with nargv := [cs "prog", cs "-x"] }⟩ = .error .fuel := by
    intro k
    cases k with
    | zero => rfl
    | succ k =>
      refine Eq.trans (b := sLoop [nestedHdr] false 2 (cs ":x") [] k ⟨1, { Demo.fin with count := 0 }, nestedState⟩) (by with_unfolding_all rfl) ?_
      exact nested_forever _ _ _
  have h' : (sTagged [nestedHdr] false fuel 2 ⟨0, { Demo.fin with count := 0 },
      { Demo.g0 with nargv := [cs "prog", cs "-x"] }⟩ >>= fun s => sUntagged [nestedHdr] 2 fuel 0 none s >>= fun s =>
      if s.fin.count = 0 then (sCheck [nestedHdr] 0 s >>= fun s => .ok (s.fin.count, s)) else .ok (s.fin.count, s)
      : M (Nat × SState Nat)) = .ok r := h
  rw [key] at h'
  cases h'

end Argtable
