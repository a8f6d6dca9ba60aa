import Verif.Proofs.Program
import Verif.Props.Life
import Verif.Props.Several
import Verif.Props.Help
/-!
# C84: a program that uses all parts of the library
-/

namespace Argtable
open Spec

variable {δ P C : Type} {lc : Libc δ} {a : Abi} {addr : Nat → Nat} {env : Bool} {limit : Nat → Nat} {w0 : World δ}
  {p : Program δ P C} {l : Ledger P C}

/-- C84.  Whatever the program has done, a legal step does nothing undefined. -/
theorem C84_safe (h : Course lc a addr env limit w0 p l) {op : ProgOp δ P C} (hl : LegalOp lc env limit p l op) :
    ∃ fuel p', progStep lc a addr env limit fuel p op = .ok p' ∧ Course lc a addr env limit w0 p' (noted limit p l op) := by
  obtain ⟨St, S, cus, Os, ps, H⟩ := h.ok
  obtain ⟨fuel, p', hp⟩ := (H.step (addr := addr) hl).1
  exact ⟨fuel, p', hp, .step h hl hp⟩

/-- C84.  Each `arg_dstr` object has the string that the calls about it say. -/
theorem C84_strings (h : Course lc a addr env limit w0 p l) {k : Nat} {s : CStr} (hk : l.texts[k]? = some (some s)) :
    ∃ d, p.objs[k]? = some (some d) ∧ DState.cstr ⟨p.world.heap, d, []⟩ (dstrCstr ⟨p.world.heap, d, []⟩) = .ok s := by
  obtain ⟨St, S, cus, Os, ps, H⟩ := h.ok
  exact H.shelf.cstr hk

/-- C84.  Name and version are those set last. -/
theorem C84_module (h : Course lc a addr env limit w0 p l) :
    moduleNameMem p.mod = .ok (progName l.mods) ∧ moduleVersionMem p.mod = .ok (progVersion l.mods) := by
  obtain ⟨St, S, cus, Os, ps, H⟩ := h.ok
  exact ⟨by rw [H.mod.moduleName, moduleName_eq], by rw [H.mod.moduleVersion, moduleVersion_eq]⟩

/-- C84.  The registry has the commands registered and not unregistered since. -/
theorem C84_commands (h : Course lc a addr env limit w0 p l) :
    (∀ name, cmdInfo limit p.reg name = .ok (latest l.cmds name)) ∧ cmdCount p.reg = .ok (registered l.cmds).length := by
  obtain ⟨St, S, cus, Os, ps, H⟩ := h.ok
  obtain ⟨t, B, A, hr, e2, e3⟩ := H.reg
  rw [hr]
  constructor
  · intro name
    show ((.ok t : M _) >>= fun t => hashSearch (cmdFns limit) t name) = _
    rw [hbind_ok, e2.search (cmdFns_lawful limit), e3]
  · show (.ok (hashCount t) : M Nat) = _
    congr 1
    unfold hashCount
    rw [e2.cnt, ← (RegInv.keys e2 e3).length_eq, List.length_map]

/-- C84.  `arg_parse` does what it does alone, and nothing to the other parts. -/
theorem C84_parse (h : Course lc a addr env limit w0 p l) {i : Nat} {T : LTable δ} (hi : p.world.tables[i]? = some T)
    (hu : Unfreed T) {argv : List CStr} (hargs : CArgs argv.tail) {fuel : Nat} {p' : Program δ P C}
    (hs : progStep lc a addr env limit fuel p (.table (.parse i argv)) = .ok p') :
    ∃ r, Returns env argv T.t p.world.g r ∧ p'.world.ret = r.1 ∧ p'.world.g = r.2.2 ∧ p'.world.out = p.world.out ∧
      p'.world.tables[i]? = some { T with t := r.2.1 } ∧ (∀ j, j ≠ i → p'.world.tables[j]? = p.world.tables[j]?) ∧
      Unchanged p.world.heap p'.world.heap ∧ p'.objs = p.objs ∧ p'.log = p.log ∧ moduleBlocks p' = moduleBlocks p ∧
      p'.reg = p.reg := by
  obtain ⟨St, S, cus, Os, ps, H⟩ := h.ok
  unfold progStep at hs
  obtain ⟨w', hw, hs⟩ := mbind_ok_inv hs
  cases hs
  obtain ⟨r, heap, h1, rfl, h2, -⟩ := (H.tabs.parse hi hu hargs).2.1 fuel w' hw
  exact ⟨r, h1, rfl, rfl, rfl, List.getElem?_set_self (lt_of_getElem? hi),
    fun j hj => List.getElem?_set_ne (fun h => hj h.symm), h2, rfl, rfl, rfl, rfl⟩

/-- C84.  The message of `arg_make_help_msg`, written to a string of the program: it has the description of the command that was
registered last, the name that was set last, and the syntax and glossary of the table. -/
theorem C84_help (h : Course lc a addr env limit w0 p l) {i : Nat} {T : LTable δ} (hi : p.world.tables[i]? = some T)
    (name : CStr) (hc : ∀ x ∈ T.t.entries, CHdr x) (hl : FitsLine T.t.entries) :
    toWrite limit p.world.tables l.mods p.reg (.help name i) =
      some (.ok (helpText name ((latest l.cmds name).map (·.description)) (progName l.mods) T.t.entries)) := by
  have h3 := (C84_commands h).1 name
  unfold cmdInfo at h3
  simp only [toWrite, hi, Option.map_some, Option.some.injEq]
  unfold makeHelpMsg
  cases hr : p.reg.get with
  | error e => rw [hr] at h3; cases h3
  | ok t =>
    rw [hr, hbind_ok] at h3
    rw [hbind_ok, h3, hbind_ok]
    dsimp only
    rw [printSyntaxv_line _ _ hc hl, hbind_ok, glossary_lines _ hc hl, hbind_ok, moduleName_eq]
    unfold helpText usageLine
    cases latest l.cmds name <;> simp [cs] <;> rfl

/-- C84.  The memory: what was there before is unchanged, and of what was allocated since, each block belongs to exactly one of
the tables, the strings, the name and version, and the texts that the client passed as static, which have not changed. -/
theorem C84_balance (h : Course lc a addr env limit w0 p l) :
    (∀ q, q < w0.heap.length → p.world.heap[q]? = w0.heap[q]?) ∧
    ∃ statics, List.Forall₂ (fun q s => p.world.heap[q]? = some (some (strBytes s))) statics l.statics ∧
      (held p.world ++ (stringBlocks p.objs ++ moduleBlocks p ++ statics)).Nodup ∧
      ∀ q, w0.heap.length ≤ q →
        (Spec.Allocated p.world.heap q ↔ q ∈ held p.world ++ (stringBlocks p.objs ++ moduleBlocks p ++ statics)) := by
  obtain ⟨St, S, cus, Os, ps, H⟩ := h.ok
  have ho : ownedBy l.texts.length Os = stringBlocks p.objs := H.shelf.owned_eq
  refine ⟨H.tabs.old, St, H.stat, ?_, fun q hq => ?_⟩
  · rw [← ho]; exact H.tabs.nodup
  · rw [← ho]; exact H.tabs.live q hq

/-- C84.  When all tables are freed and all objects destroyed, what stays allocated is the name, the version with its tag, and
the client's static texts; and each string handed over with a function of the client's has been given to that function exactly
once, in order. -/
theorem C84_released (h : Course lc a addr env limit w0 p l) (hf : ∀ T ∈ p.world.tables, Freed T)
    (hd : ∀ k, ¬ Present l.texts k) :
    (liveBlocks p.world.heap).length = (liveBlocks w0.heap).length + (if named l.mods then 1 else 0) +
        (if versioned l.mods then 2 else 0) + l.statics.length ∧
      ∀ k, (p.log.filter (fun e => e.1 = k)).map (·.2) = (callsOn k l.strings).flatMap DCmd.custom := by
  obtain ⟨St, S, cus, Os, ps, H⟩ := h.ok
  constructor
  · have hh : held p.world = [] := List.flatMap_eq_nil_iff.2 fun T hT => pointers_freed (hf T hT)
    have ho : ownedBy l.texts.length Os = [] := List.flatMap_eq_nil_iff.2 fun k _ => (H.shelf.gone k (hd k)).1
    have hc := H.tabs.hinv.count
    rw [hh, ho, List.nil_append, List.nil_append, List.length_append, H.stat.length_eq] at hc
    rw [hc]
    obtain ⟨e1, e2⟩ := foldl_isSome l.mods
    have hn : p.name.isSome = named l.mods := by
      rw [← e1]
      have := congrArg Option.isSome H.mod.name
      simpa [Program.mod] using this
    have hv : p.ver.isSome = versioned l.mods := by
      rw [← e2]
      have := congrArg Option.isSome H.mod.ver
      simpa [Program.mod] using this
    have ht := H.both
    unfold moduleBlocks
    rw [← hn, ← hv]
    cases p.name <;> cases hmt : p.tag <;> cases hmv : p.ver <;> simp_all <;> omega
  · intro k
    rw [← H.cus k]
    exact (H.shelf.over hd).2 k

/-! ### a case -/

/-- Only a step with tables changes the tables. -/
theorem progStep_tables {fuel : Nat} {p' : Program δ P C} {op : ProgOp δ P C} (hop : ∀ o, op ≠ .table o)
    (hs : progStep lc a addr env limit fuel p op = .ok p') : p'.world.tables = p.world.tables := by
  cases op with
  | table o => exact absurd rfl (hop o)
  | string c =>
    unfold progStep at hs
    obtain ⟨x, -, hs⟩ := mbind_ok_inv hs
    cases hs; rfl
  | module e =>
    unfold progStep at hs
    obtain ⟨x, -, hs⟩ := mbind_ok_inv hs
    cases hs; rfl
  | command e =>
    unfold progStep at hs
    obtain ⟨x, -, hs⟩ := mbind_ok_inv hs
    cases hs; rfl
  | write k t =>
    unfold progStep at hs
    obtain ⟨f, -, hs⟩ := mbind_ok_inv hs
    obtain ⟨x, -, hs⟩ := mbind_ok_inv hs
    cases hs; rfl

theorem goes_on (h : Course lc a addr env limit w0 p l) (op : ProgOp δ P C) (l' : Ledger P C) (hl : LegalOp lc env limit p l op)
    (hn : noted limit p l op = l') :
    ∃ fuel p', progStep lc a addr env limit fuel p op = .ok p' ∧ Course lc a addr env limit w0 p' l' := by
  rw [← hn]; exact C84_safe h hl

namespace ProgramDemo

/-- The syntax of the demonstration table. -/
def line : CStr := cs " [-av] [-n <int>] [-n <int>] [-o <string>] [-p <string>] FILE [FILE] [FILE]\n"

/-- The message about help. -/
def more : CStr := cs "prog v1.2.3.beta\nPlease type 'prog help' to get more information.\n"

def usage : CStr := cs "Usage: prog"

def strings : List SCmd := [.create, .call 0 (.setStatic usage)]

def mods : List ModEvent := [.name (cs "prog"), .version 1 2 3 (cs "beta")]

def cmds : List (CmdEvent Nat Nat) := [.register (cs "list") (some 1) (cs "show") 5]

/-- A program makes a string from a static text, sets name and version, makes a table, registers a command, has the syntax of the
table and the message about help written to the string, frees the table and destroys the string. -/
example (a : Abi) (addr : Nat → Nat) : ∃ (p q : Program Unit Nat Nat) (l m : Ledger Nat Nat) (d : Dstr),
    Course Demo.lc a addr false (fun n => n) Demo.world p l ∧ p.objs[0]? = some (some d) ∧
    DState.cstr ⟨p.world.heap, d, []⟩ (dstrCstr ⟨p.world.heap, d, []⟩) = .ok (usage ++ line ++ more) ∧
    Course Demo.lc a addr false (fun n => n) Demo.world q m ∧ (liveBlocks q.world.heap).length = 5 := by
  have H0 : Course Demo.lc a addr false (fun n => n) Demo.world (Beginning (fun n => n) Demo.world : Program Unit Nat Nat)
    Ledger.empty := .start
  obtain ⟨n1, p1, s1, H1⟩ := goes_on H0 (.string .create) ⟨[some []], [.create], [], []⟩ trivial rfl
  have g2 : SCmd.Sensible [some []] (.call 0 (.setStatic usage)) := by decide +kernel
  obtain ⟨n2, p2, s2, H2⟩ := goes_on H1 (.string (.call 0 (.setStatic usage))) ⟨[some usage], strings, [], []⟩ g2 rfl
  have g3 : '\x00' ∉ cs "prog" := by decide +kernel
  obtain ⟨n3, p3, s3, H3⟩ := goes_on H2 (.module (.name (cs "prog"))) ⟨[some usage], strings, [.name (cs "prog")], []⟩ g3 rfl
  obtain ⟨n4, p4, s4, H4⟩ := goes_on H3 (.module (.version 1 2 3 (cs "beta"))) ⟨[some usage], strings, mods, []⟩
    ⟨by decide +kernel, by decide +kernel, by decide +kernel⟩ rfl
  obtain ⟨n5, p5, s5, H5⟩ := goes_on H4 (.command (.register (cs "list") (some 1) (cs "show") 5)) ⟨[some usage], strings, mods, cmds⟩
    ⟨by decide +kernel, by decide +kernel⟩ rfl
  have t5 : p5.world.tables = [] := by
    rw [progStep_tables (by simp) s5, progStep_tables (by simp) s4, progStep_tables (by simp) s3, progStep_tables (by simp) s2,
      progStep_tables (by simp) s1]
    rfl
  have l6 : LegalOp Demo.lc false (fun n => n) p5 ⟨[some usage], strings, mods, cmds⟩
      (.table (.make Demo.makers 4 ⟨77, .endt, some (cs "rubbish")⟩ 0)) := ⟨Demo.makers_sound, Demo.makers_wf, by decide⟩
  obtain ⟨n6, p6, s6, H6⟩ := goes_on H5 _ ⟨[some usage], strings, mods, cmds⟩ l6 rfl
  obtain ⟨St, S, cus, Os, ps, K5⟩ := H5.ok
  obtain ⟨w6, T6, e6, t6, u6, -, -, f6, -, -⟩ := K5.tabs.made (addr := addr) (env := false) l6.1 l6.2.1 l6.2.2
    ⟨77, .endt, some (cs "rubbish")⟩ 0
  have hw6 : p6.world = w6 := by
    unfold progStep at s6
    dsimp only at s6
    rw [e6 n6, bind_ok] at s6
    cases s6
    rfl
  rw [t5] at t6
  have i6 : p6.world.tables = [T6] := by rw [hw6, t6]; rfl
  have y6 : printSyntax T6.t.entries (some (cs "\n")) = .ok line := by
    have e1 := f6.imp fun _ _ hx => hx.made
    obtain ⟨⟨es, fin⟩, ht⟩ : ∃ t, T6.t = t := ⟨_, rfl⟩
    rw [ht] at e1 ⊢
    simp only [Demo.makers, List.forall₂_cons_left_iff, List.forall₂_nil_left_iff] at e1
    obtain ⟨ha, _, ⟨_, ea⟩, ⟨hv, _, ⟨_, ev⟩, ⟨hn, _, ⟨_, en⟩, ⟨ho, _, ⟨_, eo⟩, ⟨hp, _, ⟨_, ep⟩, ⟨hr, _, ⟨_, er⟩,
      ⟨hf, _, ⟨_, ef⟩, rfl, rfl⟩, rfl⟩, rfl⟩, rfl⟩, rfl⟩, rfl⟩, rfl⟩ := e1
    cases ea; cases ev; cases en; cases eo; cases ep; cases er; cases ef
    set_option maxRecDepth 100000 in with_unfolding_all rfl
  have y7 : toWrite (fun n => n) p6.world.tables mods p6.reg (.syntax 0 (some (cs "\n"))) = some (.ok line) := by
    rw [i6]
    exact congrArg some y6
  obtain ⟨n7, p7, s7, H7⟩ := goes_on H6 (.write 0 (.syntax 0 (some (cs "\n")))) ⟨[some (usage ++ line)], strings, mods, cmds⟩
    ⟨⟨usage, rfl⟩, fun i hi => by cases hi; exact ⟨T6, by rw [i6]; rfl, u6⟩, by decide, line, y7, by decide +kernel,
      (by decide +kernel : (stringOf [some usage] 0).length + line.length ≤ 500000000)⟩ (by unfold noted; dsimp only; rw [show _ = _ from y7]; rfl)
  have t7 : p7.world.tables = [T6] := by rw [progStep_tables (by simp) s7]; exact i6
  have y8 : toWrite (fun n => n) p7.world.tables mods p7.reg .getHelp = some (.ok more) := by with_unfolding_all rfl
  obtain ⟨n8, p8, s8, H8⟩ := goes_on H7 (.write 0 .getHelp) ⟨[some (usage ++ line ++ more)], strings, mods, cmds⟩
    ⟨⟨usage ++ line, rfl⟩, fun i hi => (by cases hi), by decide, more, y8, by decide +kernel,
      by decide +kernel⟩ (by unfold noted; dsimp only; rw [show _ = _ from y8]; rfl)
  have t8 : p8.world.tables = [T6] := by rw [progStep_tables (by simp) s8]; exact t7
  obtain ⟨d, hd, hd'⟩ := C84_strings H8 (k := 0) rfl
  obtain ⟨n9, p9, s9, H9⟩ := goes_on H8 (.table (.freetable 0)) ⟨[some (usage ++ line ++ more)], strings, mods, cmds⟩ ⟨T6, by rw [t8]; rfl⟩ rfl
  have t9 : ∀ T ∈ p9.world.tables, Freed T := by
    obtain ⟨St, S, cus, Os, ps, K8⟩ := H8.ok
    obtain ⟨ptrs, heap, e1, e2, -, -⟩ := K8.tabs.freed (T := T6) (i := 0) (by rw [t8]; rfl) (.inl rfl)
    unfold progStep lifeStep at s9
    dsimp only at s9
    rw [World.table_eq (T := T6) (by rw [t8]; rfl), hbind_ok, e1, hbind_ok] at s9
    cases s9
    intro T hT
    rw [show p8.world.tables = [T6] from t8] at hT
    cases List.mem_singleton.1 hT
    exact e2
  have g10 : SCmd.Sensible [some (usage ++ line ++ more)] (.destroy 0) := by decide +kernel
  obtain ⟨n10, p10, s10, H10⟩ := goes_on H9 (.string (.destroy 0)) ⟨[none], strings ++ [.destroy 0], mods, cmds⟩ g10 rfl
  refine ⟨p8, p10, _, _, d, H8, hd, hd', H10, ?_⟩
  rw [(C84_released H10 (by rw [progStep_tables (by simp) s10]; exact t9) (by
    rintro k ⟨s, hs⟩
    match k, hs with
    | 0, hs => cases hs)).1]
  decide +kernel

end ProgramDemo

end Argtable
