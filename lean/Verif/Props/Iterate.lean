import Verif.Proofs.Iterate
/-!
# C80: changing the commands while walking through them

The interface has no function that takes out the command at an iterator; a program that walks through the registry and changes it
uses `arg_cmd_register` and `arg_cmd_unregister` between the calls of `arg_cmd_itr_advance`.  As long as it leaves the command
alone at which the iterator stands, and the table does not grow, the walk is sound: it shows only what is registered at the time,
shows every command once that stays as it is, and ends.  Both conditions are needed.
-/

namespace Argtable
open Spec

variable {P C : Type}

section
variable {limit : Nat → Nat} (hg : Growing limit) {m : Nat} {evs : List (CmdEvent P C)} (hev : ∀ e ∈ evs, e.fits)
  (hm : HadRoom limit evs m) {cs : List (Turn P C)} (hcs : ∀ c ∈ cs, c.fits)
include hg hev hm hcs

/-- **C80.** The program runs without a memory error, and the registry holds what the changes say. -/
theorem C80_runs : ∃ s, stroll limit m evs cs = .ok s ∧
    (∀ name, cmdInfo limit s.reg name = .ok (latest (evs ++ s.did) name)) ∧
    cmdCount s.reg = .ok (registered (evs ++ s.did)).length := by
  obtain ⟨s, L0, f0, h1, -, ⟨t, B, A, vis, h⟩, -⟩ := stroll_ok hg hev hm hcs
  refine ⟨s, h1, fun name => ?_, ?_⟩
  · unfold cmdInfo
    rw [h.reg]
    show ((.ok t : M _) >>= _) = _
    rw [hbind_ok, h.tab.search (cmdFns_lawful limit), h.look]
  · unfold cmdCount
    rw [h.reg]
    show ((.ok t : M _) >>= _) = _
    rw [hbind_ok]
    unfold hashCount
    rw [h.tab.cnt, count_eq h.tab h.look]
    rfl

/-- **C80.** Whatever the iterator shows is registered at that moment. -/
theorem C80_true {s : Stroll P C} (hs : stroll limit m evs cs = .ok s) : ∀ r ∈ s.seen,
    r.2.2 ≤ s.did.length ∧ latest (evs ++ s.did.take r.2.2) r.1 = some r.2.1 := by
  obtain ⟨s', L0, f0, h1, -, ⟨t, B, A, vis, h⟩, -⟩ := stroll_ok hg hev hm hcs
  cases h1.symm.trans hs
  intro r hr
  obtain ⟨a, -, hr⟩ := (Sighted.mem h.recs).2 r hr
  exact ⟨hr.le, hr.true⟩

/-- **C80.** A command that was registered at the start and that no change was about is shown exactly once when the walk is over,
with what was registered at the start. -/
theorem C80_once {s : Stroll P C} (hs : stroll limit m evs cs = .ok s) {name : CStr} {i : CmdInfo P C}
    (hi : latest evs name = some i) (hq : ∀ e ∈ s.did, e.name ≠ name) :
    (s.about name = [] ∧ s.over = false) ∨ ∃ k, s.about name = [(name, i, k)] := by
  obtain ⟨s', L0, f0, h1, -, ⟨t, B, A, vis, h⟩, -⟩ := stroll_ok hg hev hm hcs
  cases h1.symm.trans hs
  have hle := about_le (name := name) h.pairs
  unfold Stroll.about
  match hl : s.seen.filter fun r => r.1 = name with
  | [] =>
    refine Or.inl ⟨hl, ?_⟩
    cases ho : s.over with
    | false => rfl
    | true =>
      exfalso
      have ha := h.ahead
      rw [ho, if_pos rfl] at ha
      obtain ⟨a, n, k1, k2, k3⟩ := h.quiet name (by rw [hi]; rfl) hq
      rcases ha a n k2 with k | k
      · obtain ⟨r, r1, r2⟩ := (Sighted.mem h.recs).1 a k
        have : r ∈ s.seen.filter fun r => r.1 = name :=
          List.mem_filter.2 ⟨r1, by simpa using (r2.key n k2).symm.trans k3⟩
        rw [hl] at this
        cases this
      · omega
  | [(x, j, k)] =>
    refine Or.inr ⟨k, ?_⟩
    have hmem : (x, j, k) ∈ s.seen.filter fun r => r.1 = name := by rw [hl]; simp
    obtain ⟨m1, m2⟩ := List.mem_filter.1 hmem
    have hx : x = name := by simpa using m2
    subst hx
    obtain ⟨a, -, hr⟩ := (Sighted.mem h.recs).2 _ m1
    have := hr.true
    rw [latest_quiet _ fun e he => hq e (List.mem_of_mem_take he), hi] at this
    cases this
    exact hl
  | _ :: _ :: _ =>
    exfalso
    rw [hl] at hle
    simp at hle

/-- **C80.** No name is shown twice, whatever was changed in between. -/
theorem C80_distinct {s : Stroll P C} (hs : stroll limit m evs cs = .ok s) : (s.seen.map (·.1)).Nodup := by
  obtain ⟨s', L0, f0, h1, -, ⟨t, B, A, vis, h⟩, -⟩ := stroll_ok hg hev hm hcs
  cases h1.symm.trans hs
  exact h.pairs

/-- **C80.** The walk ends: it shows at most as many commands as there were at the start and were registered since, so it is over
after as many steps. -/
theorem C80_ends {s : Stroll P C} (hs : stroll limit m evs cs = .ok s) :
    s.seen.length ≤ (registered evs).length + registrations s.did ∧
    ((registered evs).length + registrations s.did ≤ nextsIn cs → s.over) := by
  obtain ⟨s', L0, f0, h1, h2, ⟨t, B, A, vis, h⟩, h3⟩ := stroll_ok hg hev hm hcs
  cases h1.symm.trans hs
  have hle := h.seen_le
  rw [h2] at hle
  refine ⟨hle, fun hn => ?_⟩
  rcases h3 with h3 | h3
  · exact h3
  · omega

omit hg hev hm hcs in
/-- **C80.** When the walk is over, it stays over, whatever is registered and unregistered afterwards: `arg_cmd_itr_advance` returns 0
again and changes nothing.  There is nothing to look at any more: `arg_cmd_itr_key` and `arg_cmd_itr_value` dereference NULL. -/
theorem C80_over {s : Stroll P C} (hs : stroll limit m evs cs = .ok s) (ho : s.over = true) (t : HTab CStr (CmdInfo P C)) :
    itrAdvance t s.it = .ok (s.it, 0) ∧ (∃ w, itrKey t s.it = .error (.ub w)) ∧ ∃ w, itrValue t s.it = .error (.ub w) := by
  have he := stroll_over hs ho
  refine ⟨?_, ⟨"null iterator entry dereferenced", ?_⟩, ⟨"null iterator entry dereferenced", ?_⟩⟩
  · unfold itrAdvance; rw [he]; rfl
  · unfold itrKey itrNode; rw [he]; rfl
  · unfold itrValue itrNode; rw [he]; rfl

/-- **C80, the first condition.** A change that is about the very command at which the iterator stands leaves the iterator
dangling: looking at it and advancing it are both uses of freed memory, also if the command has been registered again. -/
theorem C80_dangling {s : Stroll P C} (hs : stroll limit m evs cs = .ok s) (ho : s.over = false) {e : CmdEvent P C} (he : e.fits)
    (hk : s.here = .ok (some e.name)) : ∃ t, runEvent limit s.reg e = .ok (.table t) ∧
      (∃ w, itrKey t s.it = .error (.ub w)) ∧ (∃ w, itrValue t s.it = .error (.ub w)) ∧ ∃ w, itrAdvance t s.it = .error (.ub w) := by
  obtain ⟨s', L0, f0, h1, -, ⟨t, B, A, vis, h⟩, -⟩ := stroll_ok hg hev hm hcs
  cases h1.symm.trans hs
  have ha := h.ahead
  rw [ho, if_neg (by decide)] at ha
  obtain ⟨⟨a, rest, p1, -⟩, -⟩ := ha
  obtain ⟨n, hn⟩ := p1.live h.tab a (List.mem_cons_self ..)
  have hname : n.k = e.name := by
    unfold Stroll.here at hk
    rw [ho, if_neg (by decide), h.reg] at hk
    change ((.ok t : M _) >>= _) = _ at hk
    rw [hbind_ok, (p1.look hn).1, hbind_ok] at hk
    exact Option.some.inj (Except.ok.inj hk)
  have hreg : latest (evs ++ s.did) e.name = some n.v := by
    rw [← h.look, ← lookup_mem h.tab, h.tab.memA, ← hname]
    exact ⟨a, n, hn, rfl⟩
  obtain ⟨t', B', A', g1, -, -, -, -, -, -, g8⟩ := event_effect h.tab h.look h.cnt h.cap he
    (fun hh => by rw [hreg] at hh; exact absurd hh.2.1 (by simp))
  exact ⟨t', by rw [h.reg]; exact g1, itr_dead p1.e (g8 a n hn hname)⟩

end

/-! ### examples -/

namespace IterateDemo

/-- 65 percent, rounded up: for the sizes used here the limit of the library (`loadLimit` in `Model/HashWork.lean`). -/
def lim (n : Nat) : Nat := (65 * n + 99) / 100

theorem lim_growing : Growing lim := by
  intro i p q hp hq
  have h : ∀ i < primes.length, (primes[i]?.map lim).getD 0 < (primes[i + 1]?.map lim).getD (lim (primes[i]?.getD 0) + 1) := by
    decide +kernel
  have := h i (List.getElem?_eq_some_iff.1 hp).1
  rw [hp, hq] at this
  exact this

def name (i : Nat) : CStr := [Char.ofNat (97 + i / 6), Char.ofNat (97 + i % 6)]

def reg (i : Nat) : CmdEvent Nat Nat := .register (name i) i ['d'] 0

/-- Seven commands, one of them taken out again. -/
def start : List (CmdEvent Nat Nat) := (List.range 7).map reg ++ [.unregister (name 1)]

/-- Walking on, with new commands, a command taken out and one replaced. -/
def moves : List (Turn Nat Nat) :=
  [.next, .change (reg 7), .change (reg 30), .next, .change (.unregister (name 0)), .change (.unregister (name 3)), .next,
   .change (.unregister (name 2)), .next, .change (.register (name 2) (some 99) [] 1), .next, .next, .next, .next]

instance (e : CmdEvent P C) : Decidable e.fits := by cases e <;> unfold CmdEvent.fits <;> infer_instance

instance (c : Turn P C) : Decidable c.fits := by cases c <;> unfold Turn.fits <;> infer_instance

theorem start_fits : ∀ e ∈ start, e.fits := by decide

theorem moves_fit : ∀ c ∈ moves, c.fits := by decide

theorem room : HadRoom lim start 35 := Or.inl (by decide)

example : ∃ s, stroll lim 35 start moves = .ok s ∧ (∀ n, cmdInfo lim s.reg n = .ok (latest (start ++ s.did) n)) ∧
    cmdCount s.reg = .ok (registered (start ++ s.did)).length :=
  C80_runs lim_growing start_fits room moves_fit

/-- What it sees and does. -/
def summary (x : M (Stroll Nat Nat)) : Option (List (Option Nat × Nat) × Nat × Bool) :=
  x.toOption.map fun s => (s.seen.map fun r => (r.2.1.proc, r.2.2), s.did.length, s.over)

/-- The command 0 is taken out before the iterator comes to it, the new command 30 is shown, the new command 7 is not; command 2 is
left alone while the iterator stands there, and is not shown again when it has been replaced. -/
theorem shown : summary (stroll lim 35 start moves) =
    some ([(some 6, 0), (some 3, 0), (some 30, 2), (some 2, 4), (some 4, 4), (some 5, 5)], 5, true) := by decide +kernel

example : ∃ s, stroll lim 35 start moves = .ok s ∧ s.over = true ∧ (s.seen.map (·.1)).Nodup ∧ s.seen.length ≤ 6 + registrations s.did ∧
    (∃ k, s.about (name 4) = [(name 4, { name := name 4, description := ['d'], proc := some 4, ctx := 0 }, k)]) := by
  obtain ⟨s, hs, -⟩ := C80_runs lim_growing start_fits room moves_fit
  have h := shown
  rw [hs] at h
  have ho : s.over = true := congrArg (fun x => (x.map fun y => y.2.2).getD false) h
  have hd : s.did.map CmdEvent.name = [name 7, name 30, name 0, name 3, name 2] := by
    have h' : (stroll lim 35 start moves).toOption.map (fun s => s.did.map CmdEvent.name) =
        some [name 7, name 30, name 0, name 3, name 2] := by decide +kernel
    rw [hs] at h'
    exact Option.some.inj h'
  have hq : ∀ e ∈ s.did, e.name ≠ name 4 := by
    intro e he hn
    have := List.mem_map_of_mem (f := CmdEvent.name) he
    rw [hd, hn] at this
    exact absurd this (by decide)
  refine ⟨s, hs, ho, C80_distinct lim_growing start_fits room moves_fit hs, (C80_ends lim_growing start_fits room moves_fit hs).1, ?_⟩
  rcases C80_once lim_growing start_fits room moves_fit hs (name := name 4)
    (i := { name := name 4, description := ['d'], proc := some 4, ctx := 0 }) (by decide +kernel) hq with h1 | h1
  · rw [ho] at h1
    cases h1.2
  · exact h1

/-- The walk above is over. -/
example : ∃ s, stroll lim 35 start moves = .ok s ∧ s.over = true ∧ ∀ t : HTab CStr (CmdInfo Nat Nat), itrAdvance t s.it = .ok (s.it, 0) := by
  obtain ⟨s, hs, -⟩ := C80_runs lim_growing start_fits room moves_fit
  have h := shown
  rw [hs] at h
  have ho : s.over = true := congrArg (fun x => (x.map fun y => y.2.2).getD false) h
  exact ⟨s, hs, ho, fun t => (C80_over hs ho t).1⟩

/-- Unregistering the command at which the iterator stands (command 6 at the start). -/
example : ∃ s t, stroll lim 35 start [] = .ok s ∧ runEvent lim s.reg (.unregister (name 6)) = .ok (.table t) ∧
    ∃ w, itrAdvance t s.it = .error (.ub w) := by
  obtain ⟨s, hs, -⟩ := C80_runs lim_growing start_fits room (cs := []) (fun c hc => by cases hc)
  have h1 : (stroll lim 35 start []).toOption.map (·.over) = some false := by decide +kernel
  have h2 : ((stroll lim 35 start []) >>= fun s => s.here).toOption = some (some (name 6)) := by decide +kernel
  rw [hs] at h1 h2
  have h2' : s.here = .ok (some (name 6)) := by
    change (s.here).toOption = _ at h2
    cases hh : s.here with
    | error e => rw [hh] at h2; cases h2
    | ok v => rw [hh] at h2; exact congrArg _ (Option.some.inj h2)
  obtain ⟨t, t1, -, -, t2⟩ := C80_dangling lim_growing start_fits room (fun c hc => by cases hc) hs (Option.some.inj h1)
    (e := .unregister (name 6)) trivial h2'
  exact ⟨s, t, hs, t1, t2⟩

/-- 35 commands: as many as the first table holds. -/
def many : List (CmdEvent Nat Nat) := (List.range 35).map reg

/-- The program registers one more command after three steps, and walks on. -/
def grow : List (Turn Nat Nat) := List.replicate 3 .next ++ [.change (reg 35)] ++ List.replicate 80 .next

/-- It does not grow if there were 36 commands before. -/
example : HadRoom lim (many ++ [reg 35, .unregister (name 35)]) 36 :=
  Or.inr ⟨many ++ [reg 35], ⟨[.unregister (name 35)], by simp⟩, by decide +kernel⟩

end IterateDemo

open IterateDemo in
/-- **C80, the second condition.** If the table grows during the walk, a command that stays as it is may be shown three times, and
another one may not be shown at all. -/
theorem C80_growth : (stroll lim 36 many grow).toOption.map (fun s => (s.over, s.did.map CmdEvent.name, (s.about (name 29)).length,
    (s.about (name 8)).length)) = some (true, [name 35], 3, 0) := by decide +kernel

end Argtable
