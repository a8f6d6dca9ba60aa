import Verif.Proofs.Threads
import Verif.Props.Parse
import Verif.Model.Print
/-!
# C87: threads
-/

namespace Argtable

open Spec

variable {σ : Type}

/-- With a mutex around `arg_parse`, at every moment and for every order in which the threads get the processor, each thread has done a part of its
program and has seen exactly what it would have seen as the only thread, whatever the variables of getopt were at the beginning.  The functions that
only read the table need no mutex. -/
theorem C87_alone {ths : List (Thr σ)} (h : ∀ th ∈ ths, ThrReady th) {g : GState} {sched : List Nat} {w : Threads σ}
    (hr : runThreads true sched ⟨ths, g⟩ = .ok w) {i : Nat} {th0 th : Thr σ} (h0 : ths[i]? = some th0) (hi : w.threads[i]? = some th) (gs : GState) :
    ∃ acts t g', th0.prog = acts ++ th.prog ∧ OneByOne acts th0.table gs th.seen t g' ∧
      (th.place = .out → th.table.entries = t.entries ∧ th.table.fin.slots.take th.table.fin.count = t.fin.slots.take t.fin.count) := by
  have hin := InTurn.run (fun th hth => (h th hth).args) sched (ready_inTurn gs h g) hr
  obtain ⟨acts, t, g', e1, e2, e3, _⟩ := hin.along i th0 th h0 hi
  exact ⟨acts, t, g', e1, e2, fun hp => ⟨(e3 hp).entries, (e3 hp).records⟩⟩

/-- If every thread's program works alone, then with the mutex no order of the threads leads to an undefined operation. -/
theorem C87_safe {ths : List (Thr σ)} (h : ∀ th ∈ ths, ThrReady th) (g gs : GState)
    (hf : ∀ th ∈ ths, ∃ seen t g', OneByOne th.prog th.table gs seen t g') (sched : List Nat) :
    ∃ w, runThreads true sched ⟨ths, g⟩ = .ok w ∧ w.threads.length = ths.length := by
  obtain ⟨w, e⟩ := InTurn.safe (fun th hth => (h th hth).args) hf sched (ready_inTurn gs h g)
  exact ⟨w, e, (InTurn.run (fun th hth => (h th hth).args) sched (ready_inTurn gs h g) e).length⟩

theorem finish_all {ths : List (Thr σ)} (hargs : ∀ th ∈ ths, ∀ env argv, ThrAct.parse env argv ∈ th.prog → CArgs argv.tail) {gs : GState}
    (hf : ∀ th ∈ ths, ∃ seen t g', OneByOne th.prog th.table gs seen t g') : ∀ (n : Nat) {w : Threads σ}, InTurn gs ths w → workLeft w.threads ≤ n →
      ∃ more w1, runThreads true more w = .ok w1 ∧ ∀ th ∈ w1.threads, th.prog = [] := by
  intro n
  induction n with
  | zero =>
    intro w h hn
    refine ⟨[], w, rfl, fun th hth => ?_⟩
    have := le_workLeft hth
    exact List.length_eq_zero_iff.1 (by omega)
  | succ n ih =>
    intro w h hn
    by_cases hall : ∀ th ∈ w.threads, th.prog = []
    · exact ⟨[], w, rfl, hall⟩
    · -- one action of some thread can be done
      have one : ∃ (i : Nat) (th th1 : Thr σ) (more : List Nat) (w1 : Threads σ), w.threads[i]? = some th ∧ runThreads true more w = .ok w1 ∧
          w1.threads = w.threads.set i th1 ∧ th1.prog.length < th.prog.length := by
        by_cases hb : ∃ (i : Nat) (th : Thr σ), w.threads[i]? = some th ∧ th.place ≠ .out
        · obtain ⟨i, th, hi, hp⟩ := hb
          have hil : i < ths.length := by
            rw [← h.length]
            rw [List.getElem?_eq_some_iff] at hi
            exact hi.1
          have ha := h.along i _ th (List.getElem?_eq_getElem hil) hi
          obtain ⟨seen, tf, gf, e⟩ := hf ths[i] (List.getElem_mem hil)
          obtain ⟨fuel, r, hl⟩ := (ha.returns (hargs _ (List.getElem_mem hil)) e).2.2 hp
          obtain ⟨more, w1, t, o, u1, u2⟩ := finish_call (lock := true) fuel hi hp hl
          refine ⟨i, th, _, more, w1, hi, u1, u2, ?_⟩
          obtain ⟨_, _, _, _, _, _, a4⟩ := ha
          obtain ⟨env, argv, rest, _, _, _, a5, _⟩ := a4 hp
          simp only [Thr.done, a5, List.tail_cons, List.length_cons]
          omega
        · have hout : ∀ (i : Nat) (th : Thr σ), w.threads[i]? = some th → th.place = .out := by
            intro i th hi
            by_contra hc
            exact hb ⟨i, th, hi, hc⟩
          have hany : (w.threads.any fun th => !th.place.isOut) = false := by
            rw [List.any_eq_false]
            intro th hth
            obtain ⟨i, hi⟩ := List.getElem?_of_mem hth
            rw [(isOut_iff _).2 (hout i th hi)]
            simp
          simp only [not_forall] at hall
          obtain ⟨th, hth, hne⟩ := hall
          obtain ⟨i, hi⟩ := List.getElem?_of_mem hth
          have hp := hout i th hi
          have hil : i < ths.length := by
            rw [← h.length]
            rw [List.getElem?_eq_some_iff] at hi
            exact hi.1
          have ha := h.along i _ th (List.getElem?_eq_getElem hil) hi
          obtain ⟨seen, tf, gf, e⟩ := hf ths[i] (List.getElem_mem hil)
          have hargs' := hargs _ (List.getElem_mem hil)
          obtain ⟨g1, th1, hs⟩ := ha.safe hargs' e
          have hstep : stepOf true i w = .ok ⟨w.threads.set i th1, g1⟩ := by
            unfold stepOf
            rw [hi]
            simp only [hany, Bool.and_false, Bool.false_eq_true, if_false]
            rw [hs]
            rfl
          have hrun : runThreads true [i] w = .ok ⟨w.threads.set i th1, g1⟩ := by
            rw [runThreads, hstep]; rfl
          cases hprog : th.prog with
          | nil => exact absurd hprog hne
          | cons a rest =>
            cases a with
            | read f =>
              refine ⟨i, th, th1, [i], _, hi, hrun, rfl, ?_⟩
              unfold stepThr at hs
              rw [hp, hprog] at hs
              obtain ⟨s, _, hs⟩ := mbind_ok_inv hs
              cases hs
              simp [Thr.done, hprog]
            | parse env argv =>
              have hb := step_begin (g := w.g) hp hprog
              rw [hs] at hb
              rcases hb with ⟨t, e1, _, _⟩ | ⟨e1, _, ⟨c1, e3⟩, gx, e4⟩
              · refine ⟨i, th, th1, [i], _, hi, hrun, rfl, ?_⟩
                rw [e1]
                simp [Thr.done, hprog]
              · obtain ⟨r, fuel, hr⟩ := (ha.returns hargs' e).2.1 env argv rest hp hprog gx
                rw [e4] at hr
                have hil' : i < w.threads.length := by rw [h.length]; exact hil
                have hi1 : (⟨w.threads.set i th1, g1⟩ : Threads σ).threads[i]? = some th1 := by
                  simp only
                  rw [List.getElem?_set, if_pos rfl, if_pos hil']
                obtain ⟨more, w1, t, o, u1, u2⟩ := finish_call (lock := true) fuel hi1 (by rw [e3]; simp) hr
                refine ⟨i, th, _, [i] ++ more, w1, hi, ?_, by rw [u2]; exact List.set_set .., ?_⟩
                · rw [runThreads_append true [i] more hrun]
                  exact u1
                · simp [Thr.done, e1, hprog]
      obtain ⟨i, th, th1, more, w1, hi, u1, u2, u3⟩ := one
      have hw1 := InTurn.run hargs more h u1
      have hlt := workLeft_set hi th1 u3
      obtain ⟨more2, w2, v1, v2⟩ := ih hw1 (by rw [u2]; omega)
      exact ⟨more ++ more2, w2, by rw [runThreads_append true more more2 u1]; exact v1, v2⟩

/-- ... and no order leads to a deadlock: from wherever the threads have got, they can all finish, and then each has seen exactly what its program
sees alone. -/
theorem C87_finish {ths : List (Thr σ)} (h : ∀ th ∈ ths, ThrReady th) {g : GState} (gs : GState)
    (hf : ∀ th ∈ ths, ∃ seen t g', OneByOne th.prog th.table gs seen t g') {sched : List Nat} {w : Threads σ}
    (hr : runThreads true sched ⟨ths, g⟩ = .ok w) :
    ∃ more w1, runThreads true (sched ++ more) ⟨ths, g⟩ = .ok w1 ∧
      ∀ (i : Nat) th0, ths[i]? = some th0 → ∃ th t g', w1.threads[i]? = some th ∧ th.prog = [] ∧ OneByOne th0.prog th0.table gs th.seen t g' := by
  have hin := InTurn.run (fun th hth => (h th hth).args) sched (ready_inTurn gs h g) hr
  obtain ⟨more, w1, e1, e2⟩ := finish_all (fun th hth => (h th hth).args) hf _ hin (Nat.le_refl _)
  have hrun : runThreads true (sched ++ more) ⟨ths, g⟩ = .ok w1 := by rw [runThreads_append true sched more hr]; exact e1
  have hin1 := InTurn.run (fun th hth => (h th hth).args) _ (ready_inTurn gs h g) hrun
  refine ⟨more, w1, hrun, fun i th0 h0 => ?_⟩
  have hil : i < w1.threads.length := by
    rw [hin1.length]
    rw [List.getElem?_eq_some_iff] at h0
    exact h0.1
  have hi := List.getElem?_eq_getElem hil
  obtain ⟨acts, t, g', u1, u2, _⟩ := hin1.along i th0 _ h0 hi
  have hp := e2 _ (List.getElem_mem hil)
  rw [hp, List.append_nil] at u1
  rw [← u1] at u2
  exact ⟨_, t, g', hi, hp, u2⟩

/-- If moreover the scheduler is fair, then all threads do finish after some time. -/
theorem C87_fair {ths : List (Thr σ)} (h : ∀ th ∈ ths, ThrReady th) (g gs : GState)
    (hf : ∀ th ∈ ths, ∃ seen t g', OneByOne th.prog th.table gs seen t g') {sched : Nat → Nat} (hs : FairFor ths.length sched) :
    ∃ n w, runThreads true (firstOf sched n) ⟨ths, g⟩ = .ok w ∧
      ∀ (i : Nat) th0, ths[i]? = some th0 → ∃ th t g', w.threads[i]? = some th ∧ th.prog = [] ∧ OneByOne th0.prog th0.table gs th.seen t g' := by
  have hargs : ∀ th ∈ ths, ∀ env argv, ThrAct.parse env argv ∈ th.prog → CArgs argv.tail := fun th hth => (h th hth).args
  obtain ⟨n, w, e1, e2⟩ := ends_all hargs hf _ _ (ready_inTurn gs h g) (Nat.lt_succ_self _) sched hs
  have hin := InTurn.run hargs _ (ready_inTurn gs h g) e1
  refine ⟨n, w, e1, fun i th0 h0 => ?_⟩
  have hil : i < w.threads.length := by
    rw [hin.length]
    rw [List.getElem?_eq_some_iff] at h0
    exact h0.1
  have hi := List.getElem?_eq_getElem hil
  obtain ⟨acts, t, g', u1, u2, _⟩ := hin.along i th0 _ h0 hi
  have hp := e2 _ (List.getElem_mem hil)
  rw [hp, List.append_nil] at u1
  rw [← u1] at u2
  exact ⟨_, t, g', hi, hp, u2⟩

/-! ### Without the mutex -/

/-- Two flags, `-a` and `-b`. -/
def tab87 : Table (Obj Unit) :=
  ⟨[argLitn (some (cs "a")) none 0 1 none, argLitn (some (cs "b")) none 0 1 none], ⟨2, List.replicate 2 ⟨0, .endt, none⟩, 0⟩⟩

def thr87 (argv : List String) : Thr (Obj Unit) := ⟨[.parse false (argv.map cs)], tab87, .out, []⟩

/-- The values returned and the counts of `-a` and `-b`, for each thread. -/
def seen87 (x : M (Threads (Obj Unit))) : Option (List (List (Nat × List Nat))) :=
  match x with
  | .ok w => some (w.threads.map fun th => th.seen.map fun o => match o with
    | .parsed n es _ => (n, es.map (·.parent.count))
    | .text _ => (0, []))
  | .error _ => none

/-- Without the mutex, an option of one thread's command line is given to another thread: the first has `prog -ab`, the second only `prog`; when they
take turns both calls return 0, but `-b` is counted in the second. -/
theorem C87_race : seen87 (runThreads false [0, 1, 0, 1, 0, 1, 0, 1] ⟨[thr87 ["prog", "-ab"], thr87 ["prog"]], Demo.g0⟩) =
    some [[(0, [1, 0])], [(0, [0, 1])]] := by decide +kernel

/-- ... and the arguments of a thread are exchanged beyond the end of its vector. -/
theorem C87_race_memory : ∃ w, runThreads false [0, 1, 0, 1] ⟨[thr87 ["prog", "x", "y", "z", "-a"], thr87 ["prog"]], Demo.g0⟩ = .error (.ub w) := by
  have h : (match runThreads false [0, 1, 0, 1] ⟨[thr87 ["prog", "x", "y", "z", "-a"], thr87 ["prog"]], Demo.g0⟩ with
    | .error (.ub _) => true
    | _ => false) = true := by decide +kernel
  split at h
  · rename_i w hw
    exact ⟨w, hw⟩
  · cases h

/-! ### Examples -/

/-- A thread with the demonstration table that parses, prints the syntax, and parses again. -/
def busy87 (a b : List String) : Thr (Obj Unit) :=
  ⟨[.parse false (a.map cs), .read fun es _ => printSyntax es (some (cs "\n")), .parse true (b.map cs)], Demo.table, .out, []⟩

theorem busy87_ready (a b : List String) (ha : CArgs (a.map cs).tail) (hb : CArgs (b.map cs).tail) : ThrReady (busy87 a b) := by
  refine ⟨⟨4, Demo.finOK, Demo.wf⟩, fun env argv h => ?_, rfl, rfl⟩
  simp only [busy87, List.mem_cons, ThrAct.parse.injEq, reduceCtorEq, List.not_mem_nil, or_false, false_or] at h
  rcases h with ⟨_, rfl⟩ | ⟨_, rfl⟩
  · exact ha
  · exact hb

/-- The entries after the first call. -/
def es87 : List (Hdr (Obj Unit)) :=
  match meaning Demo.entries [.deliver 0 none] [cs "x"] with
  | .ok q => q.1
  | .error _ => []

/-- Alone, the thread sees two successful parses and a syntax line. -/
theorem busy87_alone (gs : GState) : ∃ seen t g, OneByOne (busy87 ["prog", "-a", "x"] ["prog", "-n3", "y", "-a"]).prog Demo.table gs seen t g ∧
    seen.map (fun o => match o with | .parsed n es _ => (some (n, es.map (·.parent.count)), []) | .text s => (none, s)) =
      [(some (0, [1, 0, 0, 0, 0, 0, 1]), []), (none, cs " [-av] [-n <int>] [-n <int>] [-o <string>] [-p [<string>]] FILE [FILE] [FILE]\n"),
       (some (0, [0, 0, 1, 0, 0, 0, 2]), [])] := by
  obtain ⟨⟨n, t1, g1⟩, hr, hs⟩ := readsAs_of_tokenize (t := Demo.table) (env := false) Demo.finOK Demo.wf
    (argv := [cs "prog", cs "-a", cs "x"]) (by decide) (evs := [.deliver 0 none]) (ops := [cs "x"]) (by decide) gs
  obtain ⟨es1, fin1⟩ := t1
  have he : es1 = es87 := hs.entries.trans rfl
  have hn : n = 0 := hs.ret
  have hok : EndOK 4 fin1 := hs.rel.ok
  subst he
  obtain ⟨⟨n2, t2, g2⟩, hr2, hs2⟩ := readsAs_of_tokenize (t := ⟨es87, fin1⟩) (env := true) hok
    (show WF (es87.map declOf) from Demo.wf) (argv := [cs "prog", cs "-n3", cs "y", cs "-a"]) (by decide)
    (evs := [.deliver 2 (some (cs "3"))]) (ops := [cs "y", cs "-a"])
    (show tokenize (es87.map declOf) true [cs "-n3", cs "y", cs "-a"] = _ by decide +kernel) g1
  have hn2 : n2 = 0 := hs2.ret
  refine ⟨_, t2, g2, .parse hr (.read (s := cs " [-av] [-n <int>] [-n <int>] [-o <string>] [-p [<string>]] FILE [FILE] [FILE]\n") ?_ (.parse hr2 (.nil t2 g2))), ?_⟩
  · simp only
    decide +kernel
  · simp only [List.map_cons, List.map_nil, hn, hn2]
    have e2 := hs2.entries
    simp only at e2
    rw [e2]
    rfl

/-- The theorem applies to three such threads, whatever has happened so far. -/
example (sched : List Nat) : ∃ w, runThreads true sched ⟨List.replicate 3 (busy87 ["prog", "-a", "x"] ["prog", "-n3", "y", "-a"]), Demo.g0⟩ = .ok w ∧
    ∃ more w1, runThreads true (sched ++ more) ⟨List.replicate 3 (busy87 ["prog", "-a", "x"] ["prog", "-n3", "y", "-a"]), Demo.g0⟩ = .ok w1 ∧
      ∃ th, w1.threads[2]? = some th ∧ th.seen.map (fun o => match o with | .parsed n es _ => (some (n, es.map (·.parent.count)), []) | .text s => (none, s)) =
        [(some (0, [1, 0, 0, 0, 0, 0, 1]), []), (none, cs " [-av] [-n <int>] [-n <int>] [-o <string>] [-p [<string>]] FILE [FILE] [FILE]\n"),
         (some (0, [0, 0, 1, 0, 0, 0, 2]), [])] := by
  have hready : ∀ th ∈ List.replicate 3 (busy87 ["prog", "-a", "x"] ["prog", "-n3", "y", "-a"]), ThrReady th := by
    intro th hth
    rw [(List.mem_replicate.1 hth).2]
    exact busy87_ready _ _ (by decide) (by decide)
  obtain ⟨seen, t, g, h1, h2⟩ := busy87_alone Demo.g0
  have hf : ∀ th ∈ List.replicate 3 (busy87 ["prog", "-a", "x"] ["prog", "-n3", "y", "-a"]),
      ∃ seen t g, OneByOne th.prog th.table Demo.g0 seen t g := by
    intro th hth
    rw [(List.mem_replicate.1 hth).2]
    exact ⟨seen, t, g, h1⟩
  obtain ⟨w, e1, _⟩ := C87_safe hready Demo.g0 Demo.g0 hf sched
  obtain ⟨more, w1, e2, e3⟩ := C87_finish hready Demo.g0 hf e1
  obtain ⟨th, t', g', u1, _, u2⟩ := e3 2 _ rfl
  refine ⟨w, e1, more, w1, e2, th, u1, ?_⟩
  rw [(oneByOne_unique h1 u2).1]
  exact h2

/-- Taking turns is fair. -/
example : FairFor 3 (fun n => n % 3) := by
  intro i hi n
  exact ⟨3 * n + i, by omega, by simp only; omega⟩

end Argtable
