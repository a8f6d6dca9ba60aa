import Verif.Spec.Dispatch
import Verif.Proofs.Cmd
import Verif.Props.Hash
/-!
# Commands that use the registry while they run: proofs
-/

namespace Argtable

open Spec

variable {P C σ : Type} {limit : Nat → Nat} {code : P → C → List CStr → Script P C σ}

theorem Spec.Follow.event {w : CmdWorld P C σ} {s : CmdLog P C σ} (h : Follow limit w s) {e : CmdEvent P C} (he : e.fits) :
    ∃ r, runEvent limit w.reg e = .ok r ∧ Follow limit { w with reg := r } { s with evs := s.evs ++ [e] } := by
  obtain ⟨r, g1, g2⟩ := RegInv.run s.evs (cmdInit limit) [] (RegInv.init limit) h.fits
  rw [h.reg] at g1
  cases g1
  obtain ⟨r', k1, -⟩ := g2.step he
  refine ⟨r', k1, ?_, ?_, h.out, h.mem⟩
  · intro e' he'
    rcases List.mem_append.mp he' with h1 | h1
    · exact h.fits e' h1
    · rw [List.mem_singleton] at h1; subst h1; exact he
  · have happ : ∀ (l : List (CmdEvent P C)) (r0 r1 : Registry P C), runEvents limit r0 l = .ok r1 →
        runEvents limit r0 (l ++ [e]) = runEvent limit r1 e := by
      intro l
      induction l with
      | nil =>
        intro r0 r1 h1
        cases h1
        show (runEvent limit r0 e >>= fun r => runEvents limit r []) = _
        cases runEvent limit r0 e <;> rfl
      | cons a l ih =>
        intro r0 r1 h1
        rw [runEvents] at h1
        cases h2 : runEvent limit r0 a with
        | error e => rw [h2] at h1; cases h1
        | ok r2 =>
          rw [h2] at h1
          rw [List.cons_append, runEvents, h2]
          exact ih _ _ h1
    exact (happ _ _ _ h.reg).trans k1

theorem Spec.Follow.looks {w : CmdWorld P C σ} {s : CmdLog P C σ} (h : Follow limit w s) (name : CStr) :
    cmdInfo limit w.reg name = .ok (latest s.evs name) := by
  obtain ⟨r, g1, g2, -⟩ := C41_info limit h.fits
  rw [h.reg] at g1
  cases g1
  exact g2 name

theorem Spec.Follow.counts {w : CmdWorld P C σ} {s : CmdLog P C σ} (h : Follow limit w s) :
    cmdCount w.reg = .ok (registered s.evs).length := by
  obtain ⟨r, g1, -, g2⟩ := C41_info limit h.fits
  rw [h.reg] at g1
  cases g1
  exact g2

theorem performs_total {x : Script P C σ} {s s' : CmdLog P C σ} {r : Int} (h : CarriesOut code x s r s') :
    ∀ w, Follow limit w s → ∃ d0 w', Follow limit w' s' ∧
      ∀ d, d0 ≤ d → runScript limit (callDepth limit code d) x w = .ok (r, w') := by
  induction h with
  | done => intro w hw; exact ⟨0, w, hw, fun _ _ => rfl⟩
  | write _ ih =>
    intro w hw
    obtain ⟨d0, w', h1, h2⟩ := ih { w with out := w.out ++ _ } ⟨hw.fits, hw.reg, by rw [hw.out], hw.mem⟩
    exact ⟨d0, w', h1, h2⟩
  | look _ ih =>
    intro w hw
    obtain ⟨d0, w', h1, h2⟩ := ih w hw
    refine ⟨d0, w', h1, fun d hd => ?_⟩
    rw [runScript, hw.mem]
    exact h2 d hd
  | @store m x s s' r _ ih =>
    intro w hw
    obtain ⟨d0, w', h1, h2⟩ := ih { w with mem := m } ⟨hw.fits, hw.reg, hw.out, rfl⟩
    exact ⟨d0, w', h1, h2⟩
  | @register name p d c x s s' r hn hd _ ih =>
    intro w hw
    obtain ⟨r1, g1, g2⟩ := hw.event (e := .register name p d c) ⟨hn, hd⟩
    obtain ⟨d0, w', h1, h2⟩ := ih _ g2
    refine ⟨d0, w', h1, fun d' hd' => ?_⟩
    have g1 : cmdRegister limit w.reg name p d c = .ok r1 := g1
    rw [runScript, g1]
    exact h2 d' hd'
  | @unregister name x s s' r _ ih =>
    intro w hw
    obtain ⟨r1, g1, g2⟩ := hw.event (e := .unregister name) trivial
    obtain ⟨d0, w', h1, h2⟩ := ih _ g2
    refine ⟨d0, w', h1, fun d' hd' => ?_⟩
    have g1 : cmdUnregister limit w.reg name = .ok r1 := g1
    rw [runScript, g1]
    exact h2 d' hd'
  | info _ ih =>
    intro w hw
    obtain ⟨d0, w', h1, h2⟩ := ih w hw
    refine ⟨d0, w', h1, fun d hd => ?_⟩
    rw [runScript, hw.looks]
    exact h2 d hd
  | count _ ih =>
    intro w hw
    obtain ⟨d0, w', h1, h2⟩ := ih w hw
    refine ⟨d0, w', h1, fun d hd => ?_⟩
    rw [runScript, hw.counts]
    exact h2 d hd
  | @dispatch name argv f s s1 s' r1 r i p hi hp _ _ ih1 ih2 =>
    intro w hw
    obtain ⟨d1, w1, h1, h2⟩ := ih1 w hw
    obtain ⟨d2, w2, k1, k2⟩ := ih2 w1 h1
    refine ⟨max (d1 + 1) d2, w2, k1, fun d hd => ?_⟩
    have e1 : cmdDispatch limit w.reg name = .ok (p, i.ctx) := by
      unfold cmdDispatch
      rw [hw.looks, hi, hbind_ok]
      dsimp only
      rw [hp]
      rfl
    obtain ⟨d', rfl⟩ : ∃ d', d = d' + 1 := ⟨d - 1, by omega⟩
    rw [runScript, e1, hbind_ok]
    dsimp only
    rw [callDepth, h2 d' (by omega), hbind_ok]
    exact k2 _ (by omega)

/-- The outcome of a run: it ended as specified, it came to a call that is not allowed, or the stack was too small. -/
def DispatchEnd (limit : Nat → Nat) (code : P → C → List CStr → Script P C σ) (x : Script P C σ) (s : CmdLog P C σ) :
    M (Int × CmdWorld P C σ) → Prop
  | .ok (r, w') => ∃ s', CarriesOut code x s r s' ∧ Follow limit w' s'
  | .error .fuel => True
  | .error (.ub _) => Misuses code x s

theorem run_outcome : ∀ (d : Nat) (x : Script P C σ) (w : CmdWorld P C σ) (s : CmdLog P C σ), Follow limit w s →
    DispatchEnd limit code x s (runScript limit (callDepth limit code d) x w) := by
  have pass : ∀ {x y : Script P C σ} {s t : CmdLog P C σ} {m : M (Int × CmdWorld P C σ)}, DispatchEnd limit code x s m →
      (∀ r s', CarriesOut code x s r s' → CarriesOut code y t r s') → (Misuses code x s → Misuses code y t) →
      DispatchEnd limit code y t m := by
    intro x y s t m h h1 h2
    match m with
    | .ok (r, w') => obtain ⟨s', g1, g2⟩ := h; exact ⟨s', h1 _ _ g1, g2⟩
    | .error .fuel => trivial
    | .error (.ub _) => exact h2 h
  have main : ∀ (d : Nat), (∀ p c argv (w : CmdWorld P C σ) (s : CmdLog P C σ), Follow limit w s →
        DispatchEnd limit code (code p c argv) s (callDepth limit code d p c argv w)) →
      ∀ (x : Script P C σ) (w : CmdWorld P C σ) (s : CmdLog P C σ), Follow limit w s →
        DispatchEnd limit code x s (runScript limit (callDepth limit code d) x w) := by
    intro d hcall x
    induction x with
    | done r => intro w s hw; exact ⟨s, .done, hw⟩
    | write text x ih =>
      intro w s hw
      exact pass (ih _ { s with out := s.out ++ text } ⟨hw.fits, hw.reg, by rw [hw.out], hw.mem⟩) (fun _ _ h => .write h) .write
    | look f ih =>
      intro w s hw
      rw [runScript, hw.mem]
      exact pass (ih _ w s hw) (fun _ _ h => .look h) .look
    | store m x ih =>
      intro w s hw
      exact pass (ih _ { s with mem := m } ⟨hw.fits, hw.reg, hw.out, rfl⟩) (fun _ _ h => .store h) .store
    | register name p dsc c x ih =>
      intro w s hw
      rw [runScript]
      by_cases hn : name.length < 100
      · by_cases hd : dsc.length < 256
        · obtain ⟨r1, g1, g2⟩ := hw.event (e := .register name p dsc c) ⟨hn, hd⟩
          have g1 : cmdRegister limit w.reg name p dsc c = .ok r1 := g1
          rw [g1]
          exact pass (ih _ _ g2) (fun _ _ h => .register hn hd h) (.register hn hd)
        · have : cmdRegister limit w.reg name p dsc c = .error (.ub "assertion: description too long") := by
            unfold cmdRegister
            rw [if_neg (show ¬ ¬ name.length < ARG_CMD_NAME_LEN from fun h => h hn), if_pos (show ¬ dsc.length < ARG_CMD_DESCRIPTION_LEN from hd)]
            rfl
          rw [this]
          exact .long (Or.inr (by omega))
      · have : cmdRegister limit w.reg name p dsc c = .error (.ub "assertion: name too long") := by
          unfold cmdRegister
          rw [if_pos (show ¬ name.length < ARG_CMD_NAME_LEN from hn)]
          rfl
        rw [this]
        exact .long (Or.inl (by omega))
    | unregister name x ih =>
      intro w s hw
      rw [runScript]
      obtain ⟨r1, g1, g2⟩ := hw.event (e := .unregister name) trivial
      have g1 : cmdUnregister limit w.reg name = .ok r1 := g1
      rw [g1]
      exact pass (ih _ _ g2) (fun _ _ h => .unregister h) .unregister
    | info name f ih =>
      intro w s hw
      rw [runScript, hw.looks]
      exact pass (ih _ w s hw) (fun _ _ h => .info h) .info
    | count f ih =>
      intro w s hw
      rw [runScript, hw.counts]
      exact pass (ih _ w s hw) (fun _ _ h => .count h) .count
    | dispatch name argv f ih =>
      intro w s hw
      rw [runScript]
      unfold cmdDispatch
      rw [hw.looks, hbind_ok]
      cases hi : latest s.evs name with
      | none => exact .unknown (by rw [hi]; intro _ _ h; cases h)
      | some i =>
        dsimp only
        cases hp : i.proc with
        | none => exact .unknown (by rw [hi]; intro i' p h; cases h; rw [hp]; intro h; cases h)
        | some p =>
          have h1 := hcall p i.ctx argv w s hw
          change DispatchEnd limit code _ s (callDepth limit code d p i.ctx argv w >>= _)
          match hm : callDepth limit code d p i.ctx argv w with
          | .error .fuel => trivial
          | .error (.ub _) => rw [hm] at h1; exact .inside hi hp h1
          | .ok (r1, w1) =>
            rw [hm] at h1
            obtain ⟨s1, g1, g2⟩ := h1
            exact pass (ih r1 w1 s1 g2) (fun _ _ h => .dispatch hi hp g1 h) (.behind hi hp g1)
  intro d
  induction d with
  | zero => exact main 0 fun _ _ _ _ _ _ => trivial
  | succ d ih => exact main (d + 1) fun p c argv w s hw => ih (code p c argv) w s hw

/-- A run that came to an end, or to a call that is not allowed, does the same with more stack. -/
theorem performs_unique {x : Script P C σ} {s s1 : CmdLog P C σ} {r1 : Int} (h1 : CarriesOut code x s r1 s1) :
    ∀ {r2 : Int} {s2 : CmdLog P C σ}, CarriesOut code x s r2 s2 → r1 = r2 ∧ s1 = s2 := by
  induction h1 with
  | done => intro r2 s2 h; cases h; exact ⟨rfl, rfl⟩
  | write _ ih => intro r2 s2 h; cases h with | write h => exact ih h
  | look _ ih => intro r2 s2 h; cases h with | look h => exact ih h
  | store _ ih => intro r2 s2 h; cases h with | store h => exact ih h
  | register _ _ _ ih => intro r2 s2 h; cases h with | register _ _ h => exact ih h
  | unregister _ ih => intro r2 s2 h; cases h with | unregister h => exact ih h
  | info _ ih => intro r2 s2 h; cases h with | info h => exact ih h
  | count _ ih => intro r2 s2 h; cases h with | count h => exact ih h
  | dispatch hi hp _ _ ih1 ih2 =>
    intro r2 s2 h
    cases h with
    | dispatch hi' hp' h1 h2 =>
      rw [hi] at hi'
      cases hi'
      rw [hp] at hp'
      cases hp'
      obtain ⟨rfl, rfl⟩ := ih1 h1
      exact ih2 h2

theorem performs_not_misuses {x : Script P C σ} {s s' : CmdLog P C σ} {r : Int} (h : CarriesOut code x s r s') :
    ¬ Misuses code x s := by
  induction h with
  | done => intro h; cases h
  | write _ ih => intro h; cases h with | write h => exact ih h
  | look _ ih => intro h; cases h with | look h => exact ih h
  | store _ ih => intro h; cases h with | store h => exact ih h
  | register hn hd _ ih =>
    intro h
    cases h with
    | register _ _ h => exact ih h
    | long h => omega
  | unregister _ ih => intro h; cases h with | unregister h => exact ih h
  | info _ ih => intro h; cases h with | info h => exact ih h
  | count _ ih => intro h; cases h with | count h => exact ih h
  | dispatch hi hp hr _ ih1 ih2 =>
    intro h
    cases h with
    | unknown h => exact h _ _ hi hp
    | inside hi' hp' h =>
      rw [hi] at hi'; cases hi'
      rw [hp] at hp'; cases hp'
      exact ih1 h
    | behind hi' hp' h1 h2 =>
      rw [hi] at hi'; cases hi'
      rw [hp] at hp'; cases hp'
      obtain ⟨rfl, rfl⟩ := performs_unique hr h1
      exact ih2 h2

end Argtable
