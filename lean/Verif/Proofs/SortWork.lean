import Verif.Proofs.Sort
import Verif.Spec.SortWork
import Mathlib.Data.Nat.Log

/-!
# The work of `arg_mgsort`: proofs
-/

namespace Argtable

open Spec

variable {α σ : Type} {esize : Int}

/-! ### logs -/

theorem comparisons_append (a b : List (SortEv α)) : comparisons (a ++ b) = comparisons a + comparisons b := by
  induction a with
  | nil => simp [comparisons]
  | cons e a ih => cases e <;> simp [comparisons, ih] <;> omega

theorem requests_append (a b : List (SortEv α)) : requests (a ++ b) = requests a + requests b := by
  induction a with
  | nil => simp [requests]
  | cons e a ih => cases e <;> simp [requests, ih] <;> omega

theorem bytesHeld_append (a b : List (SortEv α)) : bytesHeld (a ++ b) = bytesHeld a + bytesHeld b := by
  induction a with
  | nil => simp [bytesHeld]
  | cons e a ih => cases e <;> simp [bytesHeld, ih] <;> omega

theorem progAfter_append (env : SortEnv α σ) (p : σ) (a b : List (SortEv α)) :
    progAfter env p (a ++ b) = progAfter env (progAfter env p a) b := by
  induction a generalizing p with
  | nil => rfl
  | cons e a ih => cases e <;> simp [progAfter, ih]

theorem Spec.LeftIn.append {env : SortEnv α σ} {p : σ} (a : List (SortEv α)) {b : List (SortEv α)} (h : LeftIn env (progAfter env p a) b) :
    LeftIn env p (a ++ b) := by
  obtain ⟨l0, x, y, rfl, h⟩ := h
  exact ⟨a ++ l0, x, y, by simp, by rw [progAfter_append]; exact h⟩

/-- Nothing but comparisons. -/
def OnlyCompares (l : List (SortEv α)) : Prop := ∀ e ∈ l, ∃ x y, e = .compare x y

theorem OnlyCompares.comparisons {l : List (SortEv α)} (h : OnlyCompares l) : comparisons l = l.length := by
  induction l with
  | nil => rfl
  | cons e l ih =>
    obtain ⟨x, y, rfl⟩ := h e List.mem_cons_self
    simp [Spec.comparisons, ih (fun e he => h e (List.mem_cons_of_mem _ he))]

theorem OnlyCompares.requests {l : List (SortEv α)} (h : OnlyCompares l) : requests l = 0 := by
  induction l with
  | nil => rfl
  | cons e l ih =>
    obtain ⟨x, y, rfl⟩ := h e List.mem_cons_self
    simp [Spec.requests, ih (fun e he => h e (List.mem_cons_of_mem _ he))]

theorem OnlyCompares.held {l : List (SortEv α)} (h : OnlyCompares l) : bytesHeld l = 0 := by
  induction l with
  | nil => rfl
  | cons e l ih =>
    obtain ⟨x, y, rfl⟩ := h e List.mem_cons_self
    simp [bytesHeld, ih (fun e he => h e (List.mem_cons_of_mem _ he))]

theorem OnlyCompares.take {l : List (SortEv α)} (h : OnlyCompares l) (n : Nat) : OnlyCompares (l.take n) :=
  fun e he => h e (List.mem_of_mem_take he)

theorem Spec.NeverMore.mono {a b : Int} {l : List (SortEv α)} (h : NeverMore a l) (hab : a ≤ b) : NeverMore b l :=
  fun n => ⟨(h n).1, Int.le_trans (h n).2 hab⟩

theorem neverMore_nil {b : Int} (hb : 0 ≤ b) : NeverMore b ([] : List (SortEv α)) := fun n => by simp [bytesHeld, hb]

theorem Spec.NeverMore.append {b : Int} {l m : List (SortEv α)} (hl : NeverMore b l) (h0 : bytesHeld l = 0) (hm : NeverMore b m) :
    NeverMore b (l ++ m) := by
  intro n
  rw [List.take_append, bytesHeld_append]
  by_cases hn : n ≤ l.length
  · rw [Nat.sub_eq_zero_of_le hn]
    simp only [List.take_zero, bytesHeld, Int.add_zero]
    exact hl n
  · rw [List.take_of_length_le (by omega), h0, Int.zero_add]
    exact hm _

theorem neverMore_open {b : Int} (hb : 0 ≤ b) {l : List (SortEv α)} (h : OnlyCompares l) : NeverMore b (.malloc b :: l) := by
  intro n
  cases n with
  | zero => simp [bytesHeld, hb]
  | succ n =>
    rw [List.take_succ_cons, bytesHeld, (h.take n).held]
    omega

theorem neverMore_block {b : Int} (hb : 0 ≤ b) {l : List (SortEv α)} (h : OnlyCompares l) :
    NeverMore b (.malloc b :: l ++ [.free b]) := by
  intro n
  rw [List.take_append, bytesHeld_append]
  have h1 := neverMore_open hb h n
  cases hm : n - (SortEv.malloc b :: l).length with
  | zero => simpa [bytesHeld] using h1
  | succ m =>
    rw [List.take_of_length_le (by omega), bytesHeld, h.held]
    simp [bytesHeld]
    omega

/-! ### the number of comparisons -/

/-- `n ⌈log₂ n⌉ - 2 ^ ⌈log₂ n⌉ + 1`, for halves. -/
theorem cost_halves {n a b c : Nat} (hn : 2 ≤ n) (ha : a + 2 ^ Nat.clog 2 (n / 2) ≤ n / 2 * Nat.clog 2 (n / 2) + 1)
    (hb : b + 2 ^ Nat.clog 2 (n - n / 2) ≤ (n - n / 2) * Nat.clog 2 (n - n / 2) + 1) (hc : c ≤ n - 1) :
    a + b + c + 2 ^ Nat.clog 2 n ≤ n * Nat.clog 2 n + 1 := by
  have e : Nat.clog 2 n = Nat.clog 2 (n - n / 2) + 1 := by
    rw [Nat.clog_of_two_le (by omega) hn]
    congr 2
    omega
  have hL : a + 2 ^ Nat.clog 2 (n - n / 2) ≤ n / 2 * Nat.clog 2 (n - n / 2) + 1 := by
    by_cases h : n / 2 = n - n / 2
    · rwa [← h]
    · have h1 : n - n / 2 = n / 2 + 1 := by omega
      have hm : Nat.clog 2 (n / 2) ≤ Nat.clog 2 (n - n / 2) := Nat.clog_mono_right 2 (by omega)
      by_cases h2 : Nat.clog 2 (n - n / 2) = Nat.clog 2 (n / 2)
      · rwa [h2]
      · -- `n / 2` is a power of two
        have h3 : n / 2 ≤ 2 ^ Nat.clog 2 (n / 2) := Nat.le_pow_clog (by omega) _
        have h4 : 2 ^ Nat.clog 2 (n / 2) < n - n / 2 := by
          rw [← Nat.lt_clog_iff_pow_lt (by omega)]
          omega
        have h5 : n / 2 = 2 ^ Nat.clog 2 (n / 2) := by omega
        have h6 : Nat.clog 2 (n - n / 2) = Nat.clog 2 (n / 2) + 1 := by
          apply Nat.le_antisymm
          · rw [Nat.clog_le_iff_le_pow (by omega), Nat.pow_succ]
            have : 0 < 2 ^ Nat.clog 2 (n / 2) := Nat.pow_pos (by omega)
            omega
          · omega
        rw [h6, Nat.pow_succ, Nat.mul_add, Nat.mul_one]
        omega
  rw [e, Nat.pow_succ, Nat.mul_add, Nat.mul_one]
  have e2 : n * Nat.clog 2 (n - n / 2) = n / 2 * Nat.clog 2 (n - n / 2) + (n - n / 2) * Nat.clog 2 (n - n / 2) := by
    rw [← Nat.add_mul]
    congr 1
    omega
  rw [e2]
  omega

/-! ### one merge -/

theorem wbind_ok {β γ : Type} (a : β) (k : β → SortM α σ γ) : ((Except.ok a : SortM α σ β) >>= k) = k a := rfl

theorem wbind_err {β γ : Type} (e : SortStop α σ) (k : β → SortM α σ γ) : ((Except.error e : SortM α σ β) >>= k) = .error e := rfl

theorem callCompare_cases (env : SortEnv α σ) (x y : α) (s : SortSt α σ) :
    (∃ r p, callCompare env x y s = .ok (r, { s with prog := p, log := s.log ++ [.compare x y] }) ∧ p = (env.compare x y s.prog).2) ∨
    ∃ p, callCompare env x y s = .error (.left { s with prog := p, log := s.log ++ [.compare x y] }) ∧ p = (env.compare x y s.prog).2 ∧
      (env.compare x y s.prog).1 = none := by
  unfold callCompare
  rcases env.compare x y s.prog with ⟨_ | r, p⟩
  · exact .inr ⟨p, rfl, rfl, rfl⟩
  · exact .inl ⟨r, p, rfl, rfl⟩

theorem mergeLoopW_ends (env : SortEnv α σ) (pre post l r : List α) (he : 0 ≤ esize)
    (hN : ((pre.length : Int) + l.length + r.length) * esize ≤ 2147483647) :
    ∀ (n : Nat) (l1 l2 r1 r2 m : List α) (s : SortSt α σ), s.arr = pre ++ l ++ r ++ post → l = l1 ++ l2 → r = r1 ++ r2 → l2.length + r2.length = n →
      m.length = l1.length + r1.length →
      ∀ fuel, n < fuel → ∃ evs, OnlyCompares evs ∧ evs.length ≤ n - 1 ∧
        ((∃ w p, mergeLoopW env esize pre.length (pre.length + l.length - 1) (pre.length + l.length + r.length - 1)
            fuel (pre.length + l1.length) (pre.length + l.length + r1.length) m s = .ok (m ++ w, { s with prog := p, log := s.log ++ evs }) ∧
            w.Perm (l2 ++ r2) ∧ p = progAfter env s.prog evs) ∨
        ∃ p, mergeLoopW env esize pre.length (pre.length + l.length - 1) (pre.length + l.length + r.length - 1)
            fuel (pre.length + l1.length) (pre.length + l.length + r1.length) m s = .error (.left { s with prog := p, log := s.log ++ evs }) ∧ p = progAfter env s.prog evs ∧ LeftIn env s.prog evs) := by
  intro n
  induction n with
  | zero =>
    intro l1 l2 r1 r2 m s _ hl hr hn hm fuel hf
    have h1 : l2 = [] := List.length_eq_zero_iff.mp (by omega)
    have h2 : r2 = [] := List.length_eq_zero_iff.mp (by omega)
    subst h1; subst h2
    cases fuel with
    | zero => omega
    | succ fuel =>
      refine ⟨[], List.forall_mem_nil _, by simp, .inl ⟨[], s.prog, ?_, List.Perm.refl _, rfl⟩⟩
      rw [mergeLoopW]
      have e1 : l.length = l1.length := by rw [hl]; simp
      have e2 : r.length = r1.length := by rw [hr]; simp
      rw [if_neg (by omega)]
      simp
  | succ n ih =>
    intro l1 l2 r1 r2 m s hs hl hr hn hm fuel hf
    have e1 : l.length = l1.length + l2.length := by rw [hl]; simp
    have e2 : r.length = r1.length + r2.length := by rw [hr]; simp
    cases fuel with
    | zero => omega
    | succ fuel =>
      have hput : ∀ x, (sortLift (tempPut esize ((pre.length : Int) + l.length + r.length - 1 - pre.length + 1) m x) : SortM α σ _) = .ok (m ++ [x]) := by
        intro x
        unfold tempPut
        rw [byteOff_ok (N := (pre.length : Int) + l.length + r.length) (by omega) (by omega) he hN, sbind_ok]
        rw [if_pos (by omega)]
        rfl
      have getl : ∀ x l2', l2 = x :: l2' → (sortLift (elemGet esize s.arr ((pre.length : Int) + l1.length)) : SortM α σ _) = .ok x := by
        intro x l2' hx
        have := elemGet_ok (a := s.arr) (n := pre.length + l1.length) (x := x)
            (N := (pre.length : Int) + l.length + r.length) (by push_cast; omega) he hN (by
            have := get_mid pre l1 x (l2' ++ r ++ post)
            rw [← this]
            rw [hs, hl, hx]
            simp)
        push_cast at this
        rw [this]; rfl
      have getr : ∀ x r2', r2 = x :: r2' → (sortLift (elemGet esize s.arr ((pre.length : Int) + l.length + r1.length)) : SortM α σ _) = .ok x := by
        intro x r2' hx
        have := elemGet_ok (a := s.arr) (n := pre.length + l.length + r1.length) (x := x)
            (N := (pre.length : Int) + l.length + r.length) (by push_cast; omega) he hN (by
            have := get_mid (pre ++ l) r1 x (r2' ++ post)
            rw [List.length_append] at this
            rw [← this, hs, hr, hx]
            simp)
        push_cast at this
        rw [this]; rfl
      have left : ∀ x l2' (s1 : SortSt α σ), s1.arr = s.arr → l2 = x :: l2' → ∃ evs, OnlyCompares evs ∧ evs.length ≤ n - 1 ∧
          ((∃ w p, mergeLoopW env esize pre.length (pre.length + l.length - 1) (pre.length + l.length + r.length - 1)
            fuel ((pre.length : Int) + l1.length + 1) (pre.length + l.length + r1.length) (m ++ [x]) s1 = .ok (m ++ x :: w, { s1 with prog := p, log := s1.log ++ evs }) ∧
            w.Perm (l2' ++ r2) ∧ p = progAfter env s1.prog evs) ∨
          ∃ p, mergeLoopW env esize pre.length (pre.length + l.length - 1) (pre.length + l.length + r.length - 1)
            fuel ((pre.length : Int) + l1.length + 1) (pre.length + l.length + r1.length) (m ++ [x]) s1 = .error (.left { s1 with prog := p, log := s1.log ++ evs }) ∧ p = progAfter env s1.prog evs ∧ LeftIn env s1.prog evs) := by
        intro x l2' s1 hs1 hx
        have := ih (l1 ++ [x]) l2' r1 r2 (m ++ [x]) s1 (hs1.trans hs) (by rw [hl, hx]; simp) hr
            (by rw [hx] at hn; simp at hn; omega) (by simp; omega) fuel (by omega)
        rw [List.length_append, List.length_singleton] at this
        push_cast at this
        rw [← Int.add_assoc] at this
        simpa using this
      have right : ∀ x r2' (s1 : SortSt α σ), s1.arr = s.arr → r2 = x :: r2' → ∃ evs, OnlyCompares evs ∧ evs.length ≤ n - 1 ∧
          ((∃ w p, mergeLoopW env esize pre.length (pre.length + l.length - 1) (pre.length + l.length + r.length - 1)
            fuel ((pre.length : Int) + l1.length) (pre.length + l.length + r1.length + 1) (m ++ [x]) s1 = .ok (m ++ x :: w, { s1 with prog := p, log := s1.log ++ evs }) ∧
            w.Perm (l2 ++ r2') ∧ p = progAfter env s1.prog evs) ∨
          ∃ p, mergeLoopW env esize pre.length (pre.length + l.length - 1) (pre.length + l.length + r.length - 1)
            fuel ((pre.length : Int) + l1.length) (pre.length + l.length + r1.length + 1) (m ++ [x]) s1 = .error (.left { s1 with prog := p, log := s1.log ++ evs }) ∧ p = progAfter env s1.prog evs ∧ LeftIn env s1.prog evs) := by
        intro x r2' s1 hs1 hx
        have := ih l1 l2 (r1 ++ [x]) r2' (m ++ [x]) s1 (hs1.trans hs) hl (by rw [hr, hx]; simp)
            (by rw [hx] at hn; simp at hn; omega) (by simp; omega) fuel (by omega)
        rw [List.length_append (as := r1), List.length_singleton] at this
        push_cast at this
        rw [← Int.add_assoc] at this
        simpa using this
      rw [mergeLoopW, if_pos (by omega)]
      cases l2 with
      | nil =>
        rw [if_pos (by simp at e1; omega)]
        cases r2 with
        | nil => simp at hn
        | cons x r2 =>
          rw [getr x r2 rfl, wbind_ok, hput, wbind_ok]
          obtain ⟨evs, h1, h2, ⟨w, p, h3, h4, h5⟩ | ⟨p, h3, h5, h6⟩⟩ := right x r2 s rfl rfl
          · exact ⟨evs, h1, by omega, .inl ⟨x :: w, p, h3, h4.cons x, h5⟩⟩
          · exact ⟨evs, h1, by omega, .inr ⟨p, h3, h5, h6⟩⟩
      | cons a l2 =>
        rw [if_neg (by simp at e1; omega)]
        cases r2 with
        | nil =>
          rw [if_pos (by simp at e2; omega), getl a l2 rfl, wbind_ok, hput, wbind_ok]
          obtain ⟨evs, h1, h2, ⟨w, p, h3, h4, h5⟩ | ⟨p, h3, h5, h6⟩⟩ := left a l2 s rfl rfl
          · exact ⟨evs, h1, by omega, .inl ⟨a :: w, p, h3, h4.cons a, h5⟩⟩
          · exact ⟨evs, h1, by omega, .inr ⟨p, h3, h5, h6⟩⟩
        | cons b r2 =>
          have hn2 : 1 ≤ n := by simp at hn; omega
          rw [if_neg (by simp at e2; omega), getl a l2 rfl, wbind_ok, getr b r2 rfl, wbind_ok]
          have only : OnlyCompares [SortEv.compare a b] := by
            intro e he; exact ⟨a, b, by simpa using he⟩
          rcases callCompare_cases env a b s with ⟨c, p0, hc, hp0⟩ | ⟨p0, hc, hp0, hnone⟩
          · rw [hc, wbind_ok]
            by_cases hneg : c < 0
            · rw [if_pos hneg, hput, wbind_ok]
              obtain ⟨evs, h1, h2, h3⟩ := left a l2 { s with prog := p0, log := s.log ++ [.compare a b] } rfl rfl
              refine ⟨.compare a b :: evs, ?_, by simp; omega, ?_⟩
              · intro e he
                rcases List.mem_cons.mp he with rfl | he
                · exact ⟨_, _, rfl⟩
                · exact h1 e he
              · rcases h3 with ⟨w, p, h3, h4, h5⟩ | ⟨p, h3, h5, h6⟩
                · exact .inl ⟨a :: w, p, by rw [h3]; simp, h4.cons a, by rw [h5, hp0]; rfl⟩
                · exact .inr ⟨p, by rw [h3]; simp, by rw [h5, hp0]; rfl, by rw [hp0] at h6; exact h6.append [.compare a b]⟩
            · rw [if_neg hneg, hput, wbind_ok]
              obtain ⟨evs, h1, h2, h3⟩ := right b r2 { s with prog := p0, log := s.log ++ [.compare a b] } rfl rfl
              refine ⟨.compare a b :: evs, ?_, by simp; omega, ?_⟩
              · intro e he
                rcases List.mem_cons.mp he with rfl | he
                · exact ⟨_, _, rfl⟩
                · exact h1 e he
              · rcases h3 with ⟨w, p, h3, h4, h5⟩ | ⟨p, h3, h5, h6⟩
                · exact .inl ⟨b :: w, p, by rw [h3]; simp, (h4.cons b).trans List.perm_middle.symm, by rw [h5, hp0]; rfl⟩
                · exact .inr ⟨p, by rw [h3]; simp, by rw [h5, hp0]; rfl, by rw [hp0] at h6; exact h6.append [.compare a b]⟩
          · exact ⟨_, only, by simp; omega, .inr ⟨p0, by rw [hc, wbind_err], hp0, [], a, b, rfl, hnone⟩⟩

theorem mergeRunsW_ends (env : SortEnv α σ) (pre post l r : List α) (s : SortSt α σ) (hs : s.arr = pre ++ l ++ r ++ post) (hl : l ≠ [])
    (he : 0 ≤ esize) (hN : ((pre.length : Int) + l.length + r.length) * esize ≤ 2147483647) :
    mergeRunsW env esize pre.length (pre.length + l.length - 1) (pre.length + l.length + r.length - 1) s = .error (.panic s) ∧ (∃ b, env.malloc s.prog b = false) ∨
    ∃ evs, OnlyCompares evs ∧ evs.length ≤ l.length + r.length - 1 ∧
      ((∃ w p, mergeRunsW env esize pre.length (pre.length + l.length - 1) (pre.length + l.length + r.length - 1) s =
          .ok ⟨pre ++ w ++ post, p, s.log ++ (.malloc ((l.length + r.length : Nat) * esize) :: evs ++ [.free ((l.length + r.length : Nat) * esize)])⟩ ∧
          w.Perm (l ++ r) ∧ p = progAfter env s.prog evs) ∨
      ∃ p, mergeRunsW env esize pre.length (pre.length + l.length - 1) (pre.length + l.length + r.length - 1) s =
          .error (.left ⟨s.arr, p, s.log ++ (.malloc ((l.length + r.length : Nat) * esize) :: evs)⟩) ∧ p = progAfter env s.prog evs ∧ LeftIn env s.prog evs) := by
  have hl' : 0 < l.length := List.length_pos_iff.mpr hl
  unfold mergeRunsW
  rw [byteOff_ok (N := (pre.length : Int) + l.length + r.length) (by omega) (by omega) he hN]
  rw [show (sortLift (Except.ok () : M Unit) : SortM α σ Unit) = .ok () from rfl, wbind_ok]
  rw [show (pre.length : Int) + l.length + r.length - 1 - pre.length + 1 = ((l.length + r.length : Nat) : Int) from by push_cast; omega]
  unfold sortMalloc
  cases hm : env.malloc s.prog (((l.length + r.length : Nat) : Int) * esize)
  · left
    rw [if_neg (by simp), wbind_err]
    exact ⟨rfl, _, hm⟩
  · right
    rw [if_pos rfl, wbind_ok]
    obtain ⟨evs, h1, h2, h3⟩ := mergeLoopW_ends env pre post l r he hN _ [] l [] r []
      { s with log := s.log ++ [.malloc (((l.length + r.length : Nat) : Int) * esize)] } hs rfl rfl rfl rfl
      ((((l.length + r.length : Nat) : Int)).toNat + 1) (by omega)
    simp only [List.length_nil, Int.natCast_zero, Int.add_zero, List.nil_append] at h3
    refine ⟨evs, h1, h2, ?_⟩
    rw [show (pre.length : Int) + l.length - 1 + 1 = pre.length + l.length from by omega]
    rcases h3 with ⟨w, p, h3, h4, h5⟩ | ⟨p, h3, h5, h6⟩
    · left
      refine ⟨w, p, ?_, h4, h5⟩
      rw [h3, wbind_ok]
      have hlen := h4.length_eq
      rw [List.length_append] at hlen
      have hcb : copyBack esize s.arr pre.length (pre.length + l.length + r.length - 1) w = .ok (pre ++ w ++ post) := by
        unfold copyBack
        rw [byteOff_ok (N := (pre.length : Int) + l.length + r.length) (by omega) (by omega) he hN, sbind_ok,
          byteOff_ok (N := (pre.length : Int) + l.length + r.length) (by omega) (by omega) he hN, sbind_ok]
        rw [if_neg (by rw [hlen]; push_cast; omega), if_neg (by rw [hs]; simp; omega)]
        rw [hlen, hs]
        have e1 : (pre ++ l ++ r ++ post).take ((pre.length : Int).toNat) = pre := by
          rw [List.append_assoc, List.append_assoc]
          simp
        have e2 : (pre ++ l ++ r ++ post).drop ((pre.length : Int).toNat + (l.length + r.length)) = post := by
          have : (pre.length : Int).toNat + (l.length + r.length) = (pre ++ l ++ r).length := by simp
          rw [this]
          simp
        rw [e1, e2]
        rfl
      dsimp only
      rw [hcb]
      rw [show (sortLift (Except.ok (pre ++ w ++ post) : M _) : SortM α σ _) = .ok (pre ++ w ++ post) from rfl, wbind_ok]
      simp
    · right
      refine ⟨p, ?_, h5, h6⟩
      rw [h3, wbind_err]
      simp

/-! ### the sort -/

theorem mgsortW_ends (env : SortEnv α σ) (he : 0 ≤ esize) :
    ∀ (depth : Nat) (pre mid post : List α) (s : SortSt α σ), s.arr = pre ++ mid ++ post → Nat.clog 2 mid.length < depth →
      2 * ((pre.length : Int) + mid.length) ≤ 2147483650 → ((pre.length : Int) + mid.length) * esize ≤ 2147483647 →
      ∃ mid' evs p, mid'.Perm mid ∧ p = progAfter env s.prog evs ∧ NeverMore (mid.length * esize) evs ∧
        comparisons evs + 2 ^ Nat.clog 2 mid.length ≤ mid.length * Nat.clog 2 mid.length + 1 ∧
        ((mgsortW env esize depth pre.length (pre.length + mid.length - 1) s = .ok ⟨pre ++ mid' ++ post, p, s.log ++ evs⟩ ∧
            bytesHeld evs = 0 ∧ requests evs = mid.length - 1) ∨
          (mgsortW env esize depth pre.length (pre.length + mid.length - 1) s = .error (.panic ⟨pre ++ mid' ++ post, p, s.log ++ evs⟩) ∧
            bytesHeld evs = 0 ∧ ∃ b, env.malloc p b = false) ∨
          (mgsortW env esize depth pre.length (pre.length + mid.length - 1) s = .error (.left ⟨pre ++ mid' ++ post, p, s.log ++ evs⟩) ∧
            LeftIn env s.prog evs ∧ ∃ n : Nat, 2 ≤ n ∧ n ≤ mid.length ∧ bytesHeld evs = n * esize)) := by
  intro depth
  induction depth with
  | zero => intro _ _ _ _ _ h; omega
  | succ depth ih =>
    intro pre mid post s hs hd hsz hN
    obtain ⟨N, hNn⟩ : ∃ N, mid.length = N := ⟨_, rfl⟩
    rw [hNn] at hd hsz hN
    rw [mgsortW]
    simp only [hNn]
    by_cases hlt : (pre.length : Int) < pre.length + N - 1
    · rw [if_pos hlt, if_neg (by omega)]
      have hn : 2 ≤ N := by omega
      have hj : ((pre.length : Int) + (pre.length + N - 1) - 1).tdiv 2 = pre.length + (N / 2 : Nat) - 1 := by
        rw [Int.tdiv_eq_ediv_of_nonneg (by omega)]
        omega
      have hlog : Nat.clog 2 N = Nat.clog 2 (N - N / 2) + 1 := by
        rw [Nat.clog_of_two_le (by omega) hn]
        congr 2
        omega
      have hlogl : Nat.clog 2 (N / 2) ≤ Nat.clog 2 (N - N / 2) := Nat.clog_mono_right 2 (by omega)
      have hsplit : mid = mid.take (N / 2) ++ mid.drop (N / 2) := (List.take_append_drop _ mid).symm
      have ll : (mid.take (N / 2)).length = N / 2 := by rw [List.length_take]; omega
      have lr : (mid.drop (N / 2)).length = N - N / 2 := by rw [List.length_drop, hNn]
      generalize mid.take (N / 2) = l at *
      generalize mid.drop (N / 2) = r at *
      have hmono : ∀ a : Int, a ≤ N → a * esize ≤ N * esize := fun a ha => Int.mul_le_mul_of_nonneg_right ha he
      obtain ⟨l', ev1, p1, a1, ap, a2, a3, a4⟩ := ih pre l (r ++ post) s (by rw [hs, hsplit]; simp) (by rw [ll]; omega) (by rw [ll]; omega) (by
          refine Int.le_trans (Int.mul_le_mul_of_nonneg_right ?_ he) hN; rw [ll]; omega)
      have a2' : NeverMore (N * esize) ev1 := a2.mono (hmono _ (by rw [ll]; omega))
      rw [ll] at a3
      have hl' := a1.length_eq
      rw [ll] at hl'
      rw [hj]
      have split : ∀ x : List α, pre ++ x ++ (r ++ post) = pre ++ (x ++ r) ++ post := fun x => by simp
      rw [ll, split] at a4
      have hp1 : (l' ++ r).Perm mid := by rw [hsplit]; exact a1.append_right r
      have small : ∀ c : Nat, c + 2 ^ Nat.clog 2 (N / 2) ≤ N / 2 * Nat.clog 2 (N / 2) + 1 → c + 2 ^ Nat.clog 2 N ≤ N * Nat.clog 2 N + 1 := by
        intro c hc
        have hz : 0 + 2 ^ Nat.clog 2 (N - N / 2) ≤ (N - N / 2) * Nat.clog 2 (N - N / 2) + 1 := by
          have h0 : 0 < N - N / 2 := by omega
          by_cases h1 : N - N / 2 = 1
          · rw [h1]; simp
          · have h2 := Nat.pow_pred_clog_lt_self (b := 2) (by omega) (x := N - N / 2) (by omega)
            have h3 : 0 < Nat.clog 2 (N - N / 2) := Nat.clog_pos (by omega) (by omega)
            obtain ⟨q, hq⟩ : ∃ q, Nat.clog 2 (N - N / 2) = q + 1 := ⟨_, (Nat.succ_pred_eq_of_pos h3).symm⟩
            rw [hq] at h2 ⊢
            simp only [Nat.pred_succ] at h2
            rw [Nat.pow_succ]
            by_cases hq0 : q = 0
            · subst hq0; omega
            · have : (N - N / 2) * 2 ≤ (N - N / 2) * (q + 1) := Nat.mul_le_mul_left _ (by omega)
              omega
        have := cost_halves (c := 0) hn hc hz (by omega)
        omega
      rcases a4 with ⟨a4, a5, a6⟩ | ⟨a4, a5, am⟩ | ⟨a4, al, n, n1, n2, a5⟩
      · rw [a4, wbind_ok]
        obtain ⟨r', ev2, p2, b1, bp, b2, b3, b4⟩ := ih (pre ++ l') r post ⟨pre ++ (l' ++ r) ++ post, p1, s.log ++ ev1⟩ (by simp) (by rw [lr]; omega)
          (by rw [List.length_append, lr]; push_cast; omega) (by
            refine Int.le_trans (Int.mul_le_mul_of_nonneg_right ?_ he) hN
            rw [List.length_append, lr]; push_cast; omega)
        have hr' := b1.length_eq
        rw [lr] at hr' b3
        have b2' : NeverMore (N * esize) ev2 := b2.mono (hmono _ (by rw [lr]; omega))
        have b12 := a2'.append a5 b2'
        rw [show ((pre ++ l').length : Int) + r.length - 1 = pre.length + N - 1 from by clear b4; rw [List.length_append, lr]; push_cast; omega,
          show ((pre ++ l').length : Int) = pre.length + (N / 2 : Nat) - 1 + 1 from by clear b4; rw [List.length_append]; push_cast; omega] at b4
        have hp2 : (l' ++ r').Perm mid := by rw [hsplit]; exact a1.append b1
        have pp2 : p2 = progAfter env s.prog (ev1 ++ ev2) := by rw [progAfter_append, ← ap]; exact bp
        have two : comparisons (ev1 ++ ev2) + 2 ^ Nat.clog 2 N ≤ N * Nat.clog 2 N + 1 := by
          rw [comparisons_append]
          have := cost_halves (c := 0) hn a3 b3 (by omega)
          omega
        rcases b4 with ⟨b4, b5, b6⟩ | ⟨b4, b5, bm⟩ | ⟨b4, bl, n, n1, n2, b5⟩
        · rw [b4, wbind_ok]
          have h3 := mergeRunsW_ends env pre post l' r' ⟨pre ++ l' ++ r' ++ post, p2, s.log ++ ev1 ++ ev2⟩ rfl
            (by intro h0; rw [h0] at hl'; simp at hl'; omega) he
            (by rw [hl', hr']; refine Int.le_trans (Int.mul_le_mul_of_nonneg_right ?_ he) hN; omega)
          rw [show (pre.length : Int) + l'.length + r'.length - 1 = pre.length + N - 1 from by omega, hl',
            show N / 2 + r'.length = N from by omega] at h3
          rcases h3 with ⟨h3, hm⟩ | ⟨evs, c1, c2, ⟨w, p, h3, c3, cp⟩ | ⟨p, h3, cp, cl⟩⟩
          · refine ⟨l' ++ r', ev1 ++ ev2, p2, hp2, pp2, b12, two, .inr (.inl ⟨?_, by rw [bytesHeld_append]; omega, hm⟩)⟩
            rw [h3]
            simp
          · have pm1 : p = progAfter env s.prog (ev1 ++ ev2 ++ (.malloc (N * esize) :: evs ++ [.free (N * esize)])) := by
              rw [progAfter_append, ← pp2, progAfter_append]; exact cp
            refine ⟨w, ev1 ++ ev2 ++ (.malloc (N * esize) :: evs ++ [.free (N * esize)]), p, c3.trans hp2, pm1, ?_, ?_, .inl ⟨?_, ?_, ?_⟩⟩
            · exact b12.append (by rw [bytesHeld_append]; omega) (neverMore_block (Int.mul_nonneg (by omega) he) c1)
            · rw [comparisons_append, comparisons_append, comparisons_append,
                show comparisons (SortEv.malloc (N * esize) :: evs) = evs.length from c1.comparisons]
              simp only [comparisons, Nat.add_zero]
              exact cost_halves hn a3 b3 c2
            · rw [h3]
              simp
            · rw [bytesHeld_append, bytesHeld_append, bytesHeld_append, bytesHeld, c1.held]
              simp only [bytesHeld]
              omega
            · rw [requests_append, requests_append, requests_append, requests, c1.requests, a6, b6, lr]
              simp only [requests]
              omega
          · have pm2 : p = progAfter env s.prog (ev1 ++ ev2 ++ (.malloc (N * esize) :: evs)) := by
              rw [progAfter_append, ← pp2]; exact cp
            have cl' : LeftIn env s.prog (ev1 ++ ev2 ++ (.malloc (N * esize) :: evs)) := by
              rw [pp2] at cl; exact Spec.LeftIn.append _ (Spec.LeftIn.append [.malloc (N * esize)] cl)
            refine ⟨l' ++ r', ev1 ++ ev2 ++ (.malloc (N * esize) :: evs), p, hp2, pm2, ?_, ?_, .inr (.inr ⟨?_, cl', N, hn, Nat.le_refl _, ?_⟩)⟩
            · exact b12.append (by rw [bytesHeld_append]; omega) (neverMore_open (Int.mul_nonneg (by omega) he) c1)
            · rw [comparisons_append, comparisons_append,
                show comparisons (SortEv.malloc (N * esize) :: evs) = evs.length from c1.comparisons]
              exact cost_halves hn a3 b3 c2
            · rw [h3]
              simp
            · rw [bytesHeld_append, bytesHeld_append, bytesHeld, c1.held]
              omega
        · refine ⟨l' ++ r', ev1 ++ ev2, p2, hp2, pp2, b12, two, .inr (.inl ⟨?_, by rw [bytesHeld_append]; omega, bm⟩)⟩
          rw [b4, wbind_err]
          simp
        · refine ⟨l' ++ r', ev1 ++ ev2, p2, hp2, pp2, b12, two, .inr (.inr ⟨?_, by rw [ap] at bl; exact bl.append ev1, n, n1, by omega, by rw [bytesHeld_append]; omega⟩)⟩
          rw [b4, wbind_err]
          simp
      · refine ⟨l' ++ r, ev1, p1, hp1, ap, a2', small _ a3, .inr (.inl ⟨?_, a5, am⟩)⟩
        rw [a4, wbind_err]
      · refine ⟨l' ++ r, ev1, p1, hp1, ap, a2', small _ a3, .inr (.inr ⟨?_, al, n, n1, by omega, a5⟩)⟩
        rw [a4, wbind_err]
    · rw [if_neg hlt]
      have hn : N ≤ 1 := by omega
      refine ⟨mid, [], s.prog, List.Perm.refl _, rfl, neverMore_nil (Int.mul_nonneg (by omega) he), ?_, .inl ⟨?_, rfl, ?_⟩⟩
      · rw [Nat.clog_of_right_le_one hn]
        simp [comparisons]
      · rw [← hs]
        simp
      · simp [requests]
        omega

theorem wbind_inv {β γ : Type} {x : SortM α σ β} {k : β → SortM α σ γ} {b : γ} (h : (x >>= k) = .ok b) : ∃ a, x = .ok a ∧ k a = .ok b := by
  cases x with
  | error e => cases h
  | ok a => exact ⟨a, rfl, h⟩

/-- A sort that returns was allowed to go as deep as it has to. -/
theorem mgsortW_depth (env : SortEnv α σ) : ∀ (depth : Nat) (i k : Int) (s s' : SortSt α σ), 0 ≤ i → i ≤ k →
    mgsortW env esize depth i k s = .ok s' → Nat.clog 2 (k - i + 1).toNat < depth := by
  intro depth
  induction depth with
  | zero => intro i k s s' _ _ h; cases h
  | succ depth ih =>
    intro i k s s' hi hik h
    by_cases hlt : i < k
    · rw [mgsortW, if_pos hlt] at h
      by_cases hmax : i + k > 2147483647
      · rw [if_pos hmax] at h; cases h
      rw [if_neg hmax] at h
      have hj : (i + k - 1).tdiv 2 = (i + k - 1) / 2 := Int.tdiv_eq_ediv_of_nonneg (by omega)
      obtain ⟨s1, h1, h⟩ := wbind_inv h
      obtain ⟨s2, h2, h⟩ := wbind_inv h
      have := ih _ k s1 s2 (by rw [hj]; omega) (by rw [hj]; omega) h2
      rw [Nat.clog_of_two_le (by omega) (by omega)]
      have e : (k - ((i + k - 1).tdiv 2 + 1) + 1).toNat = ((k - i + 1).toNat + 2 - 1) / 2 := by
        rw [hj]; omega
      rw [e] at this
      omega
    · rw [Nat.clog_of_right_le_one (by omega)]
      omega

/-! ### comparison functions that only compare -/

theorem sortLift_inv {β : Type} {x : M β} {b : β} (h : (sortLift x : SortM α σ β) = .ok b) : x = .ok b := by
  cases x with
  | error e => cases h
  | ok a => cases h; rfl

theorem mergeLoopW_plain (cmp : α → α → Int) (next : α → α → σ → σ) (i j k : Int) : ∀ (fuel : Nat) (ipos jpos : Int) (m : List α) (s : SortSt α σ),
    match mergeLoopW (plainEnv cmp next) esize i j k fuel ipos jpos m s with
    | .ok r => mergeLoop esize s.arr i j k cmp fuel ipos jpos m = .ok r.1 ∧ r.2.arr = s.arr
    | .error (.fault f) => mergeLoop esize s.arr i j k cmp fuel ipos jpos m = .error f
    | .error _ => False := by
  intro fuel
  induction fuel with
  | zero => intro ipos jpos m s; rfl
  | succ fuel ih =>
    intro ipos jpos m s
    rw [mergeLoopW, mergeLoop]
    by_cases h0 : ipos ≤ j ∨ jpos ≤ k
    · rw [if_pos h0, if_pos h0]
      by_cases h1 : ipos > j
      · rw [if_pos h1, if_pos h1]
        cases elemGet esize s.arr jpos with
        | error f => rfl
        | ok y =>
          rw [sbind_ok]
          rw [show (sortLift (Except.ok y : M α) : SortM α σ α) = .ok y from rfl, wbind_ok]
          cases tempPut esize (k - i + 1) m y with
          | error f => rfl
          | ok m' => exact ih ipos (jpos + 1) m' s
      · rw [if_neg h1, if_neg h1]
        by_cases h2 : jpos > k
        · rw [if_pos h2, if_pos h2]
          cases elemGet esize s.arr ipos with
          | error f => rfl
          | ok y =>
            rw [sbind_ok]
            rw [show (sortLift (Except.ok y : M α) : SortM α σ α) = .ok y from rfl, wbind_ok]
            cases tempPut esize (k - i + 1) m y with
            | error f => rfl
            | ok m' => exact ih (ipos + 1) jpos m' s
        · rw [if_neg h2, if_neg h2]
          cases elemGet esize s.arr ipos with
          | error f => rfl
          | ok x =>
            rw [sbind_ok]
            rw [show (sortLift (Except.ok x : M α) : SortM α σ α) = .ok x from rfl, wbind_ok]
            cases elemGet esize s.arr jpos with
            | error f => rfl
            | ok y =>
              rw [sbind_ok]
              rw [show (sortLift (Except.ok y : M α) : SortM α σ α) = .ok y from rfl, wbind_ok]
              rw [show callCompare (plainEnv cmp next) x y s = .ok (cmp x y, { s with prog := next x y s.prog, log := s.log ++ [.compare x y] }) from rfl, wbind_ok]
              dsimp only
              by_cases h3 : cmp x y < 0
              · rw [if_pos h3, if_pos h3]
                cases tempPut esize (k - i + 1) m x with
                | error f => rfl
                | ok m' => exact ih (ipos + 1) jpos m' { s with prog := next x y s.prog, log := s.log ++ [.compare x y] }
              · rw [if_neg h3, if_neg h3]
                cases tempPut esize (k - i + 1) m y with
                | error f => rfl
                | ok m' => exact ih ipos (jpos + 1) m' { s with prog := next x y s.prog, log := s.log ++ [.compare x y] }
    · rw [if_neg h0, if_neg h0]
      exact ⟨rfl, rfl⟩

theorem mergeRunsW_plain (cmp : α → α → Int) (next : α → α → σ → σ) (i j k : Int) (s : SortSt α σ) :
    match mergeRunsW (plainEnv cmp next) esize i j k s with
    | .ok s' => mergeRuns esize s.arr i j k cmp = .ok s'.arr
    | .error (.fault f) => mergeRuns esize s.arr i j k cmp = .error f
    | .error _ => False := by
  unfold mergeRunsW mergeRuns
  cases byteOff esize (k - i + 1) with
  | error f => rfl
  | ok u =>
    rw [sbind_ok]
    rw [show (sortLift (Except.ok u : M Unit) : SortM α σ Unit) = .ok u from rfl, wbind_ok]
    rw [show sortMalloc (plainEnv cmp next) ((k - i + 1) * esize) s = .ok { s with log := s.log ++ [.malloc ((k - i + 1) * esize)] } from rfl, wbind_ok]
    have h := mergeLoopW_plain (esize := esize) cmp next i j k ((k - i + 1).toNat + 1) i (j + 1) [] { s with log := s.log ++ [.malloc ((k - i + 1) * esize)] }
    dsimp only at h
    revert h
    cases mergeLoopW (plainEnv cmp next) esize i j k ((k - i + 1).toNat + 1) i (j + 1) [] { s with log := s.log ++ [.malloc ((k - i + 1) * esize)] } with
    | error e =>
      cases e with
      | fault f => intro h; dsimp only at h; rw [h, wbind_err]; rfl
      | panic w => exact fun h => h.elim
      | left w => exact fun h => h.elim
    | ok r =>
      intro h
      dsimp only at h
      rw [h.1, sbind_ok, wbind_ok, h.2]
      cases copyBack esize s.arr i k r.1 with
      | error f => rfl
      | ok a => rfl

theorem mgsortW_plain (cmp : α → α → Int) (next : α → α → σ → σ) : ∀ (depth : Nat) (i k : Int) (s : SortSt α σ),
    match mgsortW (plainEnv cmp next) esize depth i k s with
    | .ok s' => mgsort esize cmp depth s.arr i k = .ok s'.arr
    | .error (.fault f) => mgsort esize cmp depth s.arr i k = .error f
    | .error _ => False := by
  intro depth
  induction depth with
  | zero => intro i k s; rfl
  | succ depth ih =>
    intro i k s
    rw [mgsortW, mgsort]
    by_cases h0 : i < k
    · rw [if_pos h0, if_pos h0]
      by_cases h1 : i + k > 2147483647
      · rw [if_pos h1, if_pos h1]; rfl
      · rw [if_neg h1, if_neg h1]
        dsimp only
        have h := ih i ((i + k - 1).tdiv 2) s
        revert h
        cases mgsortW (plainEnv cmp next) esize depth i ((i + k - 1).tdiv 2) s with
        | error e =>
          cases e with
          | fault f => intro h; dsimp only at h; rw [h, wbind_err]; rfl
          | panic w => exact fun h => h.elim
          | left w => exact fun h => h.elim
        | ok s1 =>
          intro h
          dsimp only at h
          rw [h, sbind_ok, wbind_ok]
          have h := ih ((i + k - 1).tdiv 2 + 1) k s1
          revert h
          cases mgsortW (plainEnv cmp next) esize depth ((i + k - 1).tdiv 2 + 1) k s1 with
          | error e =>
            cases e with
            | fault f => intro h; dsimp only at h; rw [h, wbind_err]; rfl
            | panic w => exact fun h => h.elim
            | left w => exact fun h => h.elim
          | ok s2 =>
            intro h
            dsimp only at h
            rw [h, sbind_ok, wbind_ok]
            exact mergeRunsW_plain cmp next i _ k s2
    · rw [if_neg h0, if_neg h0]; rfl

end Argtable
