import Mathlib.Data.Int.GCD
import Mathlib.Data.Nat.ModEq
import Mathlib.Tactic.Linarith
import Mathlib.Tactic.Ring
import Mathlib.Tactic.LinearCombination
import Mathlib.Algebra.Order.Ring.Nat
import Verif.Model.Permute
/-!
# `permute_args` exchanges two adjacent blocks
-/

namespace Argtable

theorem gcdLoop_eq (a b : Nat) (hb : 0 < b) : gcdLoop a b = .ok (Nat.gcd a b) := by
  induction b using Nat.strong_induction_on generalizing a with
  | _ b ih =>
    rw [gcdLoop]
    rw [dif_neg (by omega)]
    split
    · next h =>
      rw [Nat.gcd_comm, Nat.gcd_eq_left (Nat.dvd_of_mod_eq_zero h)]
    · next h =>
      rw [ih (a % b) (Nat.mod_lt _ hb) b (Nat.pos_of_ne_zero h)]
      congr 1
      rw [Nat.gcd_comm b, ← Nat.gcd_rec, Nat.gcd_comm]

section
variable {α : Type}

theorem swapAt_ok (v : List α) (p c : Nat) (hp : p < v.length) (hc : c < v.length) :
    ∃ v', swapAt v p c = .ok v' ∧ v'.length = v.length ∧
      v'[p]? = v[c]? ∧ v'[c]? = v[p]? ∧ ∀ q, q ≠ p → q ≠ c → v'[q]? = v[q]? := by
  refine ⟨(v.set p v[c]).set c v[p], ?_, ?_, ?_, ?_, ?_⟩
  · simp [swapAt, List.getElem?_eq_getElem hp, List.getElem?_eq_getElem hc]
  · simp
  · simp only [List.getElem?_set, List.length_set]
    by_cases h : c = p
    · subst h; simp [hc]
    · simp [h, hp, hc]
  · simp [List.getElem?_set, hc, hp]
  · intro q h1 h2
    simp [List.getElem?_set, Ne.symm h1, Ne.symm h2]

/-- the step of the position, relative to the start of the range, is addition of `k` modulo `m+k` -/
theorem pos_step (a m k p : Nat) (hp : p < m + k) :
    (if a + p ≥ a + m then a + p - m else a + p + k) = a + (p + k) % (m + k) := by
  split
  · have : (p + k) % (m + k) = p - m := by
      have h1 : p + k = (p - m) + (m + k) := by omega
      rw [h1, Nat.add_mod_right, Nat.mod_eq_of_lt (by omega)]
    rw [this]; omega
  · have : (p + k) % (m + k) = p + k := Nat.mod_eq_of_lt (by omega)
    rw [this]; omega

theorem back_step (m k x : Nat) (hx : x < m + k) : ((x + k) % (m + k) + m) % (m + k) = x := by
  rw [Nat.mod_add_mod, show x + k + m = x + (m + k) by omega, Nat.add_mod_right,
    Nat.mod_eq_of_lt hx]

/-- arithmetic facts on the cycle `t ↦ (p0 + t*k) % n` -/
theorem cycle_inj (m k p0 s t : Nat) (hk : 0 < k) (hst : s ≤ t)
    (h : (p0 + s * k) % (m + k) = (p0 + t * k) % (m + k)) :
    (m + k) / Nat.gcd m k ∣ t - s := by
  have hg : 0 < Nat.gcd m k := Nat.gcd_pos_of_pos_right _ hk
  have hgn : Nat.gcd m k ∣ m + k := Nat.dvd_add (Nat.gcd_dvd_left _ _) (Nat.gcd_dvd_right _ _)
  have hd : (m + k) ∣ (t - s) * k := by
    have h' : p0 + s * k ≡ p0 + t * k [MOD (m + k)] := h
    have h2 := (Nat.modEq_iff_dvd' (by nlinarith)).1 h'
    have : p0 + t * k - (p0 + s * k) = (t - s) * k := by
      rw [Nat.sub_mul]; omega
    rwa [this] at h2
  have hgcd : Nat.gcd (m + k) k = Nat.gcd m k := by simp
  have h3 : (m + k) / Nat.gcd m k ∣ (t - s) * (k / Nat.gcd m k) := by
    obtain ⟨c, hc⟩ := hd
    refine ⟨c, ?_⟩
    have hkg := Nat.gcd_dvd_right m k
    rw [← Nat.mul_div_assoc _ hkg, hc, Nat.mul_comm, Nat.mul_div_assoc _ hgn, Nat.mul_comm]
  have hcop : Nat.Coprime ((m + k) / Nat.gcd m k) (k / Nat.gcd m k) := by
    have := Nat.coprime_div_gcd_div_gcd (m := m + k) (n := k) (by rw [hgcd]; exact hg)
    rwa [hgcd] at this
  exact hcop.dvd_of_dvd_mul_right h3

theorem cycle_cover (m k p0 q : Nat) (hk : 0 < k) (hq : q < m + k)
    (h : q % Nat.gcd m k = p0 % Nat.gcd m k) :
    ∃ t, t < (m + k) / Nat.gcd m k ∧ (p0 + t * k) % (m + k) = q := by
  set g := Nat.gcd m k with hgdef
  set n := m + k with hn
  have hg : 0 < g := Nat.gcd_pos_of_pos_right _ hk
  have hgn : g ∣ n := Nat.dvd_add (Nat.gcd_dvd_left _ _) (Nat.gcd_dvd_right _ _)
  have hgk : g ∣ k := Nat.gcd_dvd_right _ _
  have hgcd : Nat.gcd k n = g := by rw [hn, Nat.gcd_comm]; simp [hgdef]
  have hbez : (g : ℤ) = k * Nat.gcdA k n + n * Nat.gcdB k n := by
    have := Nat.gcd_eq_gcd_ab k n
    rwa [hgcd] at this
  obtain ⟨u, hu⟩ : (g : ℤ) ∣ (q : ℤ) - p0 := (Nat.modEq_iff_dvd (n := g)).1 (Eq.symm h)
  have hL : 0 < n / g := Nat.div_pos (Nat.le_of_dvd (by omega) hgn) hg
  have hLpos : (0 : ℤ) < ((n / g : ℕ) : ℤ) := by exact_mod_cast hL
  let T : ℤ := (u * Nat.gcdA k n) % ((n / g : ℕ) : ℤ)
  have hT0 : 0 ≤ T := Int.emod_nonneg _ (ne_of_gt hLpos)
  have hTl : T < ((n / g : ℕ) : ℤ) := Int.emod_lt_of_pos _ hLpos
  refine ⟨T.toNat, by omega, ?_⟩
  have hTcast : ((T.toNat : ℕ) : ℤ) = T := Int.toNat_of_nonneg hT0
  have hmod : (p0 + T.toNat * k) ≡ q [MOD n] := by
    rw [Nat.modEq_iff_dvd]
    push_cast
    rw [hTcast]
    obtain ⟨w, hw⟩ : ((n / g : ℕ) : ℤ) ∣ u * Nat.gcdA k n - T := Int.dvd_self_sub_emod
    obtain ⟨k', hk'⟩ := hgk
    have hnn : (n : ℤ) = ((n / g : ℕ) : ℤ) * g := by
      exact_mod_cast (Nat.div_mul_cancel hgn).symm
    have hkk : (k : ℤ) = g * k' := by exact_mod_cast hk'
    refine ⟨w * k' + u * Nat.gcdB k n, ?_⟩
    have e1 : (q : ℤ) = p0 + g * u := by linarith
    have e2 : T = u * Nat.gcdA k n - ((n / g : ℕ) : ℤ) * w := by linarith
    rw [e1, e2]
    have e3 : (g : ℤ) * u = k * Nat.gcdA k n * u + n * Nat.gcdB k n * u := by
      rw [← add_mul, ← hbez]
    have e4 : ((n / g : ℕ) : ℤ) * w * k = n * w * k' := by
      rw [hkk, hnn]; ring
    linear_combination e3 + e4
  have : (p0 + T.toNat * k) % n = q % n := hmod
  rw [this, Nat.mod_eq_of_lt hq]

/-- Invariant of the inner loop after `j` iterations. -/
structure InnerInv (a m k p0 : Nat) (v w : List α) (j : Nat) : Prop where
  len : w.length = v.length
  lo : ∀ q, q < a → w[q]? = v[q]?
  hi : ∀ q, a + (m + k) ≤ q → w[q]? = v[q]?
  start : w[a + p0]? = v[a + (p0 + j * k) % (m + k)]?
  done : ∀ q, q < m + k → q ≠ p0 → (∃ t, 1 ≤ t ∧ t ≤ j ∧ q = (p0 + t * k) % (m + k)) →
    w[a + q]? = v[a + (q + m) % (m + k)]?
  rest : ∀ q, q < m + k → q ≠ p0 → (¬ ∃ t, 1 ≤ t ∧ t ≤ j ∧ q = (p0 + t * k) % (m + k)) →
    w[a + q]? = v[a + q]?

theorem permInner_inv (a m k p0 : Nat) (v : List α) (hk : 0 < k) (hp0 : p0 < m + k)
    (hlen : a + (m + k) ≤ v.length) :
    ∀ (r j : Nat) (w : List α), InnerInv a m k p0 v w j → j + r < (m + k) / Nat.gcd m k →
      ∃ w', permInner (a + m) m k (a + p0) r (a + (p0 + j * k) % (m + k)) w
              = .ok w' ∧ InnerInv a m k p0 v w' (j + r) ∧
        ∀ r', permInner (a + m) m k (a + p0) (r + r') (a + (p0 + j * k) % (m + k)) w
          = permInner (a + m) m k (a + p0) r' (a + (p0 + (j + r) * k) % (m + k)) w' := by
  intro r
  induction r with
  | zero => intro j w hw _; exact ⟨w, rfl, hw, by intro r'; simp⟩
  | succ r ih =>
    intro j w hw hj
    have hn : 0 < m + k := by omega
    have hpj : (p0 + j * k) % (m + k) < m + k := Nat.mod_lt _ hn
    have hstep := pos_step a m k _ hpj
    have hnext : ((p0 + j * k) % (m + k) + k) % (m + k) = (p0 + (j + 1) * k) % (m + k) := by
      rw [Nat.mod_add_mod]; congr 1; ring
    rw [hnext] at hstep
    set pj1 := (p0 + (j + 1) * k) % (m + k) with hpj1
    have hpj1lt : pj1 < m + k := Nat.mod_lt _ hn
    have hne : pj1 ≠ p0 := by
      intro he
      have := cycle_inj m k p0 0 (j + 1) hk (by omega)
        (by rw [← hpj1, he]; simp [Nat.mod_eq_of_lt hp0])
      have := Nat.le_of_dvd (by omega) this
      omega
    have hfresh : ¬ ∃ t, 1 ≤ t ∧ t ≤ j ∧ pj1 = (p0 + t * k) % (m + k) := by
      rintro ⟨t, _, h2, h3⟩
      have := cycle_inj m k p0 t (j + 1) hk (by omega) h3.symm
      have := Nat.le_of_dvd (by omega) this
      omega
    obtain ⟨w1, hsw, hl1, hx, hy, hz⟩ := swapAt_ok w (a + pj1) (a + p0)
      (by rw [hw.len]; omega) (by rw [hw.len]; omega)
    have hinv : InnerInv a m k p0 v w1 (j + 1) := by
      refine ⟨by rw [hl1, hw.len], ?_, ?_, ?_, ?_, ?_⟩
      · intro q hq; rw [hz q (by omega) (by omega), hw.lo q hq]
      · intro q hq; rw [hz q (by omega) (by omega), hw.hi q hq]
      · rw [hy, hw.rest pj1 hpj1lt hne hfresh]
      · intro q hq hqne ⟨t, h1, h2, h3⟩
        by_cases hqp : q = pj1
        · rw [hqp, hx, hw.start]
          rw [← hnext, back_step m k _ hpj]
        · rw [hz _ (by omega) (by omega)]
          refine hw.done q hq hqne ⟨t, h1, ?_, h3⟩
          rcases Nat.lt_or_ge j t with h | h
          · have : t = j + 1 := by omega
            rw [this] at h3
            exact absurd h3 hqp
          · exact h
      · intro q hq hqne hnot
        have hqp : q ≠ pj1 := fun he => hnot ⟨j + 1, by omega, le_refl _, he⟩
        rw [hz _ (by omega) (by omega)]
        exact hw.rest q hq hqne (fun ⟨t, h1, h2, h3⟩ => hnot ⟨t, h1, by omega, h3⟩)
    obtain ⟨w', e1, e2, e3⟩ := ih (j + 1) w1 hinv (by omega)
    rw [show j + 1 + r = j + (r + 1) by omega] at e2
    refine ⟨w', ?_, e2, ?_⟩
    · simp only [permInner, hstep, hsw]
      exact e1
    · intro r'
      rw [show r + 1 + r' = (r + r') + 1 by omega]
      simp only [permInner, hstep, hsw]
      rw [show j + (r + 1) = j + 1 + r by omega]
      exact e3 r'

/-- One complete cycle: every position with residue `i` receives its final value. -/
theorem permInner_cycle (a m k i : Nat) (v : List α) (hk : 0 < k) (_hm : 0 < m)
    (hi : i < Nat.gcd m k) (hlen : a + (m + k) ≤ v.length) :
    ∃ w, permInner (a + m) m k (a + m + i) ((m + k) / Nat.gcd m k) (a + m + i) v = .ok w ∧
      w.length = v.length ∧ (∀ q, q < a → w[q]? = v[q]?) ∧
      (∀ q, a + (m + k) ≤ q → w[q]? = v[q]?) ∧
      ∀ q, q < m + k → w[a + q]? =
        if q % Nat.gcd m k = i then v[a + (q + m) % (m + k)]? else v[a + q]? := by
  set g := Nat.gcd m k with hg
  have hgm : g ∣ m := Nat.gcd_dvd_left _ _
  have hgk : g ∣ k := Nat.gcd_dvd_right _ _
  have hgle : g ≤ k := Nat.le_of_dvd hk hgk
  have hn : 0 < m + k := by omega
  have hgn : g ∣ m + k := Nat.dvd_add hgm hgk
  have hgpos : 0 < g := by omega
  have hL : 0 < (m + k) / g := Nat.div_pos (Nat.le_of_dvd hn hgn) hgpos
  have hp0 : m + i < m + k := by omega
  have hp0mod : (m + i) % g = i := by
    rw [Nat.add_mod, Nat.mod_eq_zero_of_dvd hgm]
    simp [Nat.mod_eq_of_lt hi]
  set L := (m + k) / g with hLdef
  have inv0 : InnerInv a m k (m + i) v v 0 :=
    { len := rfl, lo := fun _ _ => rfl, hi := fun _ _ => rfl
      start := by simp [Nat.mod_eq_of_lt hp0]
      done := by rintro q _ _ ⟨t, h1, h2, _⟩; omega
      rest := fun _ _ _ _ => rfl }
  obtain ⟨w, e1, e2, e3⟩ := permInner_inv a m k (m + i) v hk hp0 hlen (L - 1) 0 v inv0
    (by rw [← hg, ← hLdef]; omega)
  simp only [Nat.zero_add, Nat.zero_mul, Nat.add_zero, Nat.mod_eq_of_lt hp0] at e1 e2 e3
  have e4 := e3 1
  rw [show L - 1 + 1 = L by omega] at e4
  -- last iteration: exchange of `p0` with itself
  have hpj : (m + i + (L - 1) * k) % (m + k) < m + k := Nat.mod_lt _ hn
  have hstep := pos_step a m k _ hpj
  have hLk : (m + k) ∣ L * k := by
    obtain ⟨k', hk'⟩ := hgk
    refine ⟨k', ?_⟩
    rw [show L * k = (L * g) * k' by conv_lhs => rw [hk']
                                     ring]
    rw [hLdef, Nat.div_mul_cancel hgn]
  have hnext : ((m + i + (L - 1) * k) % (m + k) + k) % (m + k) = m + i := by
    rw [Nat.mod_add_mod]
    have : m + i + (L - 1) * k + k = m + i + L * k := by
      obtain ⟨l, hl⟩ : ∃ l, L = l + 1 := ⟨L - 1, by omega⟩
      rw [hl]; simp; ring
    rw [this]
    obtain ⟨c, hc⟩ := hLk
    rw [hc, Nat.add_mul_mod_self_left, Nat.mod_eq_of_lt hp0]
  rw [hnext] at hstep
  obtain ⟨w1, hsw, hl1, hx, hy, hz⟩ := swapAt_ok w (a + (m + i)) (a + (m + i))
    (by rw [e2.len]; omega) (by rw [e2.len]; omega)
  have hw1 : w1 = w := by
    apply List.ext_getElem?
    intro q
    by_cases hq : q = a + (m + i)
    · rw [hq, hx]
    · exact hz q hq hq
  refine ⟨w, ?_, e2.len, e2.lo, e2.hi, ?_⟩
  · rw [show a + m + i = a + (m + i) by omega, e4]
    simp only [permInner, hstep, hsw, hw1]
    rfl
  · intro q hq
    have hback : ∀ t, ((m + i + t * k) % (m + k)) % g = i := by
      intro t
      rw [Nat.mod_mod_of_dvd _ hgn, Nat.add_mod, hp0mod,
        Nat.mod_eq_zero_of_dvd (Dvd.dvd.mul_left hgk t)]
      simp [Nat.mod_eq_of_lt hi]
    split
    · next hr =>
      obtain ⟨t, ht, htq⟩ := cycle_cover m k (m + i) q hk hq (by rw [← hg, hr, hp0mod])
      rw [← hg, ← hLdef] at ht
      by_cases hqp : q = m + i
      · rw [hqp, e2.start]
        congr 2
        rw [← back_step m k _ hpj, hnext]
      · refine e2.done q hq hqp ⟨t, ?_, by omega, htq.symm⟩
        rcases Nat.eq_zero_or_pos t with h0 | h0
        · exfalso; apply hqp
          rw [← htq, h0]; simp [Nat.mod_eq_of_lt hp0]
        · exact h0
    · next hr =>
      refine e2.rest q hq (fun he => hr (by rw [he, hp0mod])) ?_
      rintro ⟨t, _, _, h3⟩
      exact hr (by rw [h3, hback])

theorem permOuter_ok (a m k : Nat) (v : List α) (hk : 0 < k) (hm : 0 < m)
    (hlen : a + (m + k) ≤ v.length) :
    ∀ (r i : Nat) (w : List α), i + r = Nat.gcd m k → w.length = v.length →
      (∀ q, q < a → w[q]? = v[q]?) → (∀ q, a + (m + k) ≤ q → w[q]? = v[q]?) →
      (∀ q, q < m + k → w[a + q]? =
        if q % Nat.gcd m k < i then v[a + (q + m) % (m + k)]? else v[a + q]?) →
      ∃ w', permOuter (a + m) m k ((m + k) / Nat.gcd m k) r i w = .ok w' ∧
        w'.length = v.length ∧ (∀ q, q < a → w'[q]? = v[q]?) ∧
        (∀ q, a + (m + k) ≤ q → w'[q]? = v[q]?) ∧
        (∀ q, q < m + k → w'[a + q]? = v[a + (q + m) % (m + k)]?) := by
  intro r
  have hgm : Nat.gcd m k ∣ m := Nat.gcd_dvd_left _ _
  have hgk : Nat.gcd m k ∣ k := Nat.gcd_dvd_right _ _
  have hgn : Nat.gcd m k ∣ m + k := Nat.dvd_add hgm hgk
  have hgpos : 0 < Nat.gcd m k := Nat.gcd_pos_of_pos_right _ hk
  induction r with
  | zero =>
    intro i w hi hl h1 h2 h3
    refine ⟨w, rfl, hl, h1, h2, ?_⟩
    intro q hq
    rw [h3 q hq, if_pos]
    have := Nat.mod_lt q hgpos
    omega
  | succ r ih =>
    intro i w hi hl h1 h2 h3
    obtain ⟨w1, e, f0, f1, f2, f3⟩ := permInner_cycle a m k i w hk hm (by omega) (by omega)
    have hres : ∀ q, ((q + m) % (m + k)) % Nat.gcd m k = q % Nat.gcd m k := by
      intro q
      rw [Nat.mod_mod_of_dvd _ hgn, Nat.add_mod, Nat.mod_eq_zero_of_dvd hgm]
      simp
    obtain ⟨w', g0, g1⟩ := ih (i + 1) w1 (by omega) (by rw [f0, hl])
      (fun q hq => by rw [f1 q hq, h1 q hq]) (fun q hq => by rw [f2 q hq, h2 q hq])
      (fun q hq => by
        rw [f3 q hq]
        split
        · next hr =>
          rw [if_pos (by omega), h3 _ (Nat.mod_lt _ (by omega)), if_neg (by rw [hres]; omega)]
        · next hr =>
          rw [h3 q hq]
          by_cases hlt : q % Nat.gcd m k < i
          · rw [if_pos hlt, if_pos (by omega)]
          · rw [if_neg hlt, if_neg (by omega)])
    refine ⟨w', ?_, g1⟩
    simp only [permOuter, e]
    exact g0

theorem getElem?_app (A B : List α) (i : Nat) : (A ++ B)[A.length + i]? = B[i]? := by
  rw [List.getElem?_append_right (by omega), Nat.add_sub_cancel_left]

/-- The block exchange performed by `permute_args`. -/
theorem permuteArgs_blocks (P N O R : List α) (hN : N ≠ []) (hO : O ≠ []) :
    permuteArgs P.length (P.length + N.length) (P.length + N.length + O.length)
      (P ++ N ++ O ++ R) = .ok (P ++ O ++ N ++ R) := by
  have hm : 0 < N.length := List.length_pos_iff.2 hN
  have hk : 0 < O.length := List.length_pos_iff.2 hO
  have hlen : P.length + (N.length + O.length) ≤ (P ++ N ++ O ++ R).length := by
    simp only [List.length_append]; omega
  obtain ⟨w, e, f0, f1, f2, f3⟩ := permOuter_ok P.length N.length O.length (P ++ N ++ O ++ R) hk hm
    hlen (Nat.gcd N.length O.length) 0 (P ++ N ++ O ++ R) (by omega) rfl (fun _ _ => rfl)
    (fun _ _ => rfl) (fun q hq => by simp)
  have e1 : P.length + N.length - P.length = N.length := by omega
  have e2 : P.length + N.length + O.length - (P.length + N.length) = O.length := by omega
  have e3 : P.length + N.length + O.length - P.length = N.length + O.length := by omega
  unfold permuteArgs
  simp only [e1, e2, e3, gcdLoop_eq _ _ hk]
  show permOuter _ _ _ _ _ _ _ = _
  rw [e]
  congr 1
  apply List.ext_getElem?
  intro q
  by_cases h1 : q < P.length
  · rw [f1 q h1]
    simp [List.getElem?_append_left h1]
  · by_cases h2 : P.length + (N.length + O.length) ≤ q
    · rw [f2 q h2]
      rw [List.getElem?_append_right (by simp; omega), List.getElem?_append_right (by simp; omega)]
      congr 1
      simp; omega
    · obtain ⟨p, rfl⟩ : ∃ p, q = P.length + p := ⟨q - P.length, by omega⟩
      have hp : p < N.length + O.length := by omega
      rw [f3 p hp]
      simp only [List.append_assoc]
      rw [getElem?_app P, getElem?_app P]
      by_cases hpo : p < O.length
      · rw [Nat.mod_eq_of_lt (by omega), Nat.add_comm p, getElem?_app N,
          List.getElem?_append_left hpo, List.getElem?_append_left hpo]
      · have : (p + N.length) % (N.length + O.length) = p - O.length := by
          rw [show p + N.length = (p - O.length) + (N.length + O.length) by omega,
            Nat.add_mod_right, Nat.mod_eq_of_lt (by omega)]
        obtain ⟨r, rfl⟩ : ∃ r, p = O.length + r := ⟨p - O.length, by omega⟩
        rw [this, Nat.add_sub_cancel_left, getElem?_app O, List.getElem?_append_left (by omega),
          List.getElem?_append_left (by omega)]

end
end Argtable
