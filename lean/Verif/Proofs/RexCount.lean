import Verif.Proofs.RegexCompile
/-!
# Repetition counts of any length
-/

namespace Argtable

open Spec

theorem parseDigits_any {c0 : Char} {p : CStr} (hc0 : isDigit c0 = false) : ∀ (w : CStr) (acc pos : Nat), (∀ c ∈ w, isDigit c = true) →
    (digVal w acc : Int) ≤ INT_MAX → 0 < pos → pos * 10 ^ w.length ≤ 1000000000 →
    parseDigits (w ++ c0 :: p) (acc : Int) (pos : Int) = .ok (((digVal w acc : Nat) : Int), c0 :: p) := by
  intro w
  induction w with
  | nil =>
    intro acc pos _ _ _ _
    show parseDigits (c0 :: p) _ _ = _
    rw [parseDigits, if_neg (by rw [hc0]; simp)]
    rfl
  | cons c w ih =>
    intro acc pos hw hv hpos hlim
    have hd := isDigit_nat (hw c (by simp))
    have hle := digVal_le w (acc * 10 + (c.toNat - 48))
    have hv' : (digVal w (acc * 10 + (c.toNat - 48)) : Int) ≤ INT_MAX := hv
    have hlim' : pos * 10 * 10 ^ w.length ≤ 1000000000 := by
      rw [List.length_cons, Nat.pow_succ] at hlim
      rw [Nat.mul_assoc, Nat.mul_comm 10]
      exact hlim
    have hp1 : 1 ≤ 10 ^ w.length := Nat.one_le_pow _ _ (by omega)
    have hp2 : pos * 10 ≤ 1000000000 := Nat.le_trans (Nat.le_mul_of_pos_right _ hp1) hlim'
    rw [List.cons_append, parseDigits, if_pos (hw c (by simp))]
    have e1 : (acc : Int) * 10 + ((c.toNat : Int) - 48) = ((acc * 10 + (c.toNat - 48) : Nat) : Int) := by omega
    have e2 : (pos : Int) * 10 = ((pos * 10 : Nat) : Int) := by omega
    rw [e1, if_neg (by omega), if_neg (by omega), e2,
      ih _ _ (fun d hd => hw d (by simp [hd])) hv' (by omega) hlim']
    rfl

/-- The tenth digit. -/
theorem parseDigits_ten {p : CStr} : ∀ (w : CStr) (acc pos : Nat), (∀ c ∈ w, isDigit c = true) →
    0 < w.length →
    pos * 10 ^ (w.length - 1) = 1000000000 → acc < pos →
    parseDigits (w ++ p) (acc : Int) (pos : Int) =
      if (digVal w acc : Int) > INT_MAX then .error (.fault (.ub "trex_parsenumber: signed overflow"))
      else .error (.bad "overflow in numeric constant") := by
  intro w
  induction w with
  | nil => intro acc pos _ h; simp at h
  | cons c w ih =>
    intro acc pos hw _ hlim hap
    have hd := isDigit_nat (hw c (by simp))
    rw [List.cons_append, parseDigits, if_pos (hw c (by simp))]
    have e1 : (acc : Int) * 10 + ((c.toNat : Int) - 48) = ((acc * 10 + (c.toNat - 48) : Nat) : Int) := by omega
    have e2 : (pos : Int) * 10 = ((pos * 10 : Nat) : Int) := by omega
    simp only [List.length_cons, Nat.add_sub_cancel] at hlim
    by_cases h0 : w.length = 0
    · have : w = [] := List.length_eq_zero_iff.1 h0
      subst this
      simp only [List.length_nil, Nat.pow_zero, Nat.mul_one] at hlim
      rw [e1]
      have : digVal [c] acc = acc * 10 + (c.toNat - 48) := rfl
      rw [this]
      split
      · rfl
      · rw [if_pos (by omega)]
    · have hlim' : pos * 10 * 10 ^ (w.length - 1) = 1000000000 := by
        rw [Nat.mul_assoc, Nat.mul_comm 10, ← Nat.pow_succ, show (w.length - 1).succ = w.length by omega]
        exact hlim
      have hp1 : 1 ≤ 10 ^ (w.length - 1) := Nat.one_le_pow _ _ (by omega)
      have hp2 : pos * 10 ≤ 1000000000 := by
        rw [← hlim']; exact Nat.le_mul_of_pos_right _ hp1
      have hacc : acc * 10 + (c.toNat - 48) < pos * 10 := by omega
      rw [e1, if_neg (by unfold INT_MAX; omega), if_neg (by omega), e2]
      exact ih (acc * 10 + (c.toNat - 48)) (pos * 10) (fun d hd => hw d (by simp [hd])) (by omega) hlim' hacc

/-- Compiling `a{…`. -/
theorem compile_brace {c : Char} {w : CStr} {s0 : RState}
    (hs0 : s0 = ⟨'{' :: c :: w, [{ type := .expr, right := 0 }, { type := .char 'a', right := -1 }], w.length + 3, 1⟩) :
    (∀ f, quantifier s0 = .error (.fault f) → rexCompile ('a' :: '{' :: c :: w) = .error f) ∧
    (∀ e, quantifier s0 = .error (.bad e) → rexCompile ('a' :: '{' :: c :: w) = .ok none) := by
  have key : ∀ e, quantifier s0 = .error e →
      (do
        let (first, s) ← newnode .expr ⟨'a' :: '{' :: c :: w, [], ('a' :: '{' :: c :: w).length, 0⟩
        let (res, s) ← rexList (2 * ('a' :: '{' :: c :: w).length + 2) s
        let s := s.setLeft first res
        if s.p ≠ [] then .error (.bad "unexpected character") else .ok s.nodes : RM (List RNode)) = .error e := by
    intro e he
    rw [hs0] at he
    have h1 : newnode .expr ⟨'a' :: '{' :: c :: w, [], ('a' :: '{' :: c :: w).length, 0⟩
        = .ok (0, ⟨'a' :: '{' :: c :: w, [{ type := .expr, right := 0 }], w.length + 3, 1⟩) := by
      simp [newnode]
    have h2 : ∀ n, rexElement (n + 1) ⟨'a' :: '{' :: c :: w, [{ type := .expr, right := 0 }], w.length + 3, 1⟩ = .error e := by
      intro n
      rw [rexElement]
      have h3 : rexAtom (rexList n) ⟨'a' :: '{' :: c :: w, [{ type := .expr, right := 0 }], w.length + 3, 1⟩
          = .ok (1, ⟨'{' :: c :: w, [{ type := .expr, right := 0 }, { type := .char 'a', right := -1 }], w.length + 3, 1⟩) := by
        have hlt : ¬ w.length + 3 < 2 := by omega
        simp [rexAtom, charnode, newnode, isPrint, hlt]
      rw [h3, rbind_ok]
      dsimp only
      rw [he]
      rfl
    have h4 : ∀ n, rexList (n + 2) ⟨'a' :: '{' :: c :: w, [{ type := .expr, right := 0 }], w.length + 3, 1⟩ = .error e := by
      intro n
      rw [rexList]
      have : listHead (rexElement (n + 1)) ⟨'a' :: '{' :: c :: w, [{ type := .expr, right := 0 }], w.length + 3, 1⟩ = .error e := by
        show rexElement (n + 1) _ = _
        exact h2 n
      rw [this]
      rfl
    rw [h1, rbind_ok]
    dsimp only
    rw [h4]
    rfl
  constructor
  · intro f hf
    unfold rexCompile
    dsimp only
    rw [key _ hf]
  · intro f hf
    unfold rexCompile
    dsimp only
    rw [key _ hf]

/-- A count of ten or more digits. -/
theorem quantifier_ten {c : Char} {w p : CStr} {n : Nat} (h : Numeral 10 (c :: w) n) (hl : w.length = 9) {s : RState}
    (hp : s.p = '{' :: c :: (w ++ p)) : quantifier s =
      if (n : Int) > INT_MAX then .error (.fault (.ub "trex_parsenumber: signed overflow"))
      else .error (.bad "overflow in numeric constant") := by
  obtain ⟨h1, h2⟩ := digVal_numeral h
  have hc := isDigit_nat (h1 c (by simp))
  rw [quantifier_brace hp (h1 c (by simp))]
  have e1 : (c.toNat : Int) - 48 = ((c.toNat - 48 : Nat) : Int) := by omega
  have hv : digVal w (c.toNat - 48) = n := by
    have : digVal (c :: w) 0 = digVal w (0 * 10 + (c.toNat - 48)) := rfl
    rw [this] at h2
    simpa using h2
  have := parseDigits_ten (p := p) w (c.toNat - 48) 10 (fun d hd => h1 d (by simp [hd])) (by omega)
    (by rw [hl]; rfl) (by omega)
  unfold parseNumber
  dsimp only
  rw [e1, show (10 : Int) = ((10 : Nat) : Int) from rfl, this, hv]
  split <;> rfl

/-- A count of at most nine digits. -/
theorem parseNumber_any {ds : CStr} {n : Nat} (h : Numeral 10 ds n) (hl : ds.length ≤ 9) {c0 : Char} {p : CStr}
    (hc0 : isDigit c0 = false) {s : RState} (hp : s.p = ds ++ c0 :: p) :
    parseNumber s = .ok (n % 65536, { s with p := c0 :: p }) := by
  obtain ⟨h1, h2⟩ := digVal_numeral h
  have hlt : ∀ (w : CStr) (acc : Nat), (∀ c ∈ w, isDigit c = true) → digVal w acc < (acc + 1) * 10 ^ w.length := by
    intro w
    induction w with
    | nil => intro acc _; simp [digVal]
    | cons c w ih =>
      intro acc hw
      have hd := isDigit_nat (hw c (by simp))
      have h3 := ih (acc * 10 + (c.toNat - 48)) (fun d hd => hw d (by simp [hd]))
      have h4 : digVal (c :: w) acc = digVal w (acc * 10 + (c.toNat - 48)) := rfl
      rw [h4, List.length_cons, Nat.pow_succ]
      have h5 : (acc * 10 + (c.toNat - 48) + 1) * 10 ^ w.length ≤ ((acc + 1) * 10) * 10 ^ w.length :=
        Nat.mul_le_mul_right _ (by omega)
      have h6 : ((acc + 1) * 10) * 10 ^ w.length = (acc + 1) * (10 ^ w.length * 10) := by
        rw [Nat.mul_assoc, Nat.mul_comm 10]
      omega
  cases ds with
  | nil =>
    have : ∀ {ds : CStr} {n : Nat}, Numeral 10 ds n → ds ≠ [] := by
      intro ds n h
      cases h <;> simp
    exact absurd rfl (this h)
  | cons c w =>
    have hc := isDigit_nat (h1 c (by simp))
    have hv : digVal w (c.toNat - 48) = n := by
      have : digVal (c :: w) 0 = digVal w (0 * 10 + (c.toNat - 48)) := rfl
      rw [this] at h2
      simpa using h2
    have hw : w.length ≤ 8 := by simp at hl; omega
    have hpw : 10 ^ w.length ≤ 10 ^ 8 := Nat.pow_le_pow_right (by omega) hw
    have hn := hlt w (c.toNat - 48) (fun d hd => h1 d (by simp [hd]))
    have hn' : n < 10 * 10 ^ 8 := by
      rw [hv] at hn
      refine Nat.lt_of_lt_of_le hn (Nat.mul_le_mul (by omega) hpw)
    unfold parseNumber
    rw [hp]
    dsimp only [List.cons_append]
    have e1 : (c.toNat : Int) - 48 = ((c.toNat - 48 : Nat) : Int) := by omega
    have := parseDigits_any hc0 (p := p) w (c.toNat - 48) 10 (fun d hd => h1 d (by simp [hd]))
      (by rw [hv]; unfold INT_MAX; omega) (by omega) (by omega)
    rw [e1, show (10 : Int) = ((10 : Nat) : Int) from rfl, this, rbind_ok, hv]
    have : (((n : Nat) : Int) % 65536).toNat = n % 65536 := by omega
    dsimp only
    rw [this]

/-- Compiling `a{…}`. -/
theorem compile_count {ds : CStr} {n : Nat} (h : Numeral 10 ds n) (hl : ds.length ≤ 9) :
    rexCompile ('a' :: '{' :: (ds ++ ['}'])) =
      if n % 65536 ≥ 32768 then .error (.ub "trex_element: signed shift overflow")
      else .ok (some [{ type := .expr, left := 2, right := 0 }, { type := .char 'a', right := -1 },
        { type := .greedy, left := 1, right := ((n % 65536 : Nat) : Int) * 65536 + ((n % 65536 : Nat) : Int) }]) := by
  obtain ⟨hd, -⟩ := digVal_numeral h
  have hne : ds ≠ [] := by
    have : ∀ {ds : CStr} {n : Nat}, Numeral 10 ds n → ds ≠ [] := by
      intro ds n h
      cases h <;> simp
    exact this h
  cases ds with
  | nil => exact absurd rfl hne
  | cons c w =>
  generalize hL : w.length + 4 = L
  have h1 : newnode .expr ⟨'a' :: '{' :: (c :: w ++ ['}']), [], ('a' :: '{' :: (c :: w ++ ['}'])).length, 0⟩
      = .ok (0, ⟨'a' :: '{' :: (c :: w ++ ['}']), [{ type := .expr, right := 0 }], L, 1⟩) := by
    simp [newnode, hL.symm]
  have hnum := parseNumber_any h hl (c0 := '}') (p := []) (by decide)
    (s := ⟨c :: w ++ ['}'], [{ type := .expr, right := 0 }, { type := .char 'a', right := -1 }], L, 1⟩) rfl
  have hq : quantifier ⟨'{' :: (c :: w ++ ['}']), [{ type := .expr, right := 0 }, { type := .char 'a', right := -1 }], L, 1⟩
      = .ok (some (n % 65536, n % 65536), ⟨[], [{ type := .expr, right := 0 }, { type := .char 'a', right := -1 }], L, 1⟩) := by
    rw [quantifier_brace (c := c) (p := w ++ ['}']) rfl (hd c (by simp))]
    have e : ({ p := c :: (w ++ ['}']), nodes := [{ type := .expr, right := 0 }, { type := .char 'a', right := -1 }], nalloc := L, nsub := 1 } : RState)
      = ⟨c :: w ++ ['}'], [{ type := .expr, right := 0 }, { type := .char 'a', right := -1 }], L, 1⟩ := rfl
    dsimp only
    rw [e, hnum]
    rfl
  have h3 : ∀ k, rexAtom (rexList k) ⟨'a' :: '{' :: (c :: w ++ ['}']), [{ type := .expr, right := 0 }], L, 1⟩
      = .ok (1, ⟨'{' :: (c :: w ++ ['}']), [{ type := .expr, right := 0 }, { type := .char 'a', right := -1 }], L, 1⟩) := by
    intro k
    have hlt : ¬ L < 2 := by omega
    have hlt' : 1 < L := by omega
    simp [rexAtom, charnode, newnode, isPrint, hlt, hlt']
  unfold rexCompile
  dsimp only
  rw [h1, rbind_ok]
  dsimp only
  rw [show 2 * ('a' :: '{' :: (c :: w ++ ['}'])).length + 2 = (2 * L) + 1 + 1 by simp [← hL]]
  rw [rexList]
  show (match (do
    let (res, s) ← (do
      let (ret, s) ← rexElement (2 * L + 1) ⟨'a' :: '{' :: (c :: w ++ ['}']), [{ type := .expr, right := 0 }], L, 1⟩
      match s.p with
      | '|' :: p => do
        let (temp, s) ← newnode .or { s with p := p }
        let (tright, s) ← rexList (2 * L + 1) (s.setLeft temp ret)
        .ok (temp, s.setRight temp tright)
      | _ => .ok (ret, s))
    let s := s.setLeft 0 res
    if s.p ≠ [] then .error (.bad "unexpected character") else .ok s.nodes : RM (List RNode)) with
    | .ok nodes => .ok (some nodes)
    | .error (.bad _) => .ok none
    | .error (.fault f) => .error f : M (Option (List RNode))) = _
  rw [rexElement, h3, rbind_ok]
  dsimp only
  rw [hq, rbind_ok]
  dsimp only
  unfold wrapGreedy
  dsimp only
  by_cases hge : n % 65536 ≥ 32768
  · simp only [if_pos hge]
    rfl
  · simp only [if_neg hge]
    have h5 : newnode .greedy ⟨[], [{ type := .expr, right := 0 }, { type := .char 'a', right := -1 }], L, 1⟩
        = .ok (2, ⟨[], [{ type := .expr, right := 0 }, { type := .char 'a', right := -1 }, { type := .greedy, right := -1 }], L, 1⟩) := by
      have hlt : ¬ L < 3 := by omega
      have hlt' : 2 < L := by omega
      simp [newnode, hlt, hlt']
    rw [h5]
    rfl

end Argtable
