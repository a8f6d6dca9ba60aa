import Verif.Model.Sort
import Verif.Spec.Sort
import Mathlib.Data.List.Perm.Basic

/-!
# `arg_mgsort`: proofs
-/

namespace Argtable

open Spec

variable {α : Type} {cmp : α → α → Int} {esize : Int}

/-- What one merge computes. -/
def mergeL (cmp : α → α → Int) : List α → List α → List α
  | [], r => r
  | l, [] => l
  | a :: l, b :: r => if cmp a b < 0 then a :: mergeL cmp l (b :: r) else b :: mergeL cmp (a :: l) r
termination_by l r => l.length + r.length

theorem mergeL_nil_left (r : List α) : mergeL cmp [] r = r := by rw [mergeL]
theorem mergeL_nil_right (l : List α) : mergeL cmp l [] = l := by
  cases l <;> simp [mergeL]
theorem mergeL_cons (a : α) (l : List α) (b : α) (r : List α) : mergeL cmp (a :: l) (b :: r) =
    if cmp a b < 0 then a :: mergeL cmp l (b :: r) else b :: mergeL cmp (a :: l) r := by rw [mergeL]

theorem mergeL_perm : ∀ (n : Nat) (l r : List α), l.length + r.length = n → (mergeL cmp l r).Perm (l ++ r) := by
  intro n
  induction n with
  | zero =>
    intro l r h
    have hl : l = [] := List.length_eq_zero_iff.mp (by omega)
    have hr : r = [] := List.length_eq_zero_iff.mp (by omega)
    subst hl; subst hr
    rw [mergeL_nil_left]; exact List.Perm.refl _
  | succ n ih =>
    intro l r h
    cases l with
    | nil => rw [mergeL_nil_left]; exact List.Perm.refl _
    | cons a l =>
      cases r with
      | nil => rw [mergeL_nil_right, List.append_nil]
      | cons b r =>
        rw [mergeL_cons]
        split
        · exact (ih l (b :: r) (by simp at h ⊢; omega)).cons a
        · refine ((ih (a :: l) r (by simp at h ⊢; omega)).cons b).trans ?_
          exact List.perm_middle.symm

theorem mergeL_sorted (hc : Comparison cmp) : ∀ (n : Nat) (l r : List α), l.length + r.length = n →
    Ascending cmp l → Ascending cmp r → Ascending cmp (mergeL cmp l r) := by
  intro n
  induction n with
  | zero =>
    intro l r h _ hr
    have hl : l = [] := List.length_eq_zero_iff.mp (by omega)
    subst hl
    rw [mergeL_nil_left]; exact hr
  | succ n ih =>
    intro l r h hl hr
    cases l with
    | nil => rw [mergeL_nil_left]; exact hr
    | cons a l =>
      cases r with
      | nil => rw [mergeL_nil_right]; exact hl
      | cons b r =>
        rw [mergeL_cons]
        have hl' := List.pairwise_cons.mp hl
        have hr' := List.pairwise_cons.mp hr
        split
        · rename_i hab
          refine List.pairwise_cons.mpr ⟨?_, ih l (b :: r) (by simp at h ⊢; omega) hl'.2 hr⟩
          intro x hx
          have hx' := (mergeL_perm _ l (b :: r) rfl).mem_iff.mp hx
          rcases List.mem_append.mp hx' with h1 | h1
          · exact hl'.1 x h1
          · rcases List.mem_cons.mp h1 with rfl | h1
            · omega
            · exact hc.trans _ _ _ (by omega) (hr'.1 x h1)
        · rename_i hab
          have hba : cmp b a ≤ 0 := by
            by_contra h0
            exact hab ((hc.flip a b).mpr (by omega))
          refine List.pairwise_cons.mpr ⟨?_, ih (a :: l) r (by simp at h ⊢; omega) hl hr'.2⟩
          intro x hx
          have hx' := (mergeL_perm _ (a :: l) r rfl).mem_iff.mp hx
          rcases List.mem_append.mp hx' with h1 | h1
          · rcases List.mem_cons.mp h1 with rfl | h1
            · exact hba
            · exact hc.trans _ _ _ hba (hl'.1 x h1)
          · exact hr'.1 x h1

/-- Elements equivalent to `x`. -/
def same (cmp : α → α → Int) (x : α) (l : List α) : List α := l.filter (fun y => cmp x y = 0)

theorem Comparison.zero_symm (hc : Comparison cmp) {a b : α} (h : cmp a b = 0) : cmp b a = 0 := by
  have h1 := hc.flip a b
  have h2 := hc.flip b a
  omega

theorem mergeL_same (hc : Comparison cmp) (x : α) : ∀ (n : Nat) (l r : List α), l.length + r.length = n →
    Ascending cmp r → same cmp x (mergeL cmp l r) = same cmp x r ++ same cmp x l := by
  intro n
  induction n with
  | zero =>
    intro l r h _
    have hl : l = [] := List.length_eq_zero_iff.mp (by omega)
    subst hl
    rw [mergeL_nil_left]; simp [same]
  | succ n ih =>
    intro l r h hr
    cases l with
    | nil => rw [mergeL_nil_left]; simp [same]
    | cons a l =>
      cases r with
      | nil => rw [mergeL_nil_right]; simp [same]
      | cons b r =>
        rw [mergeL_cons]
        have hr' := List.pairwise_cons.mp hr
        split
        · rename_i hab
          have ih' := ih l (b :: r) (by simp at h ⊢; omega) hr
          by_cases hxa : cmp x a = 0
          · -- nothing on the right is equivalent to `x`
            have hnone : same cmp x (b :: r) = [] := by
              unfold same
              rw [List.filter_eq_nil_iff]
              intro y hy hxy
              simp only [decide_eq_true_eq] at hxy
              have hby : cmp b y ≤ 0 := by
                rcases List.mem_cons.mp hy with rfl | hy
                · have := hc.flip y y
                  omega
                · exact hr'.1 y hy
              have h1 : cmp y x ≤ 0 := by rw [Comparison.zero_symm hc hxy]; exact Int.le_refl 0
              have h2 : cmp b a ≤ 0 := hc.trans _ _ _ (hc.trans _ _ _ hby h1) (by omega)
              have := (hc.flip a b).mp hab
              omega
            rw [hnone, List.nil_append] at ih' ⊢
            show List.filter _ (a :: _) = List.filter _ (a :: _)
            rw [List.filter_cons_of_pos (by simpa using hxa), List.filter_cons_of_pos (by simpa using hxa)]
            congr 1
          · show List.filter _ (a :: _) = _ ++ List.filter _ (a :: _)
            rw [List.filter_cons_of_neg (by simpa using hxa), List.filter_cons_of_neg (by simpa using hxa)]
            exact ih'
        · have ih' := ih (a :: l) r (by simp at h ⊢; omega) hr'.2
          by_cases hxb : cmp x b = 0
          · show List.filter _ (b :: _) = List.filter _ (b :: _) ++ _
            rw [List.filter_cons_of_pos (by simpa using hxb), List.filter_cons_of_pos (by simpa using hxb),
              List.cons_append]
            congr 1
          · show List.filter _ (b :: _) = List.filter _ (b :: _) ++ _
            rw [List.filter_cons_of_neg (by simpa using hxb), List.filter_cons_of_neg (by simpa using hxb)]
            exact ih'

/-! ## The loop computes the merge -/

theorem sbind_ok {β γ : Type} (a : β) (k : β → M γ) : ((Except.ok a : M β) >>= k) = k a := rfl

theorem byteOff_ok {n N : Int} (h0 : 0 ≤ n) (h1 : n ≤ N) (he : 0 ≤ esize) (hN : N * esize ≤ 2147483647) :
    byteOff esize n = .ok () := by
  have h2 : n * esize ≤ N * esize := Int.mul_le_mul_of_nonneg_right h1 he
  have h3 : 0 ≤ n * esize := Int.mul_nonneg h0 he
  unfold byteOff
  rw [if_pos ⟨by omega, by omega⟩]
  rfl

theorem elemGet_ok {a : List α} {n : Nat} {x : α} {N : Int} (hn : (n : Int) ≤ N) (he : 0 ≤ esize)
    (hN : N * esize ≤ 2147483647) (h : a[n]? = some x) : elemGet esize a (n : Int) = .ok x := by
  unfold elemGet
  rw [byteOff_ok (by omega) hn he hN, sbind_ok]
  rw [if_neg (by omega), show ((n : Int).toNat) = n from rfl, h]
  rfl

theorem get_mid (p l : List α) (x : α) (q : List α) : (p ++ l ++ x :: q)[p.length + l.length]? = some x := by
  rw [List.getElem?_append_right (by simp)]
  simp

theorem mergeLoop_ok (cmp : α → α → Int) (pre post l r : List α) (he : 0 ≤ esize)
    (hN : ((pre.length : Int) + l.length + r.length) * esize ≤ 2147483647) :
    ∀ (n : Nat) (l1 l2 r1 r2 m : List α), l = l1 ++ l2 → r = r1 ++ r2 → l2.length + r2.length = n →
      m.length = l1.length + r1.length →
      ∀ fuel, n < fuel →
      mergeLoop esize (pre ++ l ++ r ++ post) pre.length (pre.length + l.length - 1) (pre.length + l.length + r.length - 1)
        cmp fuel (pre.length + l1.length) (pre.length + l.length + r1.length) m = .ok (m ++ mergeL cmp l2 r2) := by
  intro n
  induction n with
  | zero =>
    intro l1 l2 r1 r2 m hl hr hn hm fuel hf
    have h1 : l2 = [] := List.length_eq_zero_iff.mp (by omega)
    have h2 : r2 = [] := List.length_eq_zero_iff.mp (by omega)
    subst h1; subst h2
    cases fuel with
    | zero => omega
    | succ fuel =>
      rw [mergeLoop, mergeL_nil_left, List.append_nil]
      have e1 : l.length = l1.length := by rw [hl]; simp
      have e2 : r.length = r1.length := by rw [hr]; simp
      rw [if_neg (by omega)]
      rfl
  | succ n ih =>
    intro l1 l2 r1 r2 m hl hr hn hm fuel hf
    have e1 : l.length = l1.length + l2.length := by rw [hl]; simp
    have e2 : r.length = r1.length + r2.length := by rw [hr]; simp
    cases fuel with
    | zero => omega
    | succ fuel =>
      have hput : ∀ x, tempPut esize ((pre.length : Int) + l.length + r.length - 1 - pre.length + 1) m x = .ok (m ++ [x]) := by
        intro x
        unfold tempPut
        rw [byteOff_ok (N := (pre.length : Int) + l.length + r.length) (by omega) (by omega) he hN, sbind_ok]
        rw [if_pos (by omega)]
        rfl
      have left : ∀ x l2', l2 = x :: l2' →
          elemGet esize (pre ++ l ++ r ++ post) ((pre.length : Int) + l1.length) = .ok x ∧
          mergeLoop esize (pre ++ l ++ r ++ post) pre.length (pre.length + l.length - 1) (pre.length + l.length + r.length - 1)
            cmp fuel ((pre.length : Int) + l1.length + 1) (pre.length + l.length + r1.length) (m ++ [x]) =
            .ok (m ++ x :: mergeL cmp l2' r2) := by
        intro x l2' hx
        constructor
        · have := elemGet_ok (a := pre ++ l ++ r ++ post) (n := pre.length + l1.length) (x := x)
            (N := (pre.length : Int) + l.length + r.length) (by push_cast; omega) he hN (by
            have := get_mid pre l1 x (l2' ++ r ++ post)
            rw [← this]
            rw [hl, hx]
            simp)
          push_cast at this
          exact this
        · have := ih (l1 ++ [x]) l2' r1 r2 (m ++ [x]) (by rw [hl, hx]; simp) hr
            (by rw [hx] at hn; simp at hn; omega) (by simp; omega) fuel (by omega)
          rw [List.length_append, List.length_singleton] at this
          push_cast at this
          rw [← Int.add_assoc] at this
          rw [this]
          simp
      have right : ∀ x r2', r2 = x :: r2' →
          elemGet esize (pre ++ l ++ r ++ post) ((pre.length : Int) + l.length + r1.length) = .ok x ∧
          mergeLoop esize (pre ++ l ++ r ++ post) pre.length (pre.length + l.length - 1) (pre.length + l.length + r.length - 1)
            cmp fuel ((pre.length : Int) + l1.length) (pre.length + l.length + r1.length + 1) (m ++ [x]) =
            .ok (m ++ x :: mergeL cmp l2 r2') := by
        intro x r2' hx
        constructor
        · have := elemGet_ok (a := pre ++ l ++ r ++ post) (n := pre.length + l.length + r1.length) (x := x)
            (N := (pre.length : Int) + l.length + r.length) (by push_cast; omega) he hN (by
            have := get_mid (pre ++ l) r1 x (r2' ++ post)
            rw [List.length_append] at this
            rw [← this, hr, hx]
            simp)
          push_cast at this
          exact this
        · have := ih l1 l2 (r1 ++ [x]) r2' (m ++ [x]) hl (by rw [hr, hx]; simp)
            (by rw [hx] at hn; simp at hn; omega) (by simp; omega) fuel (by omega)
          rw [List.length_append (as := r1), List.length_singleton] at this
          push_cast at this
          rw [← Int.add_assoc] at this
          rw [this]
          simp
      rw [mergeLoop, if_pos (by omega)]
      cases l2 with
      | nil =>
        rw [if_pos (by simp at e1; omega)]
        cases r2 with
        | nil => simp at hn
        | cons x r2 =>
          obtain ⟨g1, g2⟩ := right x r2 rfl
          rw [g1, sbind_ok, hput, sbind_ok, g2, mergeL_nil_left, mergeL_nil_left]
      | cons a l2 =>
        rw [if_neg (by simp at e1; omega)]
        obtain ⟨f1, f2⟩ := left a l2 rfl
        cases r2 with
        | nil =>
          rw [if_pos (by simp at e2; omega), f1, sbind_ok, hput, sbind_ok, f2, mergeL_nil_right, mergeL_nil_right]
        | cons b r2 =>
          obtain ⟨g1, g2⟩ := right b r2 rfl
          rw [if_neg (by simp at e2; omega), f1, sbind_ok, g1, sbind_ok, mergeL_cons]
          split
          · rw [hput, sbind_ok, f2]
          · rw [hput, sbind_ok, g2]

theorem mergeRuns_ok (cmp : α → α → Int) (pre post l r : List α) (hl : l ≠ []) (he : 0 ≤ esize)
    (hN : ((pre.length : Int) + l.length + r.length) * esize ≤ 2147483647) :
    mergeRuns esize (pre ++ l ++ r ++ post) pre.length (pre.length + l.length - 1) (pre.length + l.length + r.length - 1) cmp =
      .ok (pre ++ mergeL cmp l r ++ post) := by
  have hl' : 0 < l.length := List.length_pos_iff.mpr hl
  unfold mergeRuns
  rw [byteOff_ok (N := (pre.length : Int) + l.length + r.length) (by omega) (by omega) he hN, sbind_ok]
  have h := mergeLoop_ok cmp pre post l r he hN _ [] l [] r [] rfl rfl rfl rfl
    (((pre.length : Int) + l.length + r.length - 1 - pre.length + 1).toNat + 1) (by omega)
  simp only [List.length_nil, Int.natCast_zero, Int.add_zero, List.nil_append] at h
  rw [show (pre.length : Int) + l.length - 1 + 1 = pre.length + l.length from by omega, h, sbind_ok]
  have hlen := (mergeL_perm (cmp := cmp) _ l r rfl).length_eq
  rw [List.length_append] at hlen
  unfold copyBack
  rw [byteOff_ok (N := (pre.length : Int) + l.length + r.length) (by omega) (by omega) he hN, sbind_ok,
    byteOff_ok (N := (pre.length : Int) + l.length + r.length) (by omega) (by omega) he hN, sbind_ok]
  rw [if_neg (by rw [hlen]; push_cast; omega), if_neg (by simp; omega)]
  rw [hlen]
  have e1 : (pre ++ l ++ r ++ post).take ((pre.length : Int).toNat) = pre := by
    rw [List.append_assoc, List.append_assoc]
    simp
  have e2 : (pre ++ l ++ r ++ post).drop ((pre.length : Int).toNat + (l.length + r.length)) = post := by
    have : (pre.length : Int).toNat + (l.length + r.length) = (pre ++ l ++ r).length := by simp [Nat.add_assoc]
    rw [this]
    simp
  rw [e1, e2]
  rfl

theorem mgsort_ok (hc : Comparison cmp) (he : 0 ≤ esize) :
    ∀ (depth : Nat) (pre mid post : List α), mid.length ≤ depth → 0 < depth →
      2 * ((pre.length : Int) + mid.length) ≤ 2147483650 → ((pre.length : Int) + mid.length) * esize ≤ 2147483647 →
      ∃ mid', mgsort esize cmp depth (pre ++ mid ++ post) pre.length (pre.length + mid.length - 1) =
          .ok (pre ++ mid' ++ post) ∧ mid'.Perm mid ∧ Ascending cmp mid' ∧
        ∀ x, same cmp x mid' = (same cmp x mid).reverse := by
  intro depth
  induction depth with
  | zero => intro _ _ _ _ h; omega
  | succ depth ih =>
    intro pre mid post hd _ hsz hN
    rw [mgsort]
    by_cases hlt : (pre.length : Int) < pre.length + mid.length - 1
    · rw [if_pos hlt, if_neg (by omega)]
      -- split the range
      have hn : 2 ≤ mid.length := by omega
      obtain ⟨nl, hnl⟩ : ∃ nl : Nat, ((pre.length : Int) + (pre.length + mid.length - 1) - 1).tdiv 2 = pre.length + nl - 1 ∧
          0 < nl ∧ nl < mid.length := by
        rw [Int.tdiv_eq_ediv_of_nonneg (by omega)]
        refine ⟨(((pre.length : Int) + (pre.length + mid.length - 1) - 1) / 2 - pre.length + 1).toNat, ?_, ?_, ?_⟩ <;> omega
      obtain ⟨hj, hn0, hn1⟩ := hnl
      have hsplit : mid = mid.take nl ++ mid.drop nl := (List.take_append_drop nl mid).symm
      have ll : (mid.take nl).length = nl := by rw [List.length_take]; omega
      have lr : (mid.drop nl).length = mid.length - nl := List.length_drop ..
      generalize mid.take nl = l at *
      generalize mid.drop nl = r at *
      subst hsplit
      rw [List.length_append] at *
      obtain ⟨l', a1, a2, a3, a4⟩ := ih pre l (r ++ post) (by omega) (by omega) (by push_cast at hsz; omega) (by
          refine Int.le_trans (Int.mul_le_mul_of_nonneg_right ?_ he) hN; push_cast; omega)
      have hl' := a2.length_eq
      obtain ⟨r', b1, b2, b3, b4⟩ := ih (pre ++ l') r post (by omega) (by omega)
        (by rw [List.length_append]; push_cast at hsz ⊢; omega) (by
          refine Int.le_trans (Int.mul_le_mul_of_nonneg_right ?_ he) hN
          rw [List.length_append]; push_cast; omega)
      have hr' := b2.length_eq
      dsimp only
      rw [hj, ← ll]
      have k1 : mgsort esize cmp depth (pre ++ (l ++ r) ++ post) (↑pre.length) (↑pre.length + ↑l.length - 1) = .ok (pre ++ l' ++ (r ++ post)) := by
        rw [← a1]; simp
      rw [k1, sbind_ok]
      have k2 : mgsort esize cmp depth (pre ++ l' ++ (r ++ post)) (↑pre.length + ↑l.length - 1 + 1)
          (↑pre.length + (↑(l.length + r.length)) - 1) = .ok (pre ++ l' ++ r' ++ post) := by
        rw [← b1, List.length_append, hl']
        rw [← List.append_assoc]
        congr 1 <;> push_cast <;> omega
      rw [k2, sbind_ok]
      have k3 := mergeRuns_ok cmp pre post l' r' (by intro h0; rw [h0] at hl'; simp at hl'; omega) he
        (by rw [hl', hr']; push_cast at hN; rw [Int.add_assoc]; exact hN)
      rw [hl', hr'] at k3
      have k3' : mergeRuns esize (pre ++ l' ++ r' ++ post) (↑pre.length) (↑pre.length + ↑l.length - 1)
          (↑pre.length + (↑(l.length + r.length)) - 1) cmp = .ok (pre ++ mergeL cmp l' r' ++ post) := by
        rw [← k3]
        congr 1
        push_cast
        omega
      refine ⟨_, k3', (mergeL_perm _ l' r' rfl).trans (a2.append b2), mergeL_sorted hc _ l' r' rfl a3 b3, ?_⟩
      intro x
      rw [mergeL_same hc x _ l' r' rfl b3, a4, b4]
      simp [same]
    · rw [if_neg hlt]
      refine ⟨mid, rfl, List.Perm.refl _, ?_, ?_⟩
      · cases mid with
        | nil => exact List.Pairwise.nil
        | cons a mid =>
          cases mid with
          | nil => exact List.pairwise_singleton _ _
          | cons b mid => simp at hlt; omega
      · intro x
        cases mid with
        | nil => rfl
        | cons a mid =>
          cases mid with
          | nil =>
            unfold same
            rw [List.filter_cons]
            split <;> rfl
          | cons b mid => simp at hlt; omega

theorem sbind_inv {β γ : Type} {x : M β} {k : β → M γ} {b : γ} (h : (x >>= k) = .ok b) : ∃ a, x = .ok a ∧ k a = .ok b := by
  cases x with
  | error e => cases h
  | ok a => exact ⟨a, rfl, h⟩

/-- A sort that returns did not overflow. -/
theorem mgsort_positions : ∀ (depth : Nat) (a a' : List α) (i k : Int), 0 ≤ i → i < k →
    mgsort esize cmp depth a i k = .ok a' → 2 * k ≤ 2147483648 ∧ (k - i + 1) * esize ≤ 2147483647 := by
  intro depth
  induction depth with
  | zero => intro a a' i k _ _ h; cases h
  | succ depth ih =>
    intro a a' i k hi hik h
    rw [mgsort, if_pos hik] at h
    by_cases hmax : i + k > 2147483647
    · rw [if_pos hmax] at h; cases h
    rw [if_neg hmax] at h
    have hj : (i + k - 1).tdiv 2 = (i + k - 1) / 2 := Int.tdiv_eq_ediv_of_nonneg (by omega)
    obtain ⟨a1, h1, h⟩ := sbind_inv h
    obtain ⟨a2, h2, h⟩ := sbind_inv h
    refine ⟨?_, ?_⟩
    · by_cases hlast : i + 1 = k
      · omega
      · exact (ih a1 a2 _ k (by rw [hj]; omega) (by rw [hj]; omega) h2).1
    · unfold mergeRuns at h
      obtain ⟨u, h3, -⟩ := sbind_inv h
      unfold byteOff at h3
      split at h3
      · rename_i hb; exact hb.2
      · cases h3

end Argtable
