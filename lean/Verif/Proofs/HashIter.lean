import Verif.Proofs.HashOps

/-!
# Hash table: iteration and destruction
-/

namespace Argtable

open Spec

variable {κ ν : Type}

/-- The addresses in `n` buckets from bucket `i` on. -/
def allFrom (B : Nat → List Nat) : Nat → Nat → List Nat
  | 0, _ => []
  | n + 1, i => B i ++ allFrom B n (i + 1)

theorem mem_allFrom {B : Nat → List Nat} {a : Nat} :
    ∀ {n i : Nat}, a ∈ allFrom B n i ↔ ∃ j, i ≤ j ∧ j < i + n ∧ a ∈ B j := by
  intro n
  induction n with
  | zero => intro i; simp [allFrom]; intro j _ _; omega
  | succ n ih =>
    intro i
    rw [allFrom, List.mem_append, ih]
    constructor
    · rintro (h | ⟨j, h1, h2, h3⟩)
      · exact ⟨i, Nat.le_refl _, by omega, h⟩
      · exact ⟨j, by omega, by omega, h3⟩
    · rintro ⟨j, h1, h2, h3⟩
      by_cases hj : j = i
      · exact Or.inl (hj ▸ h3)
      · exact Or.inr ⟨j, by omega, by omega, h3⟩

theorem allFrom_congr {B B' : Nat → List Nat} :
    ∀ {n i : Nat}, (∀ j, i ≤ j → j < i + n → B j = B' j) → allFrom B n i = allFrom B' n i := by
  intro n
  induction n with
  | zero => intro i _; rfl
  | succ n ih =>
    intro i h
    rw [allFrom, allFrom, h i (Nat.le_refl _) (by omega), ih (fun j h1 h2 => h j (by omega) (by omega))]

theorem TabInv.allFrom_nodup {f : HFns κ} {t : HTab κ ν} {B : Nat → List Nat} {A : List (κ × ν)}
    (h : TabInv f t B A) : ∀ n i, i + n ≤ t.tablelength → (allFrom B n i).Nodup := by
  intro n
  induction n with
  | zero => intro i _; exact List.nodup_nil
  | succ n ih =>
    intro i hi
    rw [allFrom, List.nodup_append]
    obtain ⟨hd, _, hp⟩ := h.path i (by omega)
    refine ⟨hp.nodup, ih (i + 1) (by omega), ?_⟩
    rintro a ha b hb rfl
    obtain ⟨j, h1, h2, h3⟩ := mem_allFrom.mp hb
    obtain ⟨m, hm⟩ := hp.mem_some ha
    have e1 := (h.node i (by omega) a ha m hm).1
    have e2 := (h.node j (by omega) a h3 m hm).1
    omega

theorem TabInv.mem_all {f : HFns κ} {t : HTab κ ν} {B : Nat → List Nat} {A : List (κ × ν)}
    (h : TabInv f t B A) {a : Nat} : a ∈ allFrom B t.tablelength 0 ↔ ∃ n, t.mem a = some n := by
  rw [mem_allFrom]
  constructor
  · rintro ⟨j, _, hj, ha⟩
    obtain ⟨hd, _, hp⟩ := h.path j (by omega)
    exact hp.mem_some ha
  · rintro ⟨n, hn⟩
    exact ⟨_, Nat.zero_le _, by have := Nat.mod_lt n.h.toNat h.pos; omega, h.all a n hn⟩

/-- The entry list `vs` is what the addresses `L` hold. -/
def Holds (mem : Nat → Option (HNode κ ν)) : List Nat → List (κ × ν) → Prop
  | [], vs => vs = []
  | a :: L, vs => ∃ n vs', mem a = some n ∧ vs = (n.k, n.v) :: vs' ∧ Holds mem L vs'

theorem Holds.mem {mem : Nat → Option (HNode κ ν)} :
    ∀ {L : List Nat} {vs : List (κ × ν)}, Holds mem L vs → ∀ e, e ∈ vs ↔ ∃ a ∈ L, ∃ n, mem a = some n ∧ e = (n.k, n.v) := by
  intro L
  induction L with
  | nil => intro vs h e; have : vs = [] := h; simp [this]
  | cons a L ih =>
    rintro vs ⟨n, vs', h1, rfl, h3⟩ e
    rw [List.mem_cons, ih h3]
    constructor
    · rintro (rfl | ⟨b, hb, m, hm, rfl⟩)
      · exact ⟨a, by simp, n, h1, rfl⟩
      · exact ⟨b, by simp [hb], m, hm, rfl⟩
    · rintro ⟨b, hb, m, hm, rfl⟩
      rcases List.mem_cons.mp hb with rfl | hb
      · rw [h1] at hm
        cases hm
        exact Or.inl rfl
      · exact Or.inr ⟨b, hb, m, hm, rfl⟩

theorem Holds.congr {mem mem' : Nat → Option (HNode κ ν)} :
    ∀ {L : List Nat} {vs : List (κ × ν)}, Holds mem L vs →
      (∀ b ∈ L, ∀ n, mem b = some n → ∃ n', mem' b = some n' ∧ n'.k = n.k ∧ n'.v = n.v) → Holds mem' L vs := by
  intro L
  induction L with
  | nil => intro vs h _; exact h
  | cons a L ih =>
    rintro vs ⟨n, vs', h1, rfl, h3⟩ h
    obtain ⟨n', g1, g2, g3⟩ := h a (by simp) n h1
    exact ⟨n', vs', g1, by rw [g2, g3], ih h3 (fun b hb => h b (by simp [hb]))⟩

theorem Holds.exists {mem : Nat → Option (HNode κ ν)} :
    ∀ {L : List Nat}, (∀ a ∈ L, ∃ n, mem a = some n) → ∃ vs, Holds mem L vs := by
  intro L
  induction L with
  | nil => intro _; exact ⟨[], rfl⟩
  | cons a L ih =>
    intro h
    obtain ⟨n, hn⟩ := h a (by simp)
    obtain ⟨vs, hv⟩ := ih (fun b hb => h b (by simp [hb]))
    exact ⟨_, n, vs, hn, rfl, hv⟩

theorem Holds.length {mem : Nat → Option (HNode κ ν)} :
    ∀ {L : List Nat} {vs : List (κ × ν)}, Holds mem L vs → vs.length = L.length := by
  intro L
  induction L with
  | nil => intro vs h; have : vs = [] := h; simp [this]
  | cons a L ih =>
    rintro vs ⟨n, vs', h1, rfl, h3⟩
    simp [ih h3]

/-- Distinct addresses of a table hold entries with different keys. -/
theorem TabInv.holds_pw {f : HFns κ} {t : HTab κ ν} {B : Nat → List Nat} {A : List (κ × ν)}
    (h : TabInv f t B A) : ∀ {L : List Nat} {vs : List (κ × ν)}, L.Nodup → Holds t.mem L vs →
      vs.Pairwise (fun p q => f.eqfn p.1 q.1 = false) := by
  intro L
  induction L with
  | nil => intro vs _ hv; have : vs = [] := hv; simp [this]
  | cons a L ih =>
    rintro vs hnd ⟨n, vs', h1, rfl, h3⟩
    rw [List.nodup_cons] at hnd
    rw [List.pairwise_cons]
    refine ⟨?_, ih hnd.2 h3⟩
    intro e he
    obtain ⟨b, hb, m, hm, rfl⟩ := (h3.mem e).mp he
    cases hc : f.eqfn n.k m.k with
    | false => rfl
    | true =>
      have := h.inj a b n m h1 hm hc
      subst this
      exact absurd hb hnd.1

/-- All addresses of a table hold its entries. -/
theorem TabInv.holds_perm {f : HFns κ} (hf : HashLawful f) {t : HTab κ ν} {B : Nat → List Nat}
    {A : List (κ × ν)} (h : TabInv f t B A) {vs : List (κ × ν)}
    (hv : Holds t.mem (allFrom B t.tablelength 0) vs) : vs.Perm A := by
  refine (List.perm_ext_iff_of_nodup
    (nodup_of_pw hf (h.holds_pw (h.allFrom_nodup _ _ (by omega)) hv)) (nodup_of_pw hf h.pw)).mpr ?_
  intro e
  rw [hv.mem, h.memA]
  constructor
  · rintro ⟨a, _, n, hn, rfl⟩
    exact ⟨a, n, hn, rfl⟩
  · rintro ⟨a, n, hn, rfl⟩
    exact ⟨a, h.mem_all.mpr ⟨n, hn⟩, n, hn, rfl⟩

/-! ## Iterator positions -/

/-- The iterator stands at the first of the addresses `rest`, which are all that is left to visit. -/
def AtItr (tl : Nat) (B : Nat → List Nat) (it : HItr) (rest : List Nat) : Prop :=
  match rest with
  | [] => it.e = none
  | a :: r => ∃ pre post, it.index < tl ∧ B it.index = pre ++ a :: post ∧ it.e = some a ∧
      it.parent = pre.getLast? ∧ r = post ++ allFrom B (tl - it.index - 1) (it.index + 1)

theorem firstBucket_ok {table : List (Option Nat)} {mem : Nat → Option (HNode κ ν)} {B : Nat → List Nat} :
    ∀ (n i : Nat), (∀ j, i ≤ j → j < i + n → ∃ hd, table[j]? = some hd ∧ HChain mem hd (B j)) →
      (firstBucket table n i = .ok none ∧ allFrom B n i = []) ∨
      (∃ j a post, firstBucket table n i = .ok (some (j, a)) ∧ i ≤ j ∧ j < i + n ∧ B j = a :: post ∧
        allFrom B n i = a :: post ++ allFrom B (i + n - j - 1) (j + 1)) := by
  intro n
  induction n with
  | zero => intro i _; exact Or.inl ⟨rfl, rfl⟩
  | succ n ih =>
    intro i h
    obtain ⟨hd, h1, h2⟩ := h i (Nat.le_refl _) (by omega)
    rw [firstBucket, tableGet_ok h1, hbind_ok, allFrom]
    cases hB : B i with
    | nil =>
      rw [hB] at h2
      have h2' : hd = none := h2
      subst h2'
      rcases ih (i + 1) (fun j g1 g2 => h j (by omega) (by omega)) with ⟨g1, g2⟩ | ⟨j, a, post, g1, g2, g3, g4, g5⟩
      · exact Or.inl ⟨g1, by rw [g2]; rfl⟩
      · refine Or.inr ⟨j, a, post, g1, by omega, by omega, g4, ?_⟩
        rw [g5, show i + (n + 1) - j - 1 = i + 1 + n - j - 1 from by omega]
        rfl
    | cons a post =>
      rw [hB] at h2
      have h2' := h2.1
      subst h2'
      refine Or.inr ⟨i, a, post, rfl, Nat.le_refl _, by omega, hB, ?_⟩
      rw [show i + (n + 1) - i - 1 = n from by omega]

/-- One step of an iterator that stands at `a` in bucket `it.index`, followed in its chain by `post`. -/
theorem itrAdvance_ok {t : HTab κ ν} {B : Nat → List Nat} {it : HItr} {a : Nat} {n : HNode κ ν}
    {post : List Nat} (he : it.e = some a) (hi : it.index < t.tablelength) (hn : t.mem a = some n)
    (hp : HChain t.mem n.next post)
    (hb : ∀ j, it.index < j → j < t.tablelength → ∃ hd, t.table[j]? = some hd ∧ HChain t.mem hd (B j)) :
    ∃ it' r, itrAdvance t it = .ok (it', r) ∧
      ((r = 0 ∧ it'.e = none ∧ it'.parent = none ∧ post ++ allFrom B (t.tablelength - it.index - 1) (it.index + 1) = []) ∨
       (r = -1 ∧ ∃ b post', post = b :: post' ∧ it' = { e := some b, parent := some a, index := it.index }) ∨
       (r = -1 ∧ post = [] ∧ ∃ j b post', it.index < j ∧ j < t.tablelength ∧ B j = b :: post' ∧
          it' = { e := some b, parent := none, index := j } ∧
          allFrom B (t.tablelength - it.index - 1) (it.index + 1) = b :: post' ++ allFrom B (t.tablelength - j - 1) (j + 1))) := by
  unfold itrAdvance
  rw [he]
  dsimp only
  rw [loadNode_ok hn, hbind_ok]
  cases post with
  | cons b post' =>
    have hp1 := hp.1
    rw [hp1]
    exact ⟨_, _, rfl, Or.inr (Or.inl ⟨rfl, b, post', rfl, rfl⟩)⟩
  | nil =>
    have hp1 : n.next = none := hp
    rw [hp1]
    dsimp only
    by_cases hl : t.tablelength ≤ it.index + 1
    · rw [if_pos hl]
      refine ⟨_, _, rfl, Or.inl ⟨rfl, rfl, rfl, ?_⟩⟩
      rw [show t.tablelength - it.index - 1 = 0 from by omega]
      rfl
    · rw [if_neg hl]
      rcases firstBucket_ok (B := B) (mem := t.mem) (t.tablelength - (it.index + 1)) (it.index + 1)
        (fun j g1 g2 => hb j (by omega) (by omega)) with ⟨g1, g2⟩ | ⟨j, b, post', g1, g2, g3, g4, g5⟩
      · rw [g1, hbind_ok]
        refine ⟨_, _, rfl, Or.inl ⟨rfl, rfl, rfl, ?_⟩⟩
        rw [show t.tablelength - it.index - 1 = t.tablelength - (it.index + 1) from by omega, g2]
        rfl
      · rw [g1, hbind_ok]
        refine ⟨_, _, rfl, Or.inr (Or.inr ⟨rfl, rfl, j, b, post', by omega, by omega, g4, rfl, ?_⟩)⟩
        rw [show t.tablelength - it.index - 1 = t.tablelength - (it.index + 1) from by omega, g5,
          show it.index + 1 + (t.tablelength - (it.index + 1)) - j - 1 = t.tablelength - j - 1 from by omega]

theorem TabInv.itrCreate {f : HFns κ} {t : HTab κ ν} {B : Nat → List Nat} {A : List (κ × ν)}
    (h : TabInv f t B A) (hne : A ≠ []) :
    ∃ it, itrCreate t = .ok it ∧ AtItr t.tablelength B it (allFrom B t.tablelength 0) := by
  unfold Argtable.itrCreate
  have hc : t.entrycount ≠ 0 := by
    rw [h.cnt]
    intro h0
    exact hne (List.length_eq_zero_iff.mp h0)
  rw [if_neg hc]
  rcases firstBucket_ok (B := B) (mem := t.mem) t.tablelength 0
    (fun j _ g2 => h.path j (by omega)) with ⟨g1, g2⟩ | ⟨j, b, post', g1, g2, g3, g4, g5⟩
  · rw [g1, hbind_ok]
    exact ⟨_, rfl, by rw [g2]; rfl⟩
  · rw [g1, hbind_ok]
    refine ⟨_, rfl, ?_⟩
    rw [g5]
    refine ⟨[], post', by dsimp only; omega, g4, rfl, rfl, ?_⟩
    dsimp only
    rw [show 0 + t.tablelength - j - 1 = t.tablelength - j - 1 from by omega]
    rfl

theorem TabInv.advance {f : HFns κ} {t : HTab κ ν} {B : Nat → List Nat} {A : List (κ × ν)}
    (h : TabInv f t B A) {it : HItr} {a : Nat} {rest : List Nat} (hat : AtItr t.tablelength B it (a :: rest)) :
    ∃ it' r, itrAdvance t it = .ok (it', r) ∧ AtItr t.tablelength B it' rest ∧
      (r = 0 ∧ rest = [] ∨ r = -1 ∧ rest ≠ []) := by
  obtain ⟨pre, post, hi, hB, he, hpar, hrest⟩ := hat
  obtain ⟨hd, p1, p2⟩ := h.path _ hi
  rw [hB] at p2
  obtain ⟨n, hn⟩ := p2.mem_some (a := a) (by simp)
  have hpost : HChain t.mem n.next post := (HChain.suffix p2).drop_head hn
  obtain ⟨it', r, e1, h1 | ⟨h1, b, post', h2, h3⟩ | ⟨h1, h2, j, b, post', h3, h4, h5, h6, h7⟩⟩ :=
    itrAdvance_ok (B := B) he hi hn hpost (fun j _ g2 => h.path j g2)
  · refine ⟨it', r, e1, ?_, Or.inl ⟨h1.1, ?_⟩⟩
    · rw [hrest, h1.2.2.2]; exact h1.2.1
    · rw [hrest, h1.2.2.2]
  · subst h2
    refine ⟨it', r, e1, ?_, Or.inr ⟨h1, by rw [hrest]; simp⟩⟩
    rw [hrest, h3]
    exact ⟨pre ++ [a], post', hi, by rw [hB]; simp, rfl, by simp, rfl⟩
  · subst h2
    refine ⟨it', r, e1, ?_, Or.inr ⟨h1, by rw [hrest, h7]; simp⟩⟩
    rw [hrest, List.nil_append, h7, h6]
    exact ⟨[], post', h4, h5, rfl, rfl, rfl⟩

/-- The entry under the iterator. -/
theorem TabInv.current {f : HFns κ} {t : HTab κ ν} {B : Nat → List Nat} {A : List (κ × ν)}
    (h : TabInv f t B A) {it : HItr} {a : Nat} {rest : List Nat} (hat : AtItr t.tablelength B it (a :: rest)) :
    ∃ n, t.mem a = some n ∧ itrKey t it = .ok n.k ∧ itrValue t it = .ok n.v := by
  obtain ⟨pre, post, hi, hB, he, hpar, hrest⟩ := hat
  obtain ⟨hd, p1, p2⟩ := h.path _ hi
  rw [hB] at p2
  obtain ⟨n, hn⟩ := p2.mem_some (a := a) (by simp)
  refine ⟨n, hn, ?_, ?_⟩
  · unfold itrKey itrNode
    rw [he]
    dsimp only
    rw [loadNode_ok hn]
    rfl
  · unfold itrValue itrNode
    rw [he]
    dsimp only
    rw [loadNode_ok hn]
    rfl

theorem TabInv.visitLoop {f : HFns κ} {t : HTab κ ν} {B : Nat → List Nat} {A : List (κ × ν)}
    (h : TabInv f t B A) : ∀ (rest : List Nat) (it : HItr) (fuel : Nat), rest ≠ [] → rest.length ≤ fuel →
      AtItr t.tablelength B it rest → ∃ vs, visitLoop t fuel it = .ok vs ∧ Holds t.mem rest vs := by
  intro rest
  induction rest with
  | nil => intro _ _ h0; exact absurd rfl h0
  | cons a rest ih =>
    intro it fuel _ hf hat
    cases fuel with
    | zero => simp at hf
    | succ fuel =>
      obtain ⟨n, hn, hk, hv⟩ := h.current hat
      obtain ⟨it', r, e1, e2, e3⟩ := h.advance hat
      rw [Spec.visitLoop, hk, hbind_ok, hv, hbind_ok, e1, hbind_ok]
      dsimp only
      rcases e3 with ⟨rfl, h0⟩ | ⟨rfl, h0⟩
      · rw [if_pos rfl, h0]
        exact ⟨_, rfl, n, [], hn, rfl, rfl⟩
      · rw [if_neg (by omega)]
        obtain ⟨vs, g1, g2⟩ := ih it' fuel h0 (by simpa using hf) e2
        rw [g1, hbind_ok]
        exact ⟨_, rfl, n, vs, hn, rfl, g2⟩

theorem TabInv.all_length {f : HFns κ} (hf : HashLawful f) {t : HTab κ ν} {B : Nat → List Nat}
    {A : List (κ × ν)} (h : TabInv f t B A) : (allFrom B t.tablelength 0).length = A.length := by
  obtain ⟨vs, hv⟩ := Holds.exists (mem := t.mem) (fun a ha => h.mem_all.mp ha)
  rw [← hv.length]
  exact (h.holds_perm hf hv).length_eq

theorem TabInv.visit {f : HFns κ} (hf : HashLawful f) {t : HTab κ ν} {B : Nat → List Nat}
    {A : List (κ × ν)} (h : TabInv f t B A) {fuel : Nat} (hfu : A.length ≤ fuel) :
    ∃ vs, visit t fuel = .ok vs ∧ vs.Perm A := by
  unfold Spec.visit hashCount
  by_cases hA : A = []
  · rw [if_pos (by rw [h.cnt, hA]; rfl), hA]
    exact ⟨[], rfl, List.Perm.refl _⟩
  · have hc : A.length ≠ 0 := fun h0 => hA (List.length_eq_zero_iff.mp h0)
    rw [if_neg (by rw [h.cnt]; exact hc)]
    obtain ⟨it, e1, e2⟩ := h.itrCreate hA
    have hl := h.all_length hf
    obtain ⟨vs, g1, g2⟩ := h.visitLoop _ it fuel
      (by intro h0; rw [h0] at hl; exact hc hl.symm) (by omega) e2
    rw [e1, hbind_ok]
    exact ⟨vs, g1, h.holds_perm hf g2⟩

/-! ## Removal through the iterator -/

theorem TabInv.rest_nodup {f : HFns κ} {t : HTab κ ν} {B : Nat → List Nat} {A : List (κ × ν)}
    (h : TabInv f t B A) {it : HItr} {a : Nat} {rest : List Nat} (hat : AtItr t.tablelength B it (a :: rest)) :
    (a :: rest).Nodup := by
  obtain ⟨pre, post, hi, hB, he, hpar, hrest⟩ := hat
  have := h.allFrom_nodup (t.tablelength - it.index - 1 + 1) it.index (by omega)
  rw [allFrom, hB, List.append_assoc] at this
  have := (List.nodup_append.mp this).2.1
  rw [hrest]
  exact this

theorem TabInv.itrRemove {f : HFns κ} (hf : HashLawful f) {t : HTab κ ν} {B : Nat → List Nat}
    {A : List (κ × ν)} (h : TabInv f t B A) {it : HItr} {a : Nat} {rest : List Nat} {n : HNode κ ν}
    (hat : AtItr t.tablelength B it (a :: rest)) (hn : t.mem a = some n) :
    ∃ t' it' r B', itrRemove t it = .ok (t', it', r) ∧ AtItr t'.tablelength B' it' rest ∧
      (r = 0 ∧ rest = [] ∨ r = -1 ∧ rest ≠ []) ∧
      TabInv f t' B' (A.filter (fun p => !f.eqfn n.k p.1)) ∧
      (∀ b, b ≠ a → (t'.mem b).map (fun n => (n.k, n.v, n.h)) = (t.mem b).map (fun n => (n.k, n.v, n.h))) ∧
      t'.freed = t.freed ++ [.inl n.k, .inr n.v] := by
  obtain ⟨pre, post, hi, hB, he, hpar, hrest⟩ := hat
  obtain ⟨t1, e1, e2, e3, e4, e5, e6, e7, e8, e9, e10⟩ := h.removeAt hf hi hB hn
  obtain ⟨hd, p1, p2⟩ := h.path _ hi
  rw [hB] at p2
  have hnd := p2.nodup
  have hpost : HChain t.mem n.next post := (HChain.suffix p2).drop_head hn
  have hpost1 : HChain t1.mem n.next post := by
    refine hpost.frame ?_
    intro b hb
    refine e7 b ?_
    intro hbp
    exact (List.nodup_append.mp hnd).2.2 b hbp b (by simp [hb]) rfl
  have hother : ∀ j, it.index < j → j < t.tablelength → ∃ hd, t1.table[j]? = some hd ∧ HChain t1.mem hd (B j) := by
    intro j hj hjt
    obtain ⟨hd', q1, q2⟩ := h.path j hjt
    refine ⟨hd', by rw [e6 j (by omega)]; exact q1, ?_⟩
    refine q2.frame ?_
    intro b hb
    refine e7 b ?_
    intro hbp
    obtain ⟨m, hm⟩ := q2.mem_some hb
    have k1 := (h.node j hjt b hb m hm).1
    have k2 := (h.node _ hi b (by rw [hB]; simp [hbp]) m hm).1
    omega
  have hadv := itrAdvance_ok
    (t := { t1 with entrycount := t1.entrycount - 1, freed := t1.freed ++ [.inl n.k, .inr n.v] })
    (B := B) (it := it) (post := post) he (by show it.index < t1.tablelength; rw [e4]; exact hi) e5 hpost1
    (by
      intro j hj hjt
      exact hother j hj (by rw [← e4]; exact hjt))
  obtain ⟨it', r, k1, k2⟩ := hadv
  have hrun : Argtable.itrRemove t it =
      .ok ({ t1 with
             entrycount := t1.entrycount - 1
             freed := t1.freed ++ [.inl n.k, .inr n.v]
             mem := memSet t1.mem a none },
        if it'.parent = some a then { it' with parent := it.parent } else it', r) := by
    unfold Argtable.itrRemove
    rw [he]
    dsimp only
    rw [loadNode_ok hn, hbind_ok, hpar, e1, hbind_ok]
    rw [k1, hbind_ok]
    rfl
  refine ⟨_, _, r, _, hrun, ?_, ?_, e10 _, ?_, ?_⟩
  · show AtItr t1.tablelength _ _ rest
    rw [e4, hrest]
    have k2' : _ ∨ _ ∨ _ := k2
    dsimp only at k2'
    rw [e4] at k2'
    have hcon : allFrom (fun x => if x = it.index then pre ++ post else B x) (t.tablelength - it.index - 1) (it.index + 1) =
        allFrom B (t.tablelength - it.index - 1) (it.index + 1) :=
      allFrom_congr (fun j g1 g2 => by rw [if_neg (by omega)])
    rcases k2' with ⟨_, q1, q2, q3⟩ | ⟨_, b, post', q1, q2⟩ | ⟨_, q1, j, b, post', q2, q3, q4, q5, q6⟩
    · rw [q3, q2, if_neg (by simp)]
      exact q1
    · rw [q2, if_pos rfl, q1]
      refine ⟨pre, post', hi, ?_, rfl, hpar, ?_⟩
      · dsimp only
        rw [if_pos rfl]
      · dsimp only
        rw [← hcon, q1]
        rfl
    · rw [q5, if_neg (by simp), q1, List.nil_append, q6]
      refine ⟨[], post', q3, ?_, rfl, rfl, ?_⟩
      · dsimp only
        rw [if_neg (by omega)]
        exact q4
      · dsimp only
        rw [allFrom_congr (B := fun x => if x = it.index then pre ++ [] else B x) (B' := B)
          (fun j' g1 g2 => if_neg (by omega))]
        rfl
  · have k2' : _ ∨ _ ∨ _ := k2
    dsimp only at k2'
    rw [e4] at k2'
    rw [hrest]
    rcases k2' with ⟨q0, q1, q2, q3⟩ | ⟨q0, b, post', q1, q2⟩ | ⟨q0, q1, j, b, post', q2, q3, q4, q5, q6⟩
    · exact Or.inl ⟨q0, q3⟩
    · exact Or.inr ⟨q0, by rw [q1]; simp⟩
    · exact Or.inr ⟨q0, by rw [q6]; simp⟩
  · intro b hb
    show (memSet t1.mem a none b).map _ = _
    rw [memSet_ne _ _ hb]
    exact e8 b
  · show t1.freed ++ _ = _
    rw [e3]

theorem TabInv.sweepLoop {f : HFns κ} (hf : HashLawful f) (p : κ → ν → Bool) :
    ∀ (rest : List Nat) (t : HTab κ ν) (B : Nat → List Nat) (A : List (κ × ν)) (it : HItr) (fuel : Nat),
      TabInv f t B A → rest ≠ [] → rest.length ≤ fuel → AtItr t.tablelength B it rest →
      ∃ t' B' A' vs, sweepLoop p fuel t it = .ok (t', vs) ∧ Holds t.mem rest vs ∧ TabInv f t' B' A' ∧
        (∀ e, e ∈ A' ↔ e ∈ A ∧ ¬(e ∈ vs ∧ p e.1 e.2 = true)) ∧
        t'.freed = t.freed ++ blocks (vs.filter (fun e => p e.1 e.2)) := by
  intro rest
  induction rest with
  | nil => intro _ _ _ _ _ _ h0; exact absurd rfl h0
  | cons a rest ih =>
    intro t B A it fuel h _ hfu hat
    cases fuel with
    | zero => simp at hfu
    | succ fuel =>
      obtain ⟨n, hn, hk, hv⟩ := h.current hat
      have hnd := List.nodup_cons.mp (h.rest_nodup hat)
      have hunf : Spec.sweepLoop p (fuel + 1) t it =
          (if p n.k n.v then Argtable.itrRemove t it
            else do
              let (it, r) ← itrAdvance t it
              pure (t, it, r)) >>= fun x => (if x.2.2 = 0 then pure (x.1, [(n.k, n.v)])
            else do
              let (t, rest) ← Spec.sweepLoop p fuel x.1 x.2.1
              pure (t, (n.k, n.v) :: rest)) := by
        rw [Spec.sweepLoop, hk, hbind_ok, hv, hbind_ok]
        dsimp only
        split
        · rfl
        · cases itrAdvance t it <;> rfl
      rw [hunf]
      by_cases hp : p n.k n.v = true
      · rw [if_pos hp]
        obtain ⟨t', it', r, B', e1, e2, e3, e4, e5, e6⟩ := h.itrRemove hf hat hn
        rw [e1, hbind_ok]
        dsimp only
        have hA : ∀ e, e ∈ A.filter (fun q => !f.eqfn n.k q.1) ↔ e ∈ A ∧ e ≠ (n.k, n.v) := by
          intro e
          rw [List.mem_filter]
          constructor
          · rintro ⟨g1, g2⟩
            refine ⟨g1, ?_⟩
            rintro rfl
            simp [hf.refl] at g2
          · rintro ⟨g1, g2⟩
            refine ⟨g1, ?_⟩
            obtain ⟨b, m, hm, rfl⟩ := (h.memA _).mp g1
            cases hc : f.eqfn n.k m.k with
            | false => rfl
            | true =>
              exfalso
              have := h.inj a b n m hn hm hc
              subst this
              rw [hn] at hm
              cases hm
              exact g2 rfl
        rcases e3 with ⟨rfl, h0⟩ | ⟨rfl, h0⟩
        · rw [if_pos rfl, h0]
          refine ⟨t', B', _, _, rfl, ⟨n, [], hn, rfl, rfl⟩, e4, ?_, ?_⟩
          · intro e
            rw [hA]
            constructor
            · rintro ⟨g1, g2⟩
              refine ⟨g1, ?_⟩
              rintro ⟨g3, _⟩
              exact g2 (by simpa using g3)
            · rintro ⟨g1, g2⟩
              refine ⟨g1, ?_⟩
              rintro rfl
              exact g2 ⟨by simp, hp⟩
          · rw [e6]
            simp [blocks, hp]
        · rw [if_neg (by omega)]
          obtain ⟨t2, B2, A2, vs, g1, g2, g3, g4, g5⟩ := ih t' B' _ it' fuel e4 h0 (by simpa using hfu) e2
          rw [g1, hbind_ok]
          have hvs : Holds t.mem rest vs := by
            refine g2.congr ?_
            intro b hb m hm
            have hba : b ≠ a := by
              rintro rfl
              exact hnd.1 hb
            have e5' := e5 b hba
            rw [hm] at e5'
            cases hm' : t.mem b with
            | none => rw [hm'] at e5'; simp at e5'
            | some m' =>
              rw [hm'] at e5'
              simp only [Option.map_some, Option.some.injEq, Prod.mk.injEq] at e5'
              exact ⟨m', rfl, e5'.1.symm, e5'.2.1.symm⟩
          refine ⟨t2, B2, A2, (n.k, n.v) :: vs, rfl, ⟨n, vs, hn, rfl, hvs⟩, g3, ?_, ?_⟩
          · intro e
            rw [g4, hA, List.mem_cons]
            constructor
            · rintro ⟨⟨k1, k2⟩, k3⟩
              exact ⟨k1, fun k4 => k4.1.elim (fun k5 => k2 k5) (fun k5 => k3 ⟨k5, k4.2⟩)⟩
            · rintro ⟨k1, k2⟩
              refine ⟨⟨k1, ?_⟩, fun k3 => k2 ⟨Or.inr k3.1, k3.2⟩⟩
              rintro rfl
              exact k2 ⟨Or.inl rfl, hp⟩
          · rw [g5, e6]
            simp [blocks, hp]
      · rw [if_neg hp]
        obtain ⟨it', r, e1, e2, e3⟩ := h.advance hat
        rw [e1, hbind_ok]
        dsimp only
        rcases e3 with ⟨rfl, h0⟩ | ⟨rfl, h0⟩
        · refine ⟨t, B, A, [(n.k, n.v)], rfl, ?_, h, ?_, ?_⟩
          · rw [h0]; exact ⟨n, [], hn, rfl, rfl⟩
          · intro e
            constructor
            · intro g1
              refine ⟨g1, ?_⟩
              rintro ⟨g2, g3⟩
              have : e = (n.k, n.v) := by simpa using g2
              subst this
              exact hp g3
            · exact fun g => g.1
          · simp [blocks, hp]
        · obtain ⟨t2, B2, A2, vs, g1, g2, g3, g4, g5⟩ := ih t B A it' fuel h h0 (by simpa using hfu) e2
          refine ⟨t2, B2, A2, (n.k, n.v) :: vs, ?_, ⟨n, vs, hn, rfl, g2⟩, g3, ?_, ?_⟩
          · have : ((pure (t, it', -1) : M (HTab κ ν × HItr × Int))) = .ok (t, it', -1) := rfl
            rw [this, hbind_ok]
            dsimp only
            rw [if_neg (by omega), g1]
            rfl
          · intro e
            rw [g4, List.mem_cons]
            constructor
            · rintro ⟨k1, k2⟩
              refine ⟨k1, ?_⟩
              rintro ⟨rfl | k3, k4⟩
              · exact hp k4
              · exact k2 ⟨k3, k4⟩
            · rintro ⟨k1, k2⟩
              exact ⟨k1, fun k3 => k2 ⟨Or.inr k3.1, k3.2⟩⟩
          · rw [g5]
            simp [hp]

theorem blocks_partition (q : κ × ν → Bool) (A : List (κ × ν)) :
    (blocks A).Perm (blocks (A.filter q) ++ blocks (A.filter (fun e => !q e))) := by
  unfold blocks
  rw [← List.flatMap_append]
  exact (List.filter_append_perm q A).symm.flatMap_right _

theorem TabInv.sweep {f : HFns κ} (hf : HashLawful f) (p : κ → ν → Bool) {t : HTab κ ν}
    {B : Nat → List Nat} {A : List (κ × ν)} (h : TabInv f t B A) {fuel : Nat} (hfu : A.length ≤ fuel) :
    ∃ t' B' vs fr, sweep p t fuel = .ok (t', vs) ∧ vs.Perm A ∧
      TabInv f t' B' (A.filter (fun e => !p e.1 e.2)) ∧ t'.freed = t.freed ++ fr ∧
      fr.Perm (blocks (A.filter (fun e => p e.1 e.2))) := by
  unfold Spec.sweep hashCount
  by_cases hA : A = []
  · subst hA
    rw [if_pos (by rw [h.cnt]; rfl)]
    exact ⟨t, B, [], [], rfl, List.Perm.refl _, h, by simp, List.Perm.refl _⟩
  · have hc : A.length ≠ 0 := fun h0 => hA (List.length_eq_zero_iff.mp h0)
    rw [if_neg (by rw [h.cnt]; exact hc)]
    obtain ⟨it, e1, e2⟩ := h.itrCreate hA
    have hl := h.all_length hf
    obtain ⟨t', B', A', vs, g1, g2, g3, g4, g5⟩ := TabInv.sweepLoop hf p _ t B A it fuel h
      (by intro h0; rw [h0] at hl; exact hc hl.symm) (by omega) e2
    rw [e1, hbind_ok]
    have hvp := h.holds_perm hf g2
    refine ⟨t', B', vs, _, g1, hvp, ?_, g5, (hvp.filter _).flatMap_right _⟩
    refine g3.congr hf (h.pw.filter _) ?_
    intro e
    rw [List.mem_filter, g4, hvp.mem_iff]
    constructor
    · rintro ⟨k1, k2⟩
      refine ⟨k1, fun k3 => ?_⟩
      rw [k3.2] at k2
      simp at k2
    · rintro ⟨k1, k2⟩
      refine ⟨k1, ?_⟩
      cases hb : p e.1 e.2 with
      | false => rfl
      | true => exact absurd ⟨k1, hb⟩ k2

/-! ## Searching with an iterator -/

theorem TabInv.itrSearch {f : HFns κ} (hf : HashLawful f) {t : HTab κ ν} {B : Nat → List Nat}
    {A : List (κ × ν)} (h : TabInv f t B A) (it : HItr) (k : κ) :
    (lookup f A k = none ∧ itrSearch f t it k = .ok (it, 0)) ∨
    (∃ a n it' rest, itrSearch f t it k = .ok (it', -1) ∧ t.mem a = some n ∧ f.eqfn k n.k = true ∧
      lookup f A k = some n.v ∧ AtItr t.tablelength B it' (a :: rest)) := by
  obtain ⟨i, hi, ⟨h1, h2⟩ | ⟨pre, a, post, n, h1, h2, h3, h4⟩⟩ := h.find hf k
  · left
    unfold lookup Argtable.itrSearch
    rw [h1, hbind_ok, lookup_absent h h2]
    exact ⟨rfl, rfl⟩
  · right
    refine ⟨a, n, { e := some a, parent := pre.getLast?, index := i }, _, ?_, h2, h3, ?_, pre, post, hi, h4, rfl, rfl, rfl⟩
    · unfold Argtable.itrSearch
      rw [h1, hbind_ok]
      rfl
    · unfold lookup
      rw [lookup_some hf h h2 h3]
      rfl

/-! ## Destruction -/

/-- The blocks that destroying the table frees. -/
def wanted (freeValues : Bool) (A : List (κ × ν)) : List (κ ⊕ ν) :=
  if freeValues then blocks A else A.map (fun p => Sum.inl p.1)

theorem wanted_cons (b : Bool) (e : κ × ν) (A : List (κ × ν)) :
    wanted b (e :: A) = (if b then [.inl e.1, .inr e.2] else [.inl e.1]) ++ wanted b A := by
  cases b <;> simp [wanted, blocks]

theorem wanted_append (b : Bool) (A A' : List (κ × ν)) : wanted b (A ++ A') = wanted b A ++ wanted b A' := by
  cases b <;> simp [wanted, blocks]

theorem wanted_perm (b : Bool) {A A' : List (κ × ν)} (h : A.Perm A') : (wanted b A).Perm (wanted b A') := by
  cases b
  · exact h.map _
  · exact h.flatMap_right _

theorem destroyChain_ok (fv : Bool) :
    ∀ (L : List Nat) (fuel : Nat) (hd : Option Nat) (mem : Nat → Option (HNode κ ν)) (freed : List (κ ⊕ ν)),
      HChain mem hd L → L.length < fuel → ∃ mem' vs, destroyChain fv fuel hd mem freed = .ok (mem', freed ++ wanted fv vs) ∧
        Holds mem L vs ∧ (∀ b ∈ L, mem' b = none) ∧ (∀ b, b ∉ L → mem' b = mem b) := by
  intro L
  induction L with
  | nil =>
    intro fuel hd mem freed hp hf
    cases fuel with
    | zero => omega
    | succ fuel =>
      have hp' : hd = none := hp
      subst hp'
      refine ⟨mem, [], ?_, rfl, by simp, fun _ _ => rfl⟩
      rw [destroyChain]
      cases fv <;> simp [wanted, blocks] <;> rfl
  | cons a L ih =>
    intro fuel hd mem freed hp hf
    cases fuel with
    | zero => omega
    | succ fuel =>
      have hnd := List.nodup_cons.mp hp.nodup
      obtain ⟨h1, n, h2, h3⟩ := hp
      subst h1
      rw [destroyChain, loadNode_ok h2, hbind_ok]
      have h3' : HChain (memSet mem a none) n.next L := by
        refine h3.frame ?_
        intro b hb
        refine memSet_ne _ _ ?_
        rintro rfl
        exact hnd.1 hb
      obtain ⟨mem', vs, g1, g2, g3, g4⟩ := ih fuel n.next (memSet mem a none)
        (if fv then freed ++ [.inl n.k, .inr n.v] else freed ++ [.inl n.k]) h3' (by simpa using hf)
      dsimp only
      refine ⟨mem', (n.k, n.v) :: vs, ?_, ⟨n, vs, h2, rfl, ?_⟩, ?_, ?_⟩
      · rw [g1, wanted_cons]
        cases fv <;> simp
      · refine g2.congr ?_
        intro b hb m hm
        have hba : b ≠ a := by
          rintro rfl
          exact hnd.1 hb
        rw [memSet_ne _ _ hba] at hm
        exact ⟨m, hm, rfl, rfl⟩
      · intro b hb
        rcases List.mem_cons.mp hb with rfl | hb
        · rw [g4 b hnd.1, memSet_same]
        · exact g3 b hb
      · intro b hb
        rw [List.mem_cons, not_or] at hb
        rw [g4 b hb.2, memSet_ne _ _ hb.1]

theorem Holds.append {mem : Nat → Option (HNode κ ν)} {L' : List Nat} {vs' : List (κ × ν)} (h' : Holds mem L' vs') :
    ∀ {L : List Nat} {vs : List (κ × ν)}, Holds mem L vs → Holds mem (L ++ L') (vs ++ vs') := by
  intro L
  induction L with
  | nil => intro vs h; have : vs = [] := h; subst this; exact h'
  | cons a L ih =>
    rintro vs ⟨n, ws, h1, rfl, h3⟩
    exact ⟨n, _, h1, rfl, ih h3⟩

theorem TabInv.destroyAll {f : HFns κ} {t : HTab κ ν} {B : Nat → List Nat} {A : List (κ × ν)}
    (h : TabInv f t B A) (fv : Bool) :
    ∀ (n i : Nat) (mem : Nat → Option (HNode κ ν)) (freed : List (κ ⊕ ν)), i + n ≤ t.tablelength →
      (∀ b ∈ allFrom B n i, mem b = t.mem b) →
      ∃ mem' vs, destroyAll fv (t.fresh + 1) t.table n i mem freed = .ok (mem', freed ++ wanted fv vs) ∧
        Holds t.mem (allFrom B n i) vs ∧ (∀ b ∈ allFrom B n i, mem' b = none) ∧
        (∀ b, b ∉ allFrom B n i → mem' b = mem b) := by
  intro n
  induction n with
  | zero =>
    intro i mem freed _ _
    refine ⟨mem, [], ?_, rfl, by simp [allFrom], fun _ _ => rfl⟩
    rw [Argtable.destroyAll]
    cases fv <;> simp [wanted, blocks] <;> rfl
  | succ n ih =>
    intro i mem freed hi hm
    have hnd := h.allFrom_nodup (n + 1) i (by omega)
    rw [allFrom] at hnd hm ⊢
    rw [List.nodup_append] at hnd
    obtain ⟨hd, p1, p2⟩ := h.path i (by omega)
    rw [Argtable.destroyAll, tableGet_ok p1, hbind_ok]
    have p2' : HChain mem hd (B i) := p2.frame (fun b hb => hm b (by simp [hb]))
    obtain ⟨mem1, vs1, g1, g2, g3, g4⟩ := destroyChain_ok fv (B i) (t.fresh + 1) hd mem freed p2'
      (by have := h.length_le (i := i) (by omega); omega)
    rw [g1, hbind_ok]
    dsimp only
    obtain ⟨mem2, vs2, k1, k2, k3, k4⟩ := ih (i + 1) mem1 (freed ++ wanted fv vs1) (by omega) (by
      intro b hb
      rw [g4 b (by intro hb'; exact hnd.2.2 b hb' b hb rfl), hm b (by simp [hb])])
    refine ⟨mem2, vs1 ++ vs2, ?_, ?_, ?_, ?_⟩
    · rw [k1, wanted_append, List.append_assoc]
    · refine k2.append (g2.congr ?_)
      intro b hb m hbm
      rw [hm b (by simp [hb])] at hbm
      exact ⟨m, hbm, rfl, rfl⟩
    · intro b hb
      by_cases hb2 : b ∈ allFrom B n (i + 1)
      · exact k3 b hb2
      · rcases List.mem_append.mp hb with hb | hb
        · rw [k4 b hb2, g3 b hb]
        · exact absurd hb hb2
    · intro b hb
      rw [List.mem_append, not_or] at hb
      rw [k4 b hb.2, g4 b hb.1]

theorem TabInv.destroy {f : HFns κ} (hf : HashLawful f) {t : HTab κ ν} {B : Nat → List Nat}
    {A : List (κ × ν)} (h : TabInv f t B A) (fv : Bool) :
    ∃ mem' fr, hashDestroy t fv = .ok (mem', t.freed ++ fr) ∧ (∀ a, mem' a = none) ∧
      fr.Perm (wanted fv A) := by
  obtain ⟨mem', vs, g1, g2, g3, g4⟩ := h.destroyAll fv t.tablelength 0 t.mem t.freed (by omega) (fun _ _ => rfl)
  refine ⟨mem', _, g1, ?_, wanted_perm fv (h.holds_perm hf g2)⟩
  intro a
  by_cases ha : a ∈ allFrom B t.tablelength 0
  · exact g3 a ha
  · rw [g4 a ha]
    cases hm : t.mem a with
    | none => rfl
    | some n => exact absurd (h.mem_all.mpr ⟨n, hm⟩) ha

/-! ## Histories -/

theorem TabInv.cmds {f : HFns κ} (hf : HashLawful f) :
    ∀ (cmds : List (HCmd κ ν)) (t : HTab κ ν) (B : Nat → List Nat) (A : List (κ × ν)),
      TabInv f t B A → Fresh f A cmds →
      ∃ t' B' fr, execCmds f t cmds = .ok t' ∧ TabInv f t' B' (specAll f A cmds) ∧ t'.freed = t.freed ++ fr ∧
        (blocks A ++ handed f A cmds).Perm (fr ++ blocks (specAll f A cmds)) := by
  intro cmds
  induction cmds with
  | nil =>
    intro t B A h _
    exact ⟨t, B, [], rfl, h, by simp, by simp [handed, specAll]⟩
  | cons c cmds ih =>
    intro t B A h hfr
    obtain ⟨hc, hfr'⟩ := hfr
    have hstep : ∃ t1 B1 fr1, hashExec f t c = .ok t1 ∧ TabInv f t1 B1 (specExec f A c) ∧ t1.freed = t.freed ++ fr1 ∧
        (blocks A ++ handed f A [c]).Perm (fr1 ++ blocks (specExec f A c)) := by
      cases c with
      | insert k v =>
        obtain ⟨t1, B1, e1, e2, e3⟩ := h.insert hf (v := v) hc
        refine ⟨t1, B1, [], e1, e2, by simp [e3], ?_⟩
        simp only [handed, specExec, blocks, List.flatMap_cons, List.append_nil, List.nil_append]
        exact List.perm_append_comm
      | remove k =>
        obtain ⟨t1, B1, fr, e1, e2, e3, e4⟩ := h.remove hf k
        refine ⟨t1, B1, fr, e1, e2, e3, ?_⟩
        simpa [handed, specExec] using e4
      | change k v =>
        obtain ⟨t1, fr, e1, e2, e3, e4⟩ := h.change hf k v
        refine ⟨t1, B, fr, ?_, e2, e3, ?_⟩
        · unfold hashExec
          dsimp only
          rw [e1]
          rfl
        · refine List.Perm.trans ?_ e4
          simp only [handed, List.append_nil]
          exact List.perm_append_comm
      | sweep p =>
        obtain ⟨t1, B1, vs, fr, e1, e2, e3, e4, e5⟩ := h.sweep hf p (fuel := hashCount t)
          (by unfold hashCount; rw [h.cnt])
        refine ⟨t1, B1, fr, ?_, e3, e4, ?_⟩
        · unfold hashExec
          dsimp only
          rw [e1]
          rfl
        · simp only [handed, List.append_nil, specExec]
          exact (blocks_partition (fun e => p e.1 e.2) A).trans (List.Perm.append_right _ e5.symm)
    obtain ⟨t1, B1, fr1, e1, e2, e3, e4⟩ := hstep
    obtain ⟨t2, B2, fr2, g1, g2, g3, g4⟩ := ih t1 B1 _ e2 hfr'
    refine ⟨t2, B2, fr1 ++ fr2, ?_, g2, by rw [g3, e3, List.append_assoc], ?_⟩
    · rw [execCmds, e1, hbind_ok, g1]
    · have hh : handed f A (c :: cmds) = handed f A [c] ++ handed f (specExec f A c) cmds := by
        simp [handed]
      rw [hh, ← List.append_assoc]
      refine (List.Perm.append_right _ e4).trans ?_
      rw [List.append_assoc, List.append_assoc]
      exact List.Perm.append_left _ g4

end Argtable
