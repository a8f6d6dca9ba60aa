import Verif.Spec.Hash
import Mathlib.Data.List.Nodup
import Mathlib.Data.List.Infix
import Mathlib.Data.List.Perm.Subperm

/-!
# Hash table: representation invariant and its preservation
-/

namespace Argtable

open Spec

variable {κ ν : Type}

theorem hbind_ok {α β : Type} (a : α) (k : α → M β) : ((Except.ok a : M α) >>= k) = k a := rfl

/-! ## Chains -/

/-- The pointer `hd` starts a chain through exactly the addresses `L`. -/
def HChain (mem : Nat → Option (HNode κ ν)) : Option Nat → List Nat → Prop
  | hd, [] => hd = none
  | hd, a :: L => hd = some a ∧ ∃ n, mem a = some n ∧ HChain mem n.next L

theorem HChain.frame {mem mem' : Nat → Option (HNode κ ν)} {L : List Nat} (h : ∀ b ∈ L, mem' b = mem b) :
    ∀ {hd : Option Nat}, HChain mem hd L → HChain mem' hd L := by
  induction L with
  | nil => intro hd hp; exact hp
  | cons a L ih =>
    intro hd hp
    obtain ⟨h1, n, h2, h3⟩ := hp
    exact ⟨h1, n, by rw [h a (by simp), h2], ih (fun b hb => h b (by simp [hb])) h3⟩

theorem HChain.unique {mem : Nat → Option (HNode κ ν)} {L : List Nat} :
    ∀ {hd : Option Nat} {L' : List Nat}, HChain mem hd L → HChain mem hd L' → L = L' := by
  induction L with
  | nil =>
    intro hd L' h h'
    cases L' with
    | nil => rfl
    | cons b L' => have h1 : hd = none := h; rw [h1] at h'; exact absurd h'.1 (by simp)
  | cons a L ih =>
    intro hd L' h h'
    obtain ⟨h1, n, h2, h3⟩ := h
    cases L' with
    | nil => have h4 : hd = none := h'; rw [h1] at h4; exact absurd h4 (by simp)
    | cons b L' =>
      obtain ⟨g1, m, g2, g3⟩ := h'
      rw [h1] at g1
      cases g1
      rw [h2] at g2
      cases g2
      rw [ih h3 g3]

theorem HChain.suffix {mem : Nat → Option (HNode κ ν)} {p q : List Nat} {a : Nat} :
    ∀ {hd : Option Nat}, HChain mem hd (p ++ a :: q) → HChain mem (some a) (a :: q) := by
  induction p with
  | nil => intro hd h; exact ⟨rfl, h.2⟩
  | cons b p ih => intro hd h; obtain ⟨_, n, _, h3⟩ := h; exact ih h3

theorem HChain.nodup {mem : Nat → Option (HNode κ ν)} {L : List Nat} :
    ∀ {hd : Option Nat}, HChain mem hd L → L.Nodup := by
  induction L with
  | nil => intro _ _; exact List.nodup_nil
  | cons a L ih =>
    intro hd h
    obtain ⟨h1, n, h2, h3⟩ := h
    rw [List.nodup_cons]
    refine ⟨?_, ih h3⟩
    intro hm
    obtain ⟨p, q, hpq⟩ := List.append_of_mem hm
    have e1 : HChain mem (some a) (a :: q) := HChain.suffix (p := p) (hpq ▸ h3)
    have e2 : HChain mem (some a) (a :: L) := ⟨rfl, n, h2, h3⟩
    have e3 := HChain.unique e1 e2
    have e4 := congrArg List.length e3
    rw [hpq] at e4
    simp at e4
    omega

theorem memSet_same (mem : Nat → Option (HNode κ ν)) (a : Nat) (n : Option (HNode κ ν)) :
    memSet mem a n a = n := by simp [memSet]

theorem memSet_ne (mem : Nat → Option (HNode κ ν)) {a b : Nat} (n : Option (HNode κ ν)) (h : b ≠ a) :
    memSet mem a n b = mem b := by simp [memSet, h]

/-- Unlinking from the middle of a chain. -/
theorem HChain.splice {mem : Nat → Option (HNode κ ν)} {p q : List Nat} {a b : Nat} {nb n : HNode κ ν}
    (hb : mem b = some nb) (ha : mem a = some n) :
    ∀ {hd : Option Nat}, HChain mem hd (p ++ b :: a :: q) →
      HChain (memSet mem b (some { nb with next := n.next })) hd (p ++ b :: q) := by
  induction p with
  | nil =>
    intro hd h
    have hnd := HChain.nodup h
    obtain ⟨h1, n1, h2, h3⟩ := h
    obtain ⟨h4, n2, h5, h6⟩ := h3
    rw [ha] at h5
    cases h5
    refine ⟨h1, _, memSet_same .., ?_⟩
    refine HChain.frame ?_ h6
    intro c hc
    refine memSet_ne _ _ ?_
    rintro rfl
    simp at hnd
    exact hnd.1.2 hc
  | cons c p ih =>
    intro hd h
    have hnd := HChain.nodup h
    obtain ⟨h1, n1, h2, h3⟩ := h
    refine ⟨h1, n1, ?_, ih h3⟩
    rw [memSet_ne _ _ ?_, h2]
    rintro rfl
    simp at hnd

theorem HChain.drop_head {mem : Nat → Option (HNode κ ν)} {q : List Nat} {a : Nat} {n : HNode κ ν}
    {hd : Option Nat} (ha : mem a = some n) (h : HChain mem hd (a :: q)) : HChain mem n.next q := by
  obtain ⟨_, m, h2, h3⟩ := h
  rw [ha] at h2
  cases h2
  exact h3

theorem HChain.mem_some {mem : Nat → Option (HNode κ ν)} {L : List Nat} {a : Nat} :
    ∀ {hd : Option Nat}, HChain mem hd L → a ∈ L → ∃ n, mem a = some n := by
  induction L with
  | nil => intro _ _ h; simp at h
  | cons b L ih =>
    intro hd h hm
    obtain ⟨_, n, h2, h3⟩ := h
    rcases List.mem_cons.mp hm with rfl | hm
    · exact ⟨n, h2⟩
    · exact ih h3 hm

/-! ## The invariant -/

/-- `t` is a proper table whose bucket `i` is the chain `B i` and whose entries are those of `A`. -/
structure TabInv (f : HFns κ) (t : HTab κ ν) (B : Nat → List Nat) (A : List (κ × ν)) : Prop where
  len : t.table.length = t.tablelength
  pos : 0 < t.tablelength
  pidx : t.primeindex < primes.length
  path : ∀ i < t.tablelength, ∃ hd, t.table[i]? = some hd ∧ HChain t.mem hd (B i)
  node : ∀ i < t.tablelength, ∀ a ∈ B i, ∀ n, t.mem a = some n →
    n.h.toNat % t.tablelength = i ∧ n.h = enhancedHash f n.k
  all : ∀ a n, t.mem a = some n → a ∈ B (n.h.toNat % t.tablelength)
  fresh : ∀ a, t.fresh ≤ a → t.mem a = none
  inj : ∀ a b n m, t.mem a = some n → t.mem b = some m → f.eqfn n.k m.k = true → a = b
  memA : ∀ p, p ∈ A ↔ ∃ a n, t.mem a = some n ∧ p = (n.k, n.v)
  pw : A.Pairwise (fun p q => f.eqfn p.1 q.1 = false)
  cnt : t.entrycount = A.length

theorem enhancedHash_congr {f : HFns κ} (hf : HashLawful f) {a b : κ} (h : f.eqfn a b = true) :
    enhancedHash f a = enhancedHash f b := by
  unfold enhancedHash
  rw [hf.hash a b h]

theorem nodup_length_le {L : List Nat} {n : Nat} (hn : L.Nodup) (hb : ∀ a ∈ L, a < n) :
    L.length ≤ n := by
  have : L.Subperm (List.range n) := List.subperm_of_subset hn (fun a ha => List.mem_range.mpr (hb a ha))
  simpa using this.length_le

theorem TabInv.length_le {f : HFns κ} {t : HTab κ ν} {B : Nat → List Nat} {A : List (κ × ν)}
    (h : TabInv f t B A) {i : Nat} (hi : i < t.tablelength) : (B i).length ≤ t.fresh := by
  obtain ⟨hd, _, hp⟩ := h.path i hi
  refine nodup_length_le hp.nodup ?_
  intro a ha
  obtain ⟨n, hn⟩ := hp.mem_some ha
  by_contra hlt
  rw [h.fresh a (by omega)] at hn
  cases hn

/-! ## Creation -/

theorem pickPrime_spec (minsize : Nat) : ∀ (ps : List Nat) (i : Nat), (∃ p ∈ ps, minsize < p) →
    (∀ p ∈ ps, 0 < p) →
    i ≤ (pickPrime minsize ps i).1 ∧ (pickPrime minsize ps i).1 < i + ps.length ∧
      0 < (pickPrime minsize ps i).2 ∧ minsize < (pickPrime minsize ps i).2 := by
  intro ps
  induction ps with
  | nil => intro i h _; simp at h
  | cons p ps ih =>
    intro i h hpos
    rw [pickPrime]
    split
    · rename_i hp
      simp only [List.length_cons]
      exact ⟨Nat.le_refl _, by omega, hpos p (by simp), hp⟩
    · rename_i hp
      obtain ⟨p', hp', hlt⟩ := h
      rcases List.mem_cons.mp hp' with rfl | hm
      · exact absurd hlt hp
      · have := ih (i + 1) ⟨p', hm, hlt⟩ (fun q hq => hpos q (by simp [hq]))
        simp only [List.length_cons]
        omega

theorem primes_pos : ∀ p ∈ primes, 0 < p := by
  simp [primes]

theorem TabInv.create (f : HFns κ) {minsize : Nat} (h : minsize ≤ 2 ^ 30) :
    ∃ t : HTab κ ν, hashCreate f minsize = some t ∧ TabInv f t (fun _ => []) [] ∧ t.freed = [] := by
  unfold hashCreate
  rw [if_neg (by omega)]
  have hp := pickPrime_spec minsize primes 0 ⟨1610612741, by simp [primes], by omega⟩ primes_pos
  generalize hpp : pickPrime minsize primes 0 = r at hp
  obtain ⟨pi, size⟩ := r
  refine ⟨_, rfl, ?_, rfl⟩
  exact {
    len := List.length_replicate ..
    pos := hp.2.2.1
    pidx := by simpa using hp.2.1
    path := fun i hi => ⟨none, by
      show (List.replicate size none)[i]? = _
      rw [List.getElem?_replicate, if_pos hi], rfl⟩
    node := fun i _ a ha => by simp at ha
    all := fun a n hn => by cases hn
    fresh := fun _ _ => rfl
    inj := fun _ _ _ _ h => by cases h
    memA := fun p => by simp
    pw := List.Pairwise.nil
    cnt := rfl }

/-! ## Growth -/

/-- Two memories hold the same keys, values and hashes at the same addresses. -/
def SameData (mem mem' : Nat → Option (HNode κ ν)) : Prop :=
  ∀ a, (mem' a).map (fun n => (n.k, n.v, n.h)) = (mem a).map (fun n => (n.k, n.v, n.h))

theorem SameData.refl (mem : Nat → Option (HNode κ ν)) : SameData mem mem := fun _ => rfl

theorem SameData.trans {m1 m2 m3 : Nat → Option (HNode κ ν)} (h : SameData m1 m2) (h' : SameData m2 m3) :
    SameData m1 m3 := fun a => (h' a).trans (h a)

theorem SameData.some_right {m1 m2 : Nat → Option (HNode κ ν)} (h : SameData m1 m2) {a : Nat}
    {n : HNode κ ν} (hn : m1 a = some n) :
    ∃ n', m2 a = some n' ∧ n'.k = n.k ∧ n'.v = n.v ∧ n'.h = n.h := by
  have := h a
  rw [hn] at this
  cases hm : m2 a with
  | none => rw [hm] at this; simp at this
  | some n' =>
    rw [hm] at this
    simp only [Option.map_some, Option.some.injEq, Prod.mk.injEq] at this
    exact ⟨n', rfl, this⟩

theorem SameData.symm {m1 m2 : Nat → Option (HNode κ ν)} (h : SameData m1 m2) : SameData m2 m1 :=
  fun a => (h a).symm

/-- State while the entries are being moved: `R i` is what is left of old bucket `i`, `B j` what is
already in new bucket `j`. -/
structure Moving (tl ns : Nat) (table newtable : List (Option Nat)) (mem : Nat → Option (HNode κ ν))
    (R B : Nat → List Nat) : Prop where
  lenT : table.length = tl
  lenN : newtable.length = ns
  pathR : ∀ i < tl, ∃ hd, table[i]? = some hd ∧ HChain mem hd (R i)
  pathB : ∀ j < ns, ∃ hd, newtable[j]? = some hd ∧ HChain mem hd (B j)
  nodeR : ∀ i < tl, ∀ a ∈ R i, ∀ n, mem a = some n → n.h.toNat % tl = i
  nodeB : ∀ j < ns, ∀ a ∈ B j, ∀ n, mem a = some n → n.h.toNat % ns = j
  all : ∀ a n, mem a = some n → a ∈ R (n.h.toNat % tl) ∨ a ∈ B (n.h.toNat % ns)
  disj : ∀ i < tl, ∀ j < ns, ∀ a ∈ R i, a ∉ B j

theorem Moving.step {tl ns : Nat} {table newtable : List (Option Nat)}
    {mem : Nat → Option (HNode κ ν)} {R B : Nat → List Nat} (hns : 0 < ns)
    (h : Moving tl ns table newtable mem R B) {i a : Nat} {r : List Nat} (hi : i < tl) (hR : R i = a :: r)
    {e : HNode κ ν} (he : mem a = some e) {head : Option Nat}
    (hh : newtable[e.h.toNat % ns]? = some head) :
    Moving tl ns (table.set i e.next) (newtable.set (e.h.toNat % ns) (some a))
      (memSet mem a (some { e with next := head }))
      (fun x => if x = i then r else R x)
      (fun y => if y = e.h.toNat % ns then a :: B y else B y) := by
  have hj : e.h.toNat % ns < ns := Nat.mod_lt _ hns
  have haR : a ∈ R i := by rw [hR]; simp
  have hei : e.h.toNat % tl = i := h.nodeR i hi a haR e he
  obtain ⟨hd, hd1, hd2⟩ := h.pathR i hi
  rw [hR] at hd2
  have hnd := hd2.nodup
  have har : a ∉ r := (List.nodup_cons.mp hnd).1
  have hRa : ∀ x < tl, x ≠ i → a ∉ R x := by
    intro x hx hxi hm
    exact hxi ((h.nodeR x hx a hm e he).symm.trans hei)
  have hBa : ∀ y < ns, a ∉ B y := fun y hy => h.disj i hi y hy a haR
  have hfrR : ∀ x < tl, x ≠ i → ∀ b ∈ R x, memSet mem a (some { e with next := head }) b = mem b := by
    intro x hx hxi b hb
    refine memSet_ne _ _ ?_
    rintro rfl
    exact hRa x hx hxi hb
  have hfrB : ∀ y < ns, ∀ b ∈ B y, memSet mem a (some { e with next := head }) b = mem b := by
    intro y hy b hb
    refine memSet_ne _ _ ?_
    rintro rfl
    exact hBa y hy hb
  have hh' : ∀ b n, memSet mem a (some { e with next := head }) b = some n →
      ∃ n', mem b = some n' ∧ n'.h = n.h := by
    intro b n hb
    by_cases hba : b = a
    · subst hba
      rw [memSet_same] at hb
      cases hb
      exact ⟨e, he, rfl⟩
    · rw [memSet_ne _ _ hba] at hb
      exact ⟨n, hb, rfl⟩
  refine ⟨by simpa using h.lenT, by simpa using h.lenN, ?_, ?_, ?_, ?_, ?_, ?_⟩
  · intro x hx
    by_cases hxi : x = i
    · subst hxi
      refine ⟨e.next, by rw [List.getElem?_set_self (by rw [h.lenT]; exact hi)], ?_⟩
      rw [if_pos rfl]
      refine HChain.frame ?_ (hd2.drop_head he)
      intro b hb
      refine memSet_ne _ _ ?_
      rintro rfl
      exact har hb
    · obtain ⟨hd', g1, g2⟩ := h.pathR x hx
      refine ⟨hd', by rw [List.getElem?_set_ne (Ne.symm hxi)]; exact g1, ?_⟩
      rw [if_neg hxi]
      exact g2.frame (hfrR x hx hxi)
  · intro y hy
    obtain ⟨hd', g1, g2⟩ := h.pathB y hy
    by_cases hyj : y = e.h.toNat % ns
    · refine ⟨some a, by rw [hyj, List.getElem?_set_self (by rw [h.lenN]; exact hj)], ?_⟩
      rw [if_pos hyj]
      refine ⟨rfl, _, memSet_same .., ?_⟩
      rw [hyj] at g1
      rw [hh] at g1
      cases g1
      exact g2.frame (hfrB y hy)
    · refine ⟨hd', by rw [List.getElem?_set_ne (Ne.symm hyj)]; exact g1, ?_⟩
      rw [if_neg hyj]
      exact g2.frame (hfrB y hy)
  · intro x hx b hb n hn
    obtain ⟨n', g1, g2⟩ := hh' b n hn
    rw [← g2]
    refine h.nodeR x hx b ?_ n' g1
    by_cases hxi : x = i
    · rw [if_pos hxi] at hb
      rw [hxi, hR]; simp [hb]
    · rwa [if_neg hxi] at hb
  · intro y hy b hb n hn
    obtain ⟨n', g1, g2⟩ := hh' b n hn
    rw [← g2]
    by_cases hyj : y = e.h.toNat % ns
    · rw [if_pos hyj] at hb
      rcases List.mem_cons.mp hb with rfl | hb
      · rw [he] at g1
        cases g1
        exact hyj.symm
      · exact h.nodeB y hy b hb n' g1
    · rw [if_neg hyj] at hb
      exact h.nodeB y hy b hb n' g1
  · intro b n hn
    obtain ⟨n', g1, g2⟩ := hh' b n hn
    rw [← g2]
    by_cases hba : b = a
    · subst hba
      rw [he] at g1
      cases g1
      right
      rw [if_pos rfl]; simp
    · rcases h.all b n' g1 with hm | hm
      · left
        split
        · rename_i hx
          rw [hx, hR] at hm
          rcases List.mem_cons.mp hm with hm | hm
          · exact absurd hm hba
          · exact hm
        · exact hm
      · right
        split
        · exact List.mem_cons_of_mem _ hm
        · exact hm
  · intro x hx y hy b hb hb'
    have hbR : b ∈ R x ∧ (x = i → b ≠ a) := by
      by_cases hxi : x = i
      · rw [if_pos hxi] at hb
        refine ⟨by rw [hxi, hR]; simp [hb], fun _ => ?_⟩
        rintro rfl
        exact har hb
      · rw [if_neg hxi] at hb
        exact ⟨hb, fun h => absurd h hxi⟩
    have hba : b ≠ a := by
      rintro rfl
      by_cases hxi : x = i
      · exact hbR.2 hxi rfl
      · exact hRa x hx hxi hbR.1
    have hbB : b ∈ B y := by
      by_cases hyj : y = e.h.toNat % ns
      · rw [if_pos hyj] at hb'
        rcases List.mem_cons.mp hb' with h' | h'
        · exact absurd h' hba
        · exact h'
      · rwa [if_neg hyj] at hb'
    exact h.disj x hx y hy b hbR.1 hbB

theorem moveChain_ok {tl ns i : Nat} (hns : 0 < ns) (hi : i < tl) :
    ∀ (fuel : Nat) (table newtable : List (Option Nat)) (mem : Nat → Option (HNode κ ν)) (R B : Nat → List Nat),
      Moving tl ns table newtable mem R B → (R i).length < fuel →
      ∃ table' newtable' mem' R' B', moveChain ns i fuel table newtable mem = .ok (table', newtable', mem') ∧
        Moving tl ns table' newtable' mem' R' B' ∧ R' i = [] ∧ (∀ x, x ≠ i → R' x = R x) ∧ SameData mem mem' := by
  intro fuel
  induction fuel with
  | zero => intro _ _ _ _ _ _ h; omega
  | succ fuel ih =>
    intro table newtable mem R B h hf
    obtain ⟨hd, h1, h2⟩ := h.pathR i hi
    rw [moveChain]
    have e1 : tableGet table i = .ok hd := by unfold tableGet; rw [h1]; rfl
    rw [e1, hbind_ok]
    cases hR : R i with
    | nil =>
      rw [hR] at h2
      have h2' : hd = none := h2
      subst h2'
      exact ⟨table, newtable, mem, R, B, rfl, h, hR, fun _ _ => rfl, SameData.refl _⟩
    | cons a r =>
      rw [hR] at h2 hf
      obtain ⟨h3, e, h4, h5⟩ := h2
      subst h3
      have hj : e.h.toNat % ns < ns := Nat.mod_lt _ hns
      obtain ⟨head, g1, g2⟩ := h.pathB _ hj
      have e2 : loadNode mem a = .ok e := by unfold loadNode; rw [h4]; rfl
      have e3 : tableSet table i e.next = .ok (table.set i e.next) := by
        unfold tableSet; rw [if_pos (by rw [h.lenT]; exact hi)]; rfl
      have e4 : indexFor ns e.h = .ok (e.h.toNat % ns) := by
        unfold indexFor; rw [if_neg (by omega)]; rfl
      have e5 : tableGet newtable (e.h.toNat % ns) = .ok head := by unfold tableGet; rw [g1]; rfl
      have e6 : tableSet newtable (e.h.toNat % ns) (some a) = .ok (newtable.set (e.h.toNat % ns) (some a)) := by
        unfold tableSet; rw [if_pos (by rw [h.lenN]; exact hj)]; rfl
      dsimp only
      rw [e2, hbind_ok, e3, hbind_ok, e4, hbind_ok, e5, hbind_ok]
      rw [e6, hbind_ok]
      obtain ⟨t', n', m', R', B', k1, k2, k3, k4, k5⟩ :=
        ih _ _ _ _ _ (h.step hns hi hR h4 g1) (by
          rw [if_pos rfl]
          simp at hf
          omega)
      refine ⟨t', n', m', R', B', k1, k2, k3, ?_, ?_⟩
      · intro x hx
        rw [k4 x hx]
        simp [hx]
      · refine SameData.trans ?_ k5
        intro b
        by_cases hba : b = a
        · subst hba
          rw [memSet_same, h4]; rfl
        · rw [memSet_ne _ _ hba]

theorem moveAll_ok {tl ns fuel : Nat} (hns : 0 < ns) :
    ∀ (n i : Nat) (table newtable : List (Option Nat)) (mem : Nat → Option (HNode κ ν)) (R B : Nat → List Nat),
      Moving tl ns table newtable mem R B → n + i = tl → (∀ x < i, R x = []) →
      (∀ x < tl, (R x).length < fuel) →
      ∃ newtable' mem' B', moveAll ns fuel n i table newtable mem = .ok (newtable', mem') ∧
        (∃ table' R', Moving tl ns table' newtable' mem' R' B' ∧ ∀ x < tl, R' x = []) ∧ SameData mem mem' := by
  intro n
  induction n with
  | zero =>
    intro i table newtable mem R B h hn hx _
    exact ⟨newtable, mem, B, rfl, ⟨table, R, h, fun x hx' => hx x (by omega)⟩, SameData.refl _⟩
  | succ n ih =>
    intro i table newtable mem R B h hn hx hf
    obtain ⟨t', n', m', R', B', k1, k2, k3, k4, k5⟩ :=
      moveChain_ok hns (by omega) fuel table newtable mem R B h (hf i (by omega))
    rw [moveAll, k1, hbind_ok]
    obtain ⟨nt, mm, BB, j1, j2, j3⟩ := ih (i + 1) t' n' m' R' B' k2 (by omega)
      (by
        intro x hxi
        by_cases hxi' : x = i
        · rw [hxi']; exact k3
        · rw [k4 x hxi']; exact hx x (by omega))
      (by
        intro x hxt
        by_cases hxi' : x = i
        · rw [hxi', k3]; simp; exact Nat.lt_of_le_of_lt (Nat.zero_le _) (hf i (by omega))
        · rw [k4 x hxi']; exact hf x hxt)
    exact ⟨nt, mm, BB, j1, j2, k5.trans j3⟩

theorem TabInv.expand {f : HFns κ} {t : HTab κ ν} {B : Nat → List Nat} {A : List (κ × ν)}
    (h : TabInv f t B A) :
    ∃ t' B', hashExpand f t = .ok t' ∧ TabInv f t' B' A ∧ t'.freed = t.freed := by
  unfold hashExpand
  by_cases hl : t.primeindex = primes.length - 1
  · rw [if_pos hl]
    exact ⟨t, B, rfl, h, rfl⟩
  · rw [if_neg hl]
    have hp := h.pidx
    have hlt : t.primeindex + 1 < primes.length := by omega
    rw [List.getElem?_eq_getElem hlt]
    dsimp only
    have hns : 0 < primes[t.primeindex + 1] := primes_pos _ (List.getElem_mem hlt)
    generalize primes[t.primeindex + 1] = ns at hns
    have hm : Moving t.tablelength ns t.table (List.replicate ns none) t.mem B (fun _ => []) := by
      refine ⟨h.len, List.length_replicate .., h.path, ?_, ?_, ?_, ?_, ?_⟩
      · intro j hj
        exact ⟨none, by rw [List.getElem?_replicate, if_pos hj], rfl⟩
      · intro i hi a ha n hn
        exact (h.node i hi a ha n hn).1
      · intro j _ a ha; simp at ha
      · intro a n hn
        exact Or.inl (h.all a n hn)
      · intro i _ j _ a _; simp
    obtain ⟨nt, mm, BB, j1, ⟨tt, RR, j2, j3⟩, j4⟩ := moveAll_ok hns (fuel := t.fresh + 1) t.tablelength 0 t.table _ t.mem B _ hm
      (by omega) (by intro x hx; omega) (by
        intro x hx
        have := h.length_le hx
        omega)
    rw [j1, hbind_ok]
    refine ⟨_, BB, rfl, ?_, rfl⟩
    have hback : ∀ a n, mm a = some n → ∃ n', t.mem a = some n' ∧ n'.k = n.k ∧ n'.v = n.v ∧ n'.h = n.h :=
      fun a n hn => j4.symm.some_right hn
    exact {
      len := j2.lenN
      pos := hns
      pidx := hlt
      path := j2.pathB
      node := by
        intro i hi a ha n hn
        refine ⟨j2.nodeB i hi a ha n hn, ?_⟩
        obtain ⟨n', g1, g2, g3, g4⟩ := hback a n hn
        have := h.all a n' g1
        have := (h.node _ (Nat.mod_lt _ h.pos) a this n' g1).2
        rw [← g4, this, g2]
      all := by
        intro a n hn
        rcases j2.all a n hn with hm | hm
        · rw [j3 _ (Nat.mod_lt _ h.pos)] at hm
          simp at hm
        · exact hm
      fresh := by
        intro a ha
        have := h.fresh a ha
        cases hma : mm a with
        | none => exact hma
        | some n =>
          obtain ⟨n', g1, _⟩ := hback a n hma
          rw [this] at g1
          cases g1
      inj := by
        intro a b n m hn hm heq
        obtain ⟨n', g1, g2, _⟩ := hback a n hn
        obtain ⟨m', g1', g2', _⟩ := hback b m hm
        exact h.inj a b n' m' g1 g1' (by rw [g2, g2']; exact heq)
      memA := by
        intro p
        rw [h.memA]
        constructor
        · rintro ⟨a, n, hn, rfl⟩
          obtain ⟨n', g1, g2, g3, _⟩ := j4.some_right hn
          exact ⟨a, n', g1, by rw [g2, g3]⟩
        · rintro ⟨a, n, hn, rfl⟩
          obtain ⟨n', g1, g2, g3, _⟩ := hback a n hn
          exact ⟨a, n', g1, by rw [g2, g3]⟩
      pw := h.pw
      cnt := h.cnt }

/-! ## Insertion -/

theorem lookup_none {f : HFns κ} {A : List (κ × ν)} {k : κ} (h : lookup f A k = none) :
    ∀ p ∈ A, f.eqfn k p.1 = false := by
  unfold lookup at h
  rw [Option.map_eq_none_iff, List.find?_eq_none] at h
  intro p hp
  simpa using h p hp

/-- The second part of `hashInsert`, once the table has been made larger if need be. -/
def hashPut (f : HFns κ) (k : κ) (v : ν) (t : HTab κ ν) : M (HTab κ ν) := do
  let h := enhancedHash f k
  let index ← indexFor t.tablelength h
  let head ← tableGet t.table index
  let table ← tableSet t.table index (some t.fresh)
  pure
    { t with
      table := table
      mem := memSet t.mem t.fresh (some { k := k, v := v, h := h, next := head })
      fresh := t.fresh + 1
      entrycount := t.entrycount + 1 }

theorem hashInsert_eq (f : HFns κ) (t : HTab κ ν) (k : κ) (v : ν) :
    hashInsert f t k v = ((if t.entrycount + 1 > t.loadlimit then hashExpand f t else pure t) >>= hashPut f k v) := by
  unfold hashInsert
  split <;> rfl

theorem TabInv.put {f : HFns κ} (hf : HashLawful f) {t1 : HTab κ ν} {B1 : Nat → List Nat}
    {A : List (κ × ν)} (h1 : TabInv f t1 B1 A) {k : κ} {v : ν} (hk : lookup f A k = none) :
    ∃ hd idx, hashPut f k v t1 = .ok { t1 with
        table := t1.table.set idx (some t1.fresh)
        mem := memSet t1.mem t1.fresh (some { k := k, v := v, h := enhancedHash f k, next := hd })
        fresh := t1.fresh + 1
        entrycount := t1.entrycount + 1 } ∧
      TabInv f { t1 with
        table := t1.table.set idx (some t1.fresh)
        mem := memSet t1.mem t1.fresh (some { k := k, v := v, h := enhancedHash f k, next := hd })
        fresh := t1.fresh + 1
        entrycount := t1.entrycount + 1 } (fun i => if i = idx then t1.fresh :: B1 i else B1 i) ((k, v) :: A) := by
  unfold hashPut
  have hlt : (enhancedHash f k).toNat % t1.tablelength < t1.tablelength := Nat.mod_lt _ h1.pos
  obtain ⟨hd, g1, g2⟩ := h1.path _ hlt
  have e1 : indexFor t1.tablelength (enhancedHash f k) = .ok ((enhancedHash f k).toNat % t1.tablelength) := by
    unfold indexFor; rw [if_neg (by have := h1.pos; omega)]; rfl
  have e2 : tableGet t1.table ((enhancedHash f k).toNat % t1.tablelength) = .ok hd := by
    unfold tableGet; rw [g1]; rfl
  have e3 : tableSet t1.table ((enhancedHash f k).toNat % t1.tablelength) (some t1.fresh) =
      .ok (t1.table.set ((enhancedHash f k).toNat % t1.tablelength) (some t1.fresh)) := by
    unfold tableSet; rw [if_pos (by rw [h1.len]; exact hlt)]; rfl
  dsimp only
  rw [e1, hbind_ok, e2, hbind_ok, e3, hbind_ok]
  generalize hidx : (enhancedHash f k).toNat % t1.tablelength = idx at *
  have hnew : t1.mem t1.fresh = none := h1.fresh _ (Nat.le_refl _)
  have hB : ∀ i < t1.tablelength, t1.fresh ∉ B1 i := by
    intro i hi hm
    obtain ⟨hd', _, hp⟩ := h1.path i hi
    obtain ⟨n, hn⟩ := hp.mem_some hm
    rw [hnew] at hn
    cases hn
  have hfrm : ∀ i < t1.tablelength, ∀ b ∈ B1 i,
      memSet t1.mem t1.fresh (some { k := k, v := v, h := enhancedHash f k, next := hd }) b = t1.mem b := by
    intro i hi b hb
    refine memSet_ne _ _ ?_
    rintro rfl
    exact hB i hi hb
  have hneq : ∀ b n, t1.mem b = some n → b ≠ t1.fresh := by
    rintro b n hb rfl
    rw [hnew] at hb
    cases hb
  have hkA := lookup_none hk
  refine ⟨hd, idx, rfl, ?_⟩
  exact {
    len := by simpa using h1.len
    pos := h1.pos
    pidx := h1.pidx
    path := by
      intro i hi
      by_cases hii : i = idx
      · subst hii
        refine ⟨some t1.fresh, List.getElem?_set_self (by rw [h1.len]; exact hi), ?_⟩
        rw [if_pos rfl]
        exact ⟨rfl, _, memSet_same .., g2.frame (hfrm i hi)⟩
      · obtain ⟨hd', q1, q2⟩ := h1.path i hi
        refine ⟨hd', by
          show (t1.table.set idx _)[i]? = _
          rw [List.getElem?_set_ne (Ne.symm hii)]; exact q1, ?_⟩
        rw [if_neg hii]
        exact q2.frame (hfrm i hi)
    node := by
      intro i hi a ha n hn
      by_cases hea : a = t1.fresh
      · subst hea
        have hn' := (memSet_same ..).symm.trans hn
        cases hn'
        by_cases hii : i = idx
        · exact ⟨by rw [hii]; exact hidx, rfl⟩
        · rw [if_neg hii] at ha
          exact absurd ha (hB i hi)
      · have hn' := (memSet_ne _ _ hea).symm.trans hn
        refine h1.node i hi a ?_ n hn'
        by_cases hii : i = idx
        · rw [if_pos hii] at ha
          rcases List.mem_cons.mp ha with h' | h'
          · exact absurd h' hea
          · exact h'
        · rwa [if_neg hii] at ha
    all := by
      intro a n hn
      by_cases hea : a = t1.fresh
      · subst hea
        have hn' := (memSet_same ..).symm.trans hn
        cases hn'
        show _ ∈ (if (enhancedHash f k).toNat % t1.tablelength = idx then _ else _)
        rw [if_pos hidx]
        simp
      · have hn' := (memSet_ne _ _ hea).symm.trans hn
        have := h1.all a n hn'
        show _ ∈ (if n.h.toNat % t1.tablelength = idx then _ else _)
        split
        · exact List.mem_cons_of_mem _ this
        · exact this
    fresh := by
      intro a ha
      have ha' : t1.fresh + 1 ≤ a := ha
      show memSet t1.mem t1.fresh _ a = none
      rw [memSet_ne _ _ (by omega)]
      exact h1.fresh a (by omega)
    inj := by
      intro a b n m hn hm heq
      by_cases hea : a = t1.fresh
      · by_cases heb : b = t1.fresh
        · rw [hea, heb]
        · subst hea
          have hn' := (memSet_same ..).symm.trans hn
          cases hn'
          have hm' := (memSet_ne _ _ heb).symm.trans hm
          have := hkA (m.k, m.v) ((h1.memA _).mpr ⟨b, m, hm', rfl⟩)
          rw [this] at heq
          cases heq
      · have hn' := (memSet_ne _ _ hea).symm.trans hn
        by_cases heb : b = t1.fresh
        · subst heb
          have hm' := (memSet_same ..).symm.trans hm
          cases hm'
          have := hkA (n.k, n.v) ((h1.memA _).mpr ⟨a, n, hn', rfl⟩)
          have heq' := hf.symm _ _ heq
          rw [this] at heq'
          cases heq'
        · have hm' := (memSet_ne _ _ heb).symm.trans hm
          exact h1.inj a b n m hn' hm' heq
    memA := by
      intro p
      rw [List.mem_cons, h1.memA]
      constructor
      · rintro (rfl | ⟨a, n, hn, rfl⟩)
        · exact ⟨t1.fresh, _, memSet_same .., rfl⟩
        · exact ⟨a, n, (memSet_ne _ _ (hneq a n hn)).trans hn, rfl⟩
      · rintro ⟨a, n, hn, rfl⟩
        by_cases hea : a = t1.fresh
        · subst hea
          have hn' := (memSet_same ..).symm.trans hn
          cases hn'
          exact Or.inl rfl
        · have hn' := (memSet_ne _ _ hea).symm.trans hn
          exact Or.inr ⟨a, n, hn', rfl⟩
    pw := by
      rw [List.pairwise_cons]
      exact ⟨hkA, h1.pw⟩
    cnt := by
      show t1.entrycount + 1 = _
      rw [h1.cnt]; rfl }


theorem TabInv.insert {f : HFns κ} (hf : HashLawful f) {t : HTab κ ν} {B : Nat → List Nat}
    {A : List (κ × ν)} (h : TabInv f t B A) {k : κ} {v : ν} (hk : lookup f A k = none) :
    ∃ t' B', hashInsert f t k v = .ok t' ∧ TabInv f t' B' ((k, v) :: A) ∧ t'.freed = t.freed := by
  have hpre : ∃ t1 B1, (if t.entrycount + 1 > t.loadlimit then hashExpand f t else pure t) = .ok t1 ∧
      TabInv f t1 B1 A ∧ t1.freed = t.freed := by
    split
    · exact h.expand
    · exact ⟨t, B, rfl, h, rfl⟩
  obtain ⟨t1, B1, e0, h1, hfr⟩ := hpre
  rw [hashInsert_eq, e0, hbind_ok]
  obtain ⟨hd, idx, e1, e2⟩ := h1.put hf (v := v) hk
  exact ⟨_, _, e1, e2, hfr⟩

end Argtable
