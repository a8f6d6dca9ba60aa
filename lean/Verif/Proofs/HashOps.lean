import Verif.Proofs.Hash

/-!
# Hash table: lookup, removal, change, iteration, destruction
-/

namespace Argtable

open Spec

variable {κ ν : Type}

theorem loadNode_ok {mem : Nat → Option (HNode κ ν)} {a : Nat} {n : HNode κ ν} (h : mem a = some n) :
    loadNode mem a = .ok n := by unfold loadNode; rw [h]; rfl

theorem tableGet_ok {table : List (Option Nat)} {i : Nat} {hd : Option Nat} (h : table[i]? = some hd) :
    tableGet table i = .ok hd := by unfold tableGet; rw [h]; rfl

theorem tableSet_ok {table : List (Option Nat)} {i : Nat} (h : i < table.length) (p : Option Nat) :
    tableSet table i p = .ok (table.set i p) := by unfold tableSet; rw [if_pos h]; rfl

theorem indexFor_ok {n : Nat} (h : 0 < n) (x : UInt32) : indexFor n x = .ok (x.toNat % n) := by
  unfold indexFor; rw [if_neg (by omega)]; rfl

/-! ## Finding a key -/

theorem walkChain_ok (f : HFns κ) (mem : Nat → Option (HNode κ ν)) (hv : UInt32) (k : κ) :
    ∀ (L : List Nat) (pre : List Nat) (fuel : Nat) (hd : Option Nat), HChain mem hd L → L.length < fuel →
      (walkChain f mem hv k fuel pre.getLast? hd = .ok none ∧
        ∀ a ∈ L, ∀ n, mem a = some n → ¬(hv = n.h ∧ f.eqfn k n.k = true)) ∨
      (∃ p a q n, walkChain f mem hv k fuel pre.getLast? hd = .ok (some ((pre ++ p).getLast?, a, n)) ∧
        mem a = some n ∧ hv = n.h ∧ f.eqfn k n.k = true ∧ L = p ++ a :: q) := by
  intro L
  induction L with
  | nil =>
    intro pre fuel hd hp hf
    have hp' : hd = none := hp
    subst hp'
    cases fuel with
    | zero => omega
    | succ fuel => exact Or.inl ⟨rfl, by simp⟩
  | cons a L ih =>
    intro pre fuel hd hp hf
    obtain ⟨h1, n, h2, h3⟩ := hp
    subst h1
    cases fuel with
    | zero => omega
    | succ fuel =>
      rw [walkChain, loadNode_ok h2, hbind_ok]
      by_cases hc : hv = n.h ∧ f.eqfn k n.k = true
      · right
        refine ⟨[], a, L, n, ?_, h2, hc.1, hc.2, rfl⟩
        rw [if_pos (by simp [hc.1, hc.2]), List.append_nil]
        rfl
      · rw [if_neg (by simpa using hc)]
        have e : some a = (pre ++ [a]).getLast? := by simp
        rw [e]
        simp only [List.length_cons] at hf
        rcases ih (pre ++ [a]) fuel n.next h3 (by omega) with ⟨g1, g2⟩ | ⟨p, b, q, m, g1, g2, g3, g4, g5⟩
        · left
          refine ⟨g1, ?_⟩
          intro b hb m hm
          rcases List.mem_cons.mp hb with rfl | hb
          · rw [h2] at hm
            cases hm
            exact hc
          · exact g2 b hb m hm
        · right
          refine ⟨a :: p, b, q, m, ?_, g2, g3, g4, by rw [g5]; rfl⟩
          rw [g1]
          simp

theorem TabInv.find {f : HFns κ} (hf : HashLawful f) {t : HTab κ ν} {B : Nat → List Nat}
    {A : List (κ × ν)} (h : TabInv f t B A) (k : κ) :
    ∃ i < t.tablelength,
      (hashFind f t k = .ok (i, none) ∧ ∀ a n, t.mem a = some n → f.eqfn k n.k = false) ∨
      (∃ pre a post n, hashFind f t k = .ok (i, some (pre.getLast?, a, n)) ∧ t.mem a = some n ∧
        f.eqfn k n.k = true ∧ B i = pre ++ a :: post) := by
  have hlt : (enhancedHash f k).toNat % t.tablelength < t.tablelength := Nat.mod_lt _ h.pos
  refine ⟨(enhancedHash f k).toNat % t.tablelength, hlt, ?_⟩
  obtain ⟨hd, g1, g2⟩ := h.path _ hlt
  unfold hashFind
  dsimp only
  rw [indexFor_ok h.pos, hbind_ok, tableGet_ok g1, hbind_ok]
  have hw := walkChain_ok f t.mem (enhancedHash f k) k _ [] (t.fresh + 1) hd g2
    (by have := h.length_le hlt; omega)
  rw [List.getLast?_nil] at hw
  rcases hw with ⟨w1, w2⟩ | ⟨p, a, q, n, w1, w2, w3, w4, w5⟩
  · left
    rw [w1, hbind_ok]
    refine ⟨rfl, ?_⟩
    intro a n hn
    cases hb : f.eqfn k n.k with
    | false => rfl
    | true =>
      exfalso
      have ha := h.all a n hn
      have hh := (h.node _ (Nat.mod_lt _ h.pos) a ha n hn).2
      have he := enhancedHash_congr hf hb
      rw [hh, ← he] at ha
      exact w2 a ha n hn ⟨by rw [hh, he], hb⟩
  · right
    refine ⟨p, a, q, n, ?_, w2, w4, w5⟩
    rw [w1, hbind_ok]
    rfl

theorem lookup_some {f : HFns κ} (hf : HashLawful f) {t : HTab κ ν} {B : Nat → List Nat}
    {A : List (κ × ν)} (h : TabInv f t B A) {k : κ} {a : Nat} {n : HNode κ ν} (ha : t.mem a = some n)
    (hk : f.eqfn k n.k = true) : A.find? (fun p => f.eqfn k p.1) = some (n.k, n.v) := by
  have hm : (n.k, n.v) ∈ A := (h.memA _).mpr ⟨a, n, ha, rfl⟩
  cases hfd : A.find? (fun p => f.eqfn k p.1) with
  | none =>
    rw [List.find?_eq_none] at hfd
    exact absurd hk (hfd _ hm)
  | some q =>
    have h1 := List.find?_some hfd
    have h2 := List.mem_of_find?_eq_some hfd
    obtain ⟨b, m, hb, rfl⟩ := (h.memA _).mp h2
    have : b = a := h.inj b a m n hb ha (hf.trans _ _ _ (hf.symm _ _ h1) hk)
    subst this
    rw [ha] at hb
    cases hb
    rfl

theorem lookup_absent {f : HFns κ} {t : HTab κ ν} {B : Nat → List Nat}
    {A : List (κ × ν)} (h : TabInv f t B A) {k : κ} (hk : ∀ a n, t.mem a = some n → f.eqfn k n.k = false) :
    A.find? (fun p => f.eqfn k p.1) = none := by
  rw [List.find?_eq_none]
  intro p hp
  obtain ⟨a, n, ha, rfl⟩ := (h.memA _).mp hp
  simp [hk a n ha]

theorem TabInv.search {f : HFns κ} (hf : HashLawful f) {t : HTab κ ν} {B : Nat → List Nat}
    {A : List (κ × ν)} (h : TabInv f t B A) (k : κ) : hashSearch f t k = .ok (lookup f A k) := by
  obtain ⟨i, _, ⟨h1, h2⟩ | ⟨pre, a, post, n, h1, h2, h3, h4⟩⟩ := h.find hf k
  · unfold hashSearch lookup
    rw [h1, hbind_ok, lookup_absent h h2]
    rfl
  · unfold hashSearch lookup
    rw [h1, hbind_ok, lookup_some hf h h2 h3]
    rfl

/-! ## The abstract list is determined up to order -/

theorem nodup_of_pw {f : HFns κ} (hf : HashLawful f) {A : List (κ × ν)}
    (h : A.Pairwise (fun p q => f.eqfn p.1 q.1 = false)) : A.Nodup := by
  refine List.Pairwise.imp ?_ h
  rintro p q hpq rfl
  rw [hf.refl] at hpq
  cases hpq

theorem TabInv.congr {f : HFns κ} (hf : HashLawful f) {t : HTab κ ν} {B : Nat → List Nat}
    {A A' : List (κ × ν)} (h : TabInv f t B A) (hpw : A'.Pairwise (fun p q => f.eqfn p.1 q.1 = false))
    (hm : ∀ e, e ∈ A' ↔ e ∈ A) : TabInv f t B A' :=
  { h with
    memA := fun p => (hm p).trans (h.memA p)
    pw := hpw
    cnt := by
      rw [h.cnt]
      exact ((List.perm_ext_iff_of_nodup (nodup_of_pw hf hpw) (nodup_of_pw hf h.pw)).mpr hm).length_eq.symm }

/-! ## Removal -/

theorem A_split {f : HFns κ} (hf : HashLawful f) {t : HTab κ ν} {B : Nat → List Nat}
    {A : List (κ × ν)} (h : TabInv f t B A) {a : Nat} {n : HNode κ ν} (ha : t.mem a = some n) :
    A.Perm ((n.k, n.v) :: A.filter (fun p => !f.eqfn n.k p.1)) := by
  have hm : (n.k, n.v) ∈ A := (h.memA _).mpr ⟨a, n, ha, rfl⟩
  refine (List.perm_ext_iff_of_nodup (nodup_of_pw hf h.pw) ?_).mpr ?_
  · rw [List.nodup_cons]
    refine ⟨?_, (nodup_of_pw hf h.pw).filter _⟩
    simp [hf.refl]
  · intro e
    rw [List.mem_cons, List.mem_filter]
    constructor
    · intro he
      cases hb : f.eqfn n.k e.1 with
      | false => exact Or.inr ⟨he, by simp⟩
      | true =>
        left
        obtain ⟨b, m, hb', rfl⟩ := (h.memA _).mp he
        have : a = b := h.inj a b n m ha hb' hb
        subst this
        rw [ha] at hb'
        cases hb'
        rfl
    · rintro (rfl | ⟨he, _⟩)
      · exact hm
      · exact he

/-- Facts about taking the entry `a` out of bucket `i`. -/
theorem TabInv.removeAt {f : HFns κ} (hf : HashLawful f) {t : HTab κ ν} {B : Nat → List Nat}
    {A : List (κ × ν)} (h : TabInv f t B A) {i a : Nat} {pre post : List Nat} {n : HNode κ ν}
    (hi : i < t.tablelength) (hB : B i = pre ++ a :: post) (ha : t.mem a = some n) :
    ∃ t1, unlink t i pre.getLast? n.next = .ok t1 ∧ t1.entrycount = t.entrycount ∧ t1.freed = t.freed ∧
      t1.tablelength = t.tablelength ∧ t1.mem a = some n ∧ (∀ j, j ≠ i → t1.table[j]? = t.table[j]?) ∧
      (∀ b, b ∉ pre → t1.mem b = t.mem b) ∧ SameData t.mem t1.mem ∧ t1.table.length = t.table.length ∧
      ∀ fr, TabInv f { t1 with entrycount := t1.entrycount - 1, freed := fr, mem := memSet t1.mem a none }
        (fun x => if x = i then pre ++ post else B x) (A.filter (fun p => !f.eqfn n.k p.1)) := by
  obtain ⟨hd, p1, p2⟩ := h.path i hi
  rw [hB] at p2
  have hnd := p2.nodup
  have haB : a ∈ B i := by rw [hB]; simp
  have hai := h.node i hi a haB n ha
  have hother : ∀ x < t.tablelength, x ≠ i → ∀ b ∈ B x, b ∉ B i := by
    intro x hx hxi b hb hb'
    obtain ⟨hd', _, q⟩ := h.path x hx
    obtain ⟨m, hm⟩ := q.mem_some hb
    exact hxi ((h.node x hx b hb m hm).1.symm.trans (h.node i hi b hb' m hm).1)
  -- the unlinking itself
  have hun : ∃ t1, unlink t i pre.getLast? n.next = .ok t1 ∧ t1.entrycount = t.entrycount ∧
      t1.freed = t.freed ∧ t1.tablelength = t.tablelength ∧ t1.primeindex = t.primeindex ∧
      t1.fresh = t.fresh ∧ t1.table.length = t.table.length ∧
      (∀ j, j ≠ i → t1.table[j]? = t.table[j]?) ∧ (∀ b, b ∉ pre → t1.mem b = t.mem b) ∧
      SameData t.mem t1.mem ∧ ∃ hd', t1.table[i]? = some hd' ∧ HChain t1.mem hd' (pre ++ post) := by
    rcases List.eq_nil_or_concat pre with hpre | ⟨p, b, hpre⟩
    · subst hpre
      refine ⟨{ t with table := t.table.set i n.next }, ?_, rfl, rfl, rfl, rfl, rfl, by simp, ?_, fun _ _ => rfl,
        SameData.refl _, n.next, ?_, ?_⟩
      · unfold unlink
        rw [List.getLast?_nil]
        dsimp only
        rw [tableSet_ok (by rw [h.len]; exact hi), hbind_ok]
        rfl
      · intro j hj
        show (t.table.set i n.next)[j]? = _
        rw [List.getElem?_set_ne (Ne.symm hj)]
      · show (t.table.set i n.next)[i]? = _
        rw [List.getElem?_set_self (by rw [h.len]; exact hi)]
      · exact p2.drop_head ha
    · rw [List.concat_eq_append] at hpre
      subst hpre
      rw [List.append_assoc] at p2 hnd
      have p3 : HChain t.mem hd (p ++ b :: a :: post) := p2
      obtain ⟨nb, hb⟩ := p3.mem_some (a := b) (by simp)
      refine ⟨{ t with mem := memSet t.mem b (some { nb with next := n.next }) }, ?_, rfl, rfl, rfl, rfl, rfl, rfl,
        fun _ _ => rfl, ?_, ?_, hd, p1, ?_⟩
      · unfold unlink
        rw [List.getLast?_append]
        simp only [List.getLast?_singleton, Option.some_or]
        rw [loadNode_ok hb, hbind_ok]
        rfl
      · intro c hc
        refine memSet_ne _ _ ?_
        rintro rfl
        simp at hc
      · intro c
        by_cases hcb : c = b
        · subst hcb
          show (memSet t.mem c _ c).map _ = _
          rw [memSet_same, hb]; rfl
        · show (memSet t.mem b _ c).map _ = _
          rw [memSet_ne _ _ hcb]
      · rw [List.append_assoc]
        exact p3.splice hb ha
  obtain ⟨t1, e1, e2, e3, e4, e5, e6, e7, e8, e9, e10, hd', e11, e12⟩ := hun
  have hapre : a ∉ pre := by
    intro hm
    have := List.nodup_append.mp hnd
    exact this.2.2 a hm a (by simp) rfl
  have hapost : a ∉ post := by
    intro hm
    have := (List.nodup_append.mp hnd).2.1
    exact (List.nodup_cons.mp this).1 hm
  refine ⟨t1, e1, e2, e3, e4, by rw [e9 a hapre, ha], e8, e9, e10, e7, ?_⟩
  intro fr
  have hback : ∀ b m, memSet t1.mem a none b = some m →
      b ≠ a ∧ ∃ m', t.mem b = some m' ∧ m'.k = m.k ∧ m'.v = m.v ∧ m'.h = m.h := by
    intro b m hm
    by_cases hba : b = a
    · subst hba
      rw [memSet_same] at hm
      cases hm
    · rw [memSet_ne _ _ hba] at hm
      exact ⟨hba, e10.symm.some_right hm⟩
  exact {
    len := by
      show t1.table.length = t1.tablelength
      rw [e7, e4, h.len]
    pos := by show 0 < t1.tablelength; rw [e4]; exact h.pos
    pidx := by show t1.primeindex < _; rw [e5]; exact h.pidx
    path := by
      intro x hx
      have hx' : x < t.tablelength := by rw [← e4]; exact hx
      by_cases hxi : x = i
      · subst hxi
        refine ⟨hd', e11, ?_⟩
        rw [if_pos rfl]
        refine e12.frame ?_
        intro b hb
        refine memSet_ne _ _ ?_
        rintro rfl
        rcases List.mem_append.mp hb with h' | h'
        · exact hapre h'
        · exact hapost h'
      · obtain ⟨hd2, q1, q2⟩ := h.path x hx'
        refine ⟨hd2, (e8 x hxi).trans q1, ?_⟩
        rw [if_neg hxi]
        refine q2.frame ?_
        intro b hb
        have hbi := hother x hx' hxi b hb
        show memSet t1.mem a none b = _
        rw [memSet_ne _ _ (by rintro rfl; exact hbi haB)]
        refine e9 b ?_
        intro hbp
        exact hbi (by rw [hB]; simp [hbp])
    node := by
      intro x hx b hb m hm
      have hx' : x < t.tablelength := by rw [← e4]; exact hx
      obtain ⟨hba, m', g1, g2, g3, g4⟩ := hback b m hm
      have hbx : b ∈ B x := by
        by_cases hxi : x = i
        · rw [if_pos hxi] at hb
          rw [hxi, hB]
          rcases List.mem_append.mp hb with h' | h' <;> simp [h']
        · rwa [if_neg hxi] at hb
      obtain ⟨k1, k2⟩ := h.node x hx' b hbx m' g1
      rw [g4] at k1 k2
      rw [g2] at k2
      exact ⟨by show _ % t1.tablelength = _; rw [e4]; exact k1, k2⟩
    all := by
      intro b m hm
      obtain ⟨hba, m', g1, g2, g3, g4⟩ := hback b m hm
      have := h.all b m' g1
      rw [g4] at this
      show _ ∈ (if m.h.toNat % t1.tablelength = i then _ else _)
      rw [e4]
      split
      · rename_i hxi
        rw [hxi, hB] at this
        rcases List.mem_append.mp this with h' | h'
        · exact List.mem_append_left _ h'
        · rcases List.mem_cons.mp h' with h' | h'
          · exact absurd h' hba
          · exact List.mem_append_right _ h'
      · exact this
    fresh := by
      intro b hb
      have hb' : t.fresh ≤ b := by rw [← e6]; exact hb
      cases hm : memSet t1.mem a none b with
      | none => exact hm
      | some m =>
        obtain ⟨_, m', g1, _⟩ := hback b m hm
        rw [h.fresh b hb'] at g1
        cases g1
    inj := by
      intro b c m m2 hm hm2 heq
      obtain ⟨_, m', g1, g2, _⟩ := hback b m hm
      obtain ⟨_, m2', g1', g2', _⟩ := hback c m2 hm2
      exact h.inj b c m' m2' g1 g1' (by rw [g2, g2']; exact heq)
    memA := by
      intro p
      rw [List.mem_filter, h.memA]
      constructor
      · rintro ⟨⟨b, m, hm, rfl⟩, hne⟩
        have hba : b ≠ a := by
          rintro rfl
          rw [ha] at hm
          cases hm
          simp [hf.refl] at hne
        obtain ⟨m', g1, g2, g3, _⟩ := e10.some_right hm
        exact ⟨b, m', (memSet_ne _ _ hba).trans g1, by rw [g2, g3]⟩
      · rintro ⟨b, m, hm, rfl⟩
        obtain ⟨hba, m', g1, g2, g3, _⟩ := hback b m hm
        refine ⟨⟨b, m', g1, by rw [g2, g3]⟩, ?_⟩
        cases hb : f.eqfn n.k m.k with
        | false => rfl
        | true =>
          exfalso
          exact hba (h.inj a b n m' ha g1 (by rw [g2]; exact hb)).symm
    pw := h.pw.filter _
    cnt := by
      show t1.entrycount - 1 = _
      have := (A_split hf h ha).length_eq
      rw [e2, h.cnt, this]
      simp }

theorem TabInv.remove {f : HFns κ} (hf : HashLawful f) {t : HTab κ ν} {B : Nat → List Nat}
    {A : List (κ × ν)} (h : TabInv f t B A) (k : κ) :
    ∃ t' B' fr, hashRemove f t k = .ok t' ∧ TabInv f t' B' (A.filter (fun p => !f.eqfn k p.1)) ∧
      t'.freed = t.freed ++ fr ∧ (blocks A).Perm (fr ++ blocks (A.filter (fun p => !f.eqfn k p.1))) := by
  obtain ⟨i, hi, ⟨h1, h2⟩ | ⟨pre, a, post, n, h1, h2, h3, h4⟩⟩ := h.find hf k
  · have hA : A.filter (fun p => !f.eqfn k p.1) = A := by
      rw [List.filter_eq_self]
      intro p hp
      obtain ⟨a, n, ha, rfl⟩ := (h.memA _).mp hp
      simp [h2 a n ha]
    refine ⟨t, B, [], ?_, by rw [hA]; exact h, by simp, by rw [hA]; exact List.Perm.refl _⟩
    unfold hashRemove
    rw [h1, hbind_ok]
    rfl
  · have hA : A.filter (fun p => !f.eqfn k p.1) = A.filter (fun p => !f.eqfn n.k p.1) := by
      refine List.filter_congr ?_
      intro p _
      have : f.eqfn k p.1 = f.eqfn n.k p.1 := by
        rw [Bool.eq_iff_iff]
        exact ⟨fun h => hf.trans _ _ _ (hf.symm _ _ h3) h, fun h => hf.trans _ _ _ h3 h⟩
      rw [this]
    obtain ⟨t1, e1, e2, e3, _, _, _, _, _, _, e4⟩ := h.removeAt hf hi h4 h2
    refine ⟨_, _, [.inl n.k, .inr n.v], ?_, by rw [hA]; exact e4 (t1.freed ++ [.inl n.k, .inr n.v]), ?_, ?_⟩
    · unfold hashRemove
      rw [h1, hbind_ok]
      dsimp only
      rw [e1, hbind_ok]
      rfl
    · show t1.freed ++ _ = _
      rw [e3]
    · rw [hA]
      exact (A_split hf h h2).flatMap_right _

/-! ## Change -/

theorem TabInv.change {f : HFns κ} (hf : HashLawful f) {t : HTab κ ν} {B : Nat → List Nat}
    {A : List (κ × ν)} (h : TabInv f t B A) (k : κ) (v : ν) :
    ∃ t' fr, hashChange f t k v = .ok (t', if (lookup f A k).isSome then -1 else 0) ∧
      TabInv f t' B (A.map (fun p => if f.eqfn k p.1 then (p.1, v) else p)) ∧
      t'.freed = t.freed ++ fr ∧
      List.Perm ((if (lookup f A k).isSome then [Sum.inr v] else []) ++ blocks A)
        (fr ++ blocks (A.map (fun p => if f.eqfn k p.1 then (p.1, v) else p))) := by
  obtain ⟨i, hi, ⟨h1, h2⟩ | ⟨pre, a, post, n, h1, h2, h3, h4⟩⟩ := h.find hf k
  · have hA : A.map (fun p => if f.eqfn k p.1 then (p.1, v) else p) = A := by
      conv => rhs; rw [← List.map_id A]
      refine List.map_congr_left ?_
      intro p hp
      obtain ⟨a, n, ha, rfl⟩ := (h.memA _).mp hp
      simp [h2 a n ha]
    have hl : (lookup f A k).isSome = false := by
      unfold lookup
      rw [lookup_absent h h2]
      rfl
    rw [hA, hl]
    refine ⟨t, [], ?_, h, by simp, List.Perm.refl _⟩
    unfold hashChange
    rw [h1, hbind_ok]
    rfl
  · have hl : (lookup f A k).isSome = true := by
      unfold lookup
      rw [lookup_some hf h h2 h3]
      rfl
    rw [hl]
    have hunq : ∀ b m, t.mem b = some m → b ≠ a → f.eqfn k m.k = false := by
      intro b m hm hba
      cases hb : f.eqfn k m.k with
      | false => rfl
      | true => exact absurd (h.inj b a m n hm h2 (hf.trans _ _ _ (hf.symm _ _ hb) h3)) hba
    have hback : ∀ b m, memSet t.mem a (some { n with v := v }) b = some m →
        (b = a ∧ m = { n with v := v }) ∨ (b ≠ a ∧ t.mem b = some m) := by
      intro b m hm
      by_cases hba : b = a
      · subst hba
        rw [memSet_same] at hm
        cases hm
        exact Or.inl ⟨rfl, rfl⟩
      · rw [memSet_ne _ _ hba] at hm
        exact Or.inr ⟨hba, hm⟩
    have hback' : ∀ b m, memSet t.mem a (some { n with v := v }) b = some m →
        ∃ m', t.mem b = some m' ∧ m'.k = m.k ∧ m'.h = m.h := by
      intro b m hm
      rcases hback b m hm with ⟨rfl, rfl⟩ | ⟨_, hm'⟩
      · exact ⟨n, h2, rfl, rfl⟩
      · exact ⟨m, hm', rfl, rfl⟩
    refine ⟨{ t with
              freed := t.freed ++ [.inr n.v]
              mem := memSet t.mem a (some { n with v := v }) }, [.inr n.v], ?_, ?_, rfl, ?_⟩
    · unfold hashChange
      rw [h1, hbind_ok]
      rfl
    · exact {
        len := h.len
        pos := h.pos
        pidx := h.pidx
        path := by
          intro x hx
          obtain ⟨hd, q1, q2⟩ := h.path x hx
          refine ⟨hd, q1, ?_⟩
          clear q1
          show HChain (memSet t.mem a (some { n with v := v })) hd (B x)
          generalize B x = L at q2
          induction L generalizing hd with
          | nil => exact q2
          | cons b L ih =>
            obtain ⟨r1, m, r2, r3⟩ := q2
            refine ⟨r1, ?_⟩
            by_cases hba : b = a
            · subst hba
              rw [h2] at r2
              cases r2
              exact ⟨_, memSet_same .., ih n.next r3⟩
            · exact ⟨m, (memSet_ne _ _ hba).trans r2, ih m.next r3⟩
        node := by
          intro x hx b hb m hm
          obtain ⟨m', g1, g2, g3⟩ := hback' b m hm
          have := h.node x hx b hb m' g1
          rw [g2, g3] at this
          exact this
        all := by
          intro b m hm
          obtain ⟨m', g1, g2, g3⟩ := hback' b m hm
          have := h.all b m' g1
          rw [g3] at this
          exact this
        fresh := by
          intro b hb
          cases hm : memSet t.mem a (some { n with v := v }) b with
          | none => exact hm
          | some m =>
            obtain ⟨m', g1, _⟩ := hback' b m hm
            rw [h.fresh b hb] at g1
            cases g1
        inj := by
          intro b c m m2 hm hm2 heq
          obtain ⟨m', g1, g2, _⟩ := hback' b m hm
          obtain ⟨m2', g1', g2', _⟩ := hback' c m2 hm2
          exact h.inj b c m' m2' g1 g1' (by rw [g2, g2']; exact heq)
        memA := by
          intro p
          rw [List.mem_map]
          constructor
          · rintro ⟨q, hq, rfl⟩
            obtain ⟨b, m, hm, rfl⟩ := (h.memA _).mp hq
            by_cases hba : b = a
            · subst hba
              rw [h2] at hm
              cases hm
              exact ⟨b, _, memSet_same .., by simp [h3]⟩
            · refine ⟨b, m, (memSet_ne _ _ hba).trans hm, ?_⟩
              simp [hunq b m hm hba]
          · rintro ⟨b, m, hm, rfl⟩
            rcases hback b m hm with ⟨rfl, rfl⟩ | ⟨hba, hm'⟩
            · exact ⟨(n.k, n.v), (h.memA _).mpr ⟨b, n, h2, rfl⟩, by simp [h3]⟩
            · exact ⟨(m.k, m.v), (h.memA _).mpr ⟨b, m, hm', rfl⟩, by simp [hunq b m hm' hba]⟩
        pw := by
          rw [List.pairwise_map]
          refine h.pw.imp ?_
          intro p q hpq
          have e : ∀ r : κ × ν, (if f.eqfn k r.1 = true then (r.1, v) else r).1 = r.1 := by
            intro r; split <;> rfl
          rw [e, e]
          exact hpq
        cnt := by
          show t.entrycount = _
          rw [h.cnt, List.length_map] }
    · rw [if_pos rfl]
      -- compare the entry lists after splitting off the changed entry
      have hs := A_split hf h h2
      have hmap : (A.map (fun p => if f.eqfn k p.1 then (p.1, v) else p)).Perm
          ((n.k, v) :: A.filter (fun p => !f.eqfn n.k p.1)) := by
        refine (hs.map _).trans ?_
        rw [List.map_cons, if_pos h3]
        refine List.Perm.cons _ (List.Perm.of_eq ?_)
        conv => rhs; rw [← List.map_id (A.filter _)]
        refine List.map_congr_left ?_
        intro p hp
        rw [List.mem_filter] at hp
        have : f.eqfn k p.1 = false := by
          cases hb : f.eqfn k p.1 with
          | false => rfl
          | true =>
            have := hf.trans _ _ _ (hf.symm _ _ h3) hb
            rw [this] at hp
            simp at hp
        simp [this]
      refine (List.Perm.append_left _ (hs.flatMap_right _)).trans ?_
      refine List.Perm.trans ?_ (List.Perm.append_left _ (hmap.flatMap_right _)).symm
      simp only [List.flatMap_cons, List.cons_append, List.nil_append]
      generalize List.flatMap _ _ = X
      refine (List.Perm.cons _ (List.Perm.swap _ _ _)).trans ?_
      refine (List.Perm.swap _ _ _).trans ?_
      exact List.Perm.cons _ (List.Perm.swap _ _ _)

end Argtable
