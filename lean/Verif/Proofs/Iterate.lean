import Verif.Spec.Iterate
import Verif.Proofs.Cmd
import Verif.Proofs.ModMem
/-!
# Iterators over a registry that changes
-/

namespace Argtable
open Spec

section
variable {κ ν : Type}

/-! ### what an operation leaves as it is -/

/-- Nothing but the entries has changed. -/
structure SameShape (t t' : HTab κ ν) : Prop where
  tl : t'.tablelength = t.tablelength
  ll : t'.loadlimit = t.loadlimit
  pi : t'.primeindex = t.primeindex

theorem unlink_shape {t t' : HTab κ ν} {i : Nat} {p n : Option Nat} (h : unlink t i p n = .ok t') :
    SameShape t t' ∧ t'.fresh = t.fresh := by
  unfold unlink at h
  cases p with
  | none =>
    obtain ⟨x, _, h⟩ := mbind_inv h
    cases h
    exact ⟨⟨rfl, rfl, rfl⟩, rfl⟩
  | some p =>
    obtain ⟨x, _, h⟩ := mbind_inv h
    cases h
    exact ⟨⟨rfl, rfl, rfl⟩, rfl⟩

/-- Taking an entry out. -/
theorem TabInv.remove_pos {f : HFns κ} (hf : HashLawful f) {t : HTab κ ν} {B : Nat → List Nat} {A : List (κ × ν)}
    (h : TabInv f t B A) (k : κ) :
    ∃ t' B', hashRemove f t k = .ok t' ∧ TabInv f t' B' (A.filter (fun p => !f.eqfn k p.1)) ∧ SameShape t t' ∧
      t'.fresh = t.fresh ∧ ∃ c, (∀ n, t.mem c = some n → f.eqfn k n.k = true) ∧
        (∀ x < t.tablelength, B' x = (B x).filter (· ≠ c)) ∧
        (∀ b, b ≠ c → ∀ n, t.mem b = some n → ∃ n', t'.mem b = some n' ∧ n'.k = n.k) ∧
        (∀ b n', t'.mem b = some n' → b ≠ c ∧ ∃ n, t.mem b = some n ∧ n.k = n'.k) := by
  obtain ⟨i, hi, ⟨h1, h2⟩ | ⟨pre, a, post, n, h1, h2, h3, h4⟩⟩ := h.find hf k
  · have hA : A.filter (fun p => !f.eqfn k p.1) = A := by
      rw [List.filter_eq_self]
      intro p hp
      obtain ⟨a, n, ha, rfl⟩ := (h.memA _).mp hp
      simp [h2 a n ha]
    refine ⟨t, B, ?_, by rw [hA]; exact h, ⟨rfl, rfl, rfl⟩, rfl, t.fresh, ?_, ?_, ?_, ?_⟩
    · unfold hashRemove
      rw [h1, hbind_ok]
      rfl
    · intro n hn
      rw [h.fresh _ (Nat.le_refl _)] at hn
      cases hn
    · intro x hx
      refine (List.filter_eq_self.2 fun b hb => ?_).symm
      obtain ⟨hd, _, hp⟩ := h.path x hx
      obtain ⟨n, hn⟩ := hp.mem_some hb
      have : b ≠ t.fresh := by
        rintro rfl
        rw [h.fresh _ (Nat.le_refl _)] at hn
        cases hn
      simpa using this
    · exact fun b _ n hn => ⟨n, hn, rfl⟩
    · intro b n hn
      refine ⟨?_, n, hn, rfl⟩
      rintro rfl
      rw [h.fresh _ (Nat.le_refl _)] at hn
      cases hn
  · have hA : A.filter (fun p => !f.eqfn k p.1) = A.filter (fun p => !f.eqfn n.k p.1) := by
      refine List.filter_congr ?_
      intro p _
      have : f.eqfn k p.1 = f.eqfn n.k p.1 := by
        rw [Bool.eq_iff_iff]
        exact ⟨fun h => hf.trans _ _ _ (hf.symm _ _ h3) h, fun h => hf.trans _ _ _ h3 h⟩
      rw [this]
    obtain ⟨t1, e1, e2, e3, _, _, _, _, esd, _, e4⟩ := h.removeAt hf hi h4 h2
    obtain ⟨⟨s1, s2, s3⟩, s4⟩ := unlink_shape e1
    have hdata : ∀ b n, t.mem b = some n → ∃ n', t1.mem b = some n' ∧ n'.k = n.k := by
      intro b m hm
      have := esd b
      rw [hm] at this
      cases hb : t1.mem b with
      | none => rw [hb] at this; cases this
      | some m' =>
        rw [hb] at this
        simp only [Option.map_some, Option.some.injEq, Prod.mk.injEq] at this
        exact ⟨m', rfl, this.1⟩
    have hdata' : ∀ b n', t1.mem b = some n' → ∃ n, t.mem b = some n ∧ n.k = n'.k := by
      intro b m' hm
      have := esd b
      rw [hm] at this
      cases hb : t.mem b with
      | none => rw [hb] at this; cases this
      | some m =>
        rw [hb] at this
        simp only [Option.map_some, Option.some.injEq, Prod.mk.injEq] at this
        exact ⟨m, rfl, this.1.symm⟩
    refine ⟨{ t1 with entrycount := t1.entrycount - 1, freed := t1.freed ++ [.inl n.k, .inr n.v], mem := memSet t1.mem a none },
      _, ?_, by rw [hA]; exact e4 (t1.freed ++ [.inl n.k, .inr n.v]), ⟨s1, s2, s3⟩, s4, a, ?_, ?_, ?_, ?_⟩
    · unfold hashRemove
      rw [h1, hbind_ok]
      dsimp only
      rw [e1, hbind_ok]
      rfl
    · intro m hm
      rw [h2] at hm
      cases hm
      exact h3
    · intro x hx
      obtain ⟨hd, _, hp⟩ := h.path x hx
      by_cases hxi : x = i
      · subst hxi
        rw [if_pos rfl, h4]
        have hnd := hp.nodup
        rw [h4] at hnd
        obtain ⟨n1, n2, n3⟩ := List.nodup_append.1 hnd
        rw [List.filter_append, List.filter_cons, if_neg (by simp)]
        rw [List.filter_eq_self.2 ?_, List.filter_eq_self.2 ?_]
        · intro b hb
          have : b ≠ a := by rintro rfl; exact (List.nodup_cons.1 n2).1 hb
          simpa using this
        · intro b hb
          have : b ≠ a := n3 b hb a (by simp)
          simpa using this
      · rw [if_neg hxi]
        refine (List.filter_eq_self.2 fun b hb => ?_).symm
        have : b ≠ a := by
          rintro rfl
          have q1 := (h.node x hx b hb n h2).1
          have q2 := (h.node i hi b (by rw [h4]; simp) n h2).1
          omega
        simpa using this
    · intro b hb m hm
      obtain ⟨m', q1, q2⟩ := hdata b m hm
      exact ⟨m', (memSet_ne _ _ hb).trans q1, q2⟩
    · intro b m' hm
      have hb : b ≠ a := by
        rintro rfl
        have hm' := (memSet_same ..).symm.trans hm
        cases hm'
      exact ⟨hb, hdata' b m' ((memSet_ne _ _ hb).symm.trans hm)⟩

/-- The table is as large as its index into the primes says, and holds `m` entries without growing. -/
structure Cap (limit : Nat → Nat) (t : HTab κ ν) (m : Nat) : Prop where
  size : primes[t.primeindex]? = some t.tablelength
  load : t.loadlimit = limit t.tablelength
  room : m ≤ t.loadlimit ∨ t.primeindex + 1 = primes.length

theorem Cap.shape {limit : Nat → Nat} {t t' : HTab κ ν} {m : Nat} (h : Cap limit t m) (s : SameShape t t') : Cap limit t' m := by
  obtain ⟨h1, h2, h3⟩ := h
  obtain ⟨s1, s2, s3⟩ := s
  exact ⟨by rw [s1, s3]; exact h1, by rw [s1, s2]; exact h2, by rw [s2, s3]; exact h3⟩

theorem Cap.mono {limit : Nat → Nat} {t : HTab κ ν} {m m' : Nat} (h : Cap limit t m) (hm : m' ≤ m) : Cap limit t m' :=
  ⟨h.size, h.load, h.room.imp (fun h => Nat.le_trans hm h) id⟩

theorem Cap.expand {f : HFns κ} (hg : Growing f.limit) {t t' : HTab κ ν} {m : Nat} (h : Cap f.limit t m)
    (he : hashExpand f t = .ok t') : Cap f.limit t' m ∧ (Cap f.limit t t.entrycount → Cap f.limit t' (t.entrycount + 1)) := by
  unfold hashExpand at he
  split at he
  · rename_i hl
    cases he
    have hp : t.primeindex + 1 = primes.length := by
      have : 0 < primes.length := by decide
      omega
    exact ⟨h, fun _ => ⟨h.size, h.load, Or.inr hp⟩⟩
  · cases hq : primes[t.primeindex + 1]? with
    | none => rw [hq] at he; cases he
    | some q =>
      rw [hq] at he
      dsimp only at he
      obtain ⟨x, _, he⟩ := mbind_inv he
      cases he
      have hlt := hg _ _ _ h.size hq
      have hne : ¬ t.primeindex + 1 = primes.length := by
        have := (List.getElem?_eq_some_iff.1 hq).1
        omega
      refine ⟨⟨hq, rfl, Or.inl ?_⟩, fun h' => ⟨hq, rfl, Or.inl ?_⟩⟩
      · have := h.load
        rcases h.room with hr | hr
        · dsimp only; omega
        · exact absurd hr hne
      · have := h'.load
        rcases h'.room with hr | hr
        · dsimp only; omega
        · exact absurd hr hne

/-- The parts of an insertion. -/
theorem hashInsert_inv {f : HFns κ} {t t' : HTab κ ν} {k : κ} {v : ν} (h : hashInsert f t k v = .ok t') :
    ∃ t1, (if t.entrycount + 1 > t.loadlimit then hashExpand f t else pure t) = .ok t1 ∧ SameShape t1 t' := by
  rw [hashInsert_eq] at h
  obtain ⟨t1, h1, h⟩ := mbind_inv h
  unfold hashPut at h
  dsimp only at h
  obtain ⟨_, _, h⟩ := mbind_inv h
  obtain ⟨_, _, h⟩ := mbind_inv h
  obtain ⟨_, _, h⟩ := mbind_inv h
  cases h
  exact ⟨t1, h1, ⟨rfl, rfl, rfl⟩⟩

theorem Cap.insert {f : HFns κ} (hg : Growing f.limit) {t t' : HTab κ ν} {m : Nat} {k : κ} {v : ν} (h : Cap f.limit t m)
    (he : hashInsert f t k v = .ok t') : Cap f.limit t' m ∧ (Cap f.limit t t.entrycount → Cap f.limit t' (t.entrycount + 1)) := by
  obtain ⟨t1, h1, hs⟩ := hashInsert_inv he
  split at h1
  · obtain ⟨k1, k2⟩ := h.expand hg h1
    exact ⟨k1.shape hs, fun h' => (k2 h').shape hs⟩
  · rename_i hl
    cases h1
    refine ⟨h.shape hs, fun h' => Cap.shape ⟨h'.size, h'.load, Or.inl (by omega)⟩ hs⟩

/-- Putting an entry in, when the table has room. -/
theorem TabInv.insert_pos {f : HFns κ} (hf : HashLawful f) {t : HTab κ ν} {B : Nat → List Nat} {A : List (κ × ν)}
    (h : TabInv f t B A) {k : κ} {v : ν} (hk : lookup f A k = none) {m : Nat} (hm : A.length < m) (hc : Cap f.limit t m) :
    ∃ t' B' idx, hashInsert f t k v = .ok t' ∧ TabInv f t' B' ((k, v) :: A) ∧ SameShape t t' ∧ t'.fresh = t.fresh + 1 ∧
      (∀ x < t.tablelength, B' x = if x = idx then t.fresh :: B x else B x) ∧
      (∃ n, t'.mem t.fresh = some n ∧ n.k = k) ∧
      (∀ b, b ≠ t.fresh → t'.mem b = t.mem b) := by
  have hpre : (if t.entrycount + 1 > t.loadlimit then hashExpand f t else pure t) = (.ok t : M _) := by
    split
    · rename_i hl
      unfold hashExpand
      rw [if_pos]
      · rfl
      · have := h.cnt
        rcases hc.room with hr | hr <;> omega
    · rfl
  obtain ⟨hd, idx, e1, e2⟩ := h.put hf (v := v) hk
  refine ⟨_, _, idx, by rw [hashInsert_eq, hpre, hbind_ok]; exact e1, e2, ⟨rfl, rfl, rfl⟩, rfl, fun _ _ => rfl,
    ⟨_, memSet_same .., rfl⟩, fun b hb => memSet_ne _ _ hb⟩

/-! ### positions -/

/-- The iterator stands at `a`, and `rest` is what follows. -/
structure AtPos (tl : Nat) (B : Nat → List Nat) (it : HItr) (a : Nat) (rest : List Nat) : Prop where
  lt : it.index < tl
  e : it.e = some a
  split : ∃ pre post, B it.index = pre ++ a :: post ∧ rest = post ++ allFrom B (tl - it.index - 1) (it.index + 1)

theorem AtPos.congr {tl : Nat} {B B' : Nat → List Nat} {it : HItr} {a : Nat} {rest : List Nat} (h : AtPos tl B it a rest)
    (hB : ∀ x < tl, B' x = B x) : AtPos tl B' it a rest := by
  obtain ⟨h1, h2, pre, post, h3, h4⟩ := h
  refine ⟨h1, h2, pre, post, by rw [hB _ h1]; exact h3, ?_⟩
  rw [h4, allFrom_congr (B := B') (B' := B) fun j _ hj => hB j (by omega)]

theorem allFrom_filter (B : Nat → List Nat) (p : Nat → Bool) : ∀ n i, allFrom (fun x => (B x).filter p) n i = (allFrom B n i).filter p
  | 0, i => rfl
  | n + 1, i => by rw [allFrom, allFrom, List.filter_append, allFrom_filter B p n (i + 1)]

theorem AtPos.filter {tl : Nat} {B B' : Nat → List Nat} {it : HItr} {a c : Nat} {rest : List Nat} (h : AtPos tl B it a rest)
    (hB : ∀ x < tl, B' x = (B x).filter (· ≠ c)) (hac : a ≠ c) : AtPos tl B' it a (rest.filter (· ≠ c)) := by
  refine AtPos.congr (B := fun x => (B x).filter (· ≠ c)) ?_ hB
  obtain ⟨h1, h2, pre, post, h3, h4⟩ := h
  refine ⟨h1, h2, pre.filter (· ≠ c), post.filter (· ≠ c), ?_, ?_⟩
  · rw [h3, List.filter_append, List.filter_cons, if_pos (by simpa using hac)]
  · rw [h4, List.filter_append, allFrom_filter]

theorem AtPos.insert {tl : Nat} {B B' : Nat → List Nat} {it : HItr} {a c idx : Nat} {rest : List Nat} (h : AtPos tl B it a rest)
    (hB : ∀ x < tl, B' x = if x = idx then c :: B x else B x) :
    ∃ rest', AtPos tl B' it a rest' ∧ (∀ b ∈ rest, b ∈ rest') ∧
      ∀ b ∈ rest', b ∈ rest ∨ b = c ∧ it.index < idx ∧ idx < tl := by
  obtain ⟨h1, h2, pre, post, h3, h4⟩ := h
  refine ⟨post ++ allFrom B' (tl - it.index - 1) (it.index + 1), ⟨h1, h2, if it.index = idx then c :: pre else pre, post, ?_, rfl⟩,
    ?_, ?_⟩
  · rw [hB _ h1, h3]
    split <;> rfl
  · intro b hb
    rw [h4, List.mem_append, mem_allFrom] at hb
    rw [List.mem_append, mem_allFrom]
    rcases hb with hb | ⟨j, j1, j2, j3⟩
    · exact Or.inl hb
    · refine Or.inr ⟨j, j1, j2, ?_⟩
      rw [hB j (by omega)]
      split
      · exact List.mem_cons_of_mem _ j3
      · exact j3
  · intro b hb
    rw [List.mem_append, mem_allFrom] at hb
    rw [h4, List.mem_append, mem_allFrom]
    rcases hb with hb | ⟨j, j1, j2, j3⟩
    · exact Or.inl (Or.inl hb)
    · rw [hB j (by omega)] at j3
      split at j3
      · rename_i hj
        rcases List.mem_cons.1 j3 with j3 | j3
        · exact Or.inr ⟨j3, by omega, by omega⟩
        · exact Or.inl (Or.inr ⟨j, j1, j2, j3⟩)
      · exact Or.inl (Or.inr ⟨j, j1, j2, j3⟩)

theorem AtPos.nodup {f : HFns κ} {t : HTab κ ν} {B : Nat → List Nat} {A : List (κ × ν)} {it : HItr} {a : Nat} {rest : List Nat}
    (h : TabInv f t B A) (hp : AtPos t.tablelength B it a rest) : (a :: rest).Nodup := by
  obtain ⟨h1, h2, pre, post, h3, h4⟩ := hp
  have := h.allFrom_nodup (t.tablelength - it.index - 1 + 1) it.index (by omega)
  rw [allFrom, h3, List.append_assoc] at this
  rw [h4]
  exact (List.nodup_append.mp this).2.1

theorem AtPos.live {f : HFns κ} {t : HTab κ ν} {B : Nat → List Nat} {A : List (κ × ν)} {it : HItr} {a : Nat} {rest : List Nat}
    (h : TabInv f t B A) (hp : AtPos t.tablelength B it a rest) : ∀ b ∈ a :: rest, ∃ n, t.mem b = some n := by
  obtain ⟨h1, h2, pre, post, h3, h4⟩ := hp
  intro b hb
  refine h.mem_all.1 (mem_allFrom.2 ?_)
  rcases List.mem_cons.1 hb with rfl | hb
  · exact ⟨it.index, by omega, by omega, by rw [h3]; simp⟩
  · rw [h4, List.mem_append, mem_allFrom] at hb
    rcases hb with hb | ⟨j, j1, j2, j3⟩
    · exact ⟨it.index, by omega, by omega, by rw [h3]; simp [hb]⟩
    · exact ⟨j, by omega, by omega, j3⟩

theorem AtPos.create {f : HFns κ} {t : HTab κ ν} {B : Nat → List Nat} {A : List (κ × ν)} (h : TabInv f t B A) (hne : A ≠ []) :
    ∃ it a rest, itrCreate t = .ok it ∧ AtPos t.tablelength B it a rest ∧ allFrom B t.tablelength 0 = a :: rest := by
  obtain ⟨it, h1, h2⟩ := h.itrCreate hne
  cases hl : allFrom B t.tablelength 0 with
  | nil =>
    exfalso
    obtain ⟨p, hp⟩ := List.exists_mem_of_ne_nil A hne
    obtain ⟨a, n, ha, -⟩ := (h.memA p).1 hp
    have := h.mem_all.2 ⟨n, ha⟩
    rw [hl] at this
    cases this
  | cons a rest =>
    rw [hl] at h2
    obtain ⟨pre, post, k1, k2, k3, k4, k5⟩ := h2
    exact ⟨it, a, rest, h1, ⟨k1, k3, pre, post, k2, k5⟩, rfl⟩

theorem AtPos.look {t : HTab κ ν} {B : Nat → List Nat} {it : HItr} {a : Nat} {rest : List Nat}
    (hp : AtPos t.tablelength B it a rest) {n : HNode κ ν} (hn : t.mem a = some n) :
    itrKey t it = .ok n.k ∧ itrValue t it = .ok n.v := by
  constructor
  · unfold itrKey itrNode
    rw [hp.e]
    dsimp only
    rw [loadNode_ok hn]
    rfl
  · unfold itrValue itrNode
    rw [hp.e]
    dsimp only
    rw [loadNode_ok hn]
    rfl

theorem AtPos.advance {f : HFns κ} {t : HTab κ ν} {B : Nat → List Nat} {A : List (κ × ν)} (h : TabInv f t B A) {it : HItr} {a : Nat}
    {rest : List Nat} (hp : AtPos t.tablelength B it a rest) :
    ∃ it' r, itrAdvance t it = .ok (it', r) ∧
      (r = 0 ∧ rest = [] ∨ r = -1 ∧ it.index ≤ it'.index ∧ ∃ b rest', rest = b :: rest' ∧ AtPos t.tablelength B it' b rest') := by
  obtain ⟨hi, he, pre, post, hB, hrest⟩ := hp
  obtain ⟨hd, p1, p2⟩ := h.path _ hi
  rw [hB] at p2
  obtain ⟨n, hn⟩ := p2.mem_some (a := a) (by simp)
  have hpost : HChain t.mem n.next post := (HChain.suffix p2).drop_head hn
  obtain ⟨it', r, e1, h1 | ⟨h1, b, post', h2, h3⟩ | ⟨h1, h2, j, b, post', h3, h4, h5, h6, h7⟩⟩ :=
    itrAdvance_ok (B := B) he hi hn hpost (fun j _ g2 => h.path j g2)
  · exact ⟨it', r, e1, Or.inl ⟨h1.1, by rw [hrest, h1.2.2.2]⟩⟩
  · subst h2
    refine ⟨it', r, e1, Or.inr ⟨h1, by rw [h3], b, _, hrest, ?_⟩⟩
    rw [h3]
    exact ⟨hi, rfl, pre ++ [a], post', by rw [hB]; simp, rfl⟩
  · subst h2
    rw [List.nil_append, h7] at hrest
    refine ⟨it', r, e1, Or.inr ⟨h1, by rw [h6]; dsimp only; omega, b, _, hrest, ?_⟩⟩
    rw [h6]
    exact ⟨h4, rfl, [], post', h5, rfl⟩

end

section
variable {P C : Type}

/-! ### one change -/

/-- The bucket of a name. -/
def nameSlot (tl : Nat) (name : CStr) : Nat := (enhancedHash (cmdFns fun n => n) name).toNat % tl

theorem enhancedHash_limit (limit limit' : Nat → Nat) (name : CStr) :
    enhancedHash (cmdFns limit) name = enhancedHash (cmdFns limit') name := rfl

theorem nameSlot_of_mem {limit : Nat → Nat} {t : HTab CStr (CmdInfo P C)} {B : Nat → List Nat} {A : List (CStr × CmdInfo P C)}
    (h : TabInv (cmdFns limit) t B A) {i a : Nat} (hi : i < t.tablelength) (ha : a ∈ B i) {n : HNode CStr (CmdInfo P C)}
    (hn : t.mem a = some n) : nameSlot t.tablelength n.k = i := by
  obtain ⟨h1, h2⟩ := h.node i hi a ha n hn
  unfold nameSlot
  rw [← h1, h2, enhancedHash_limit]

/-- What a change means for the entries and for iterators. -/
structure Effect (t t' : HTab CStr (CmdInfo P C)) (B B' : Nat → List Nat) (name : CStr) : Prop where
  tl : t'.tablelength = t.tablelength
  le : t.fresh ≤ t'.fresh
  back : ∀ b n', t'.mem b = some n' → (∃ n, t.mem b = some n ∧ n.k = n'.k) ∨ t.fresh ≤ b ∧ n'.k = name
  fwd : ∀ b n, t.mem b = some n → n.k ≠ name → ∃ n', t'.mem b = some n' ∧ n'.k = n.k
  pos : ∀ it a rest n, AtPos t.tablelength B it a rest → t.mem a = some n → n.k ≠ name →
    ∃ rest', AtPos t.tablelength B' it a rest' ∧ (∀ b ∈ rest', b ∈ rest ∨ t.fresh ≤ b ∧ it.index < nameSlot t.tablelength name) ∧
      ∀ b ∈ rest, b < t.fresh → (∃ n', t'.mem b = some n') → b ∈ rest'

theorem Effect.refl (t : HTab CStr (CmdInfo P C)) (B : Nat → List Nat) (name : CStr) : Effect t t B B name where
  tl := rfl
  le := Nat.le_refl _
  back b n h := Or.inl ⟨n, h, rfl⟩
  fwd b n h _ := ⟨n, h, rfl⟩
  pos it a rest n h _ _ := ⟨rest, h, fun b hb => Or.inl hb, fun b hb _ _ => hb⟩

theorem Effect.trans {t t1 t2 : HTab CStr (CmdInfo P C)} {B B1 B2 : Nat → List Nat} {name : CStr} (h : Effect t t1 B B1 name)
    (h' : Effect t1 t2 B1 B2 name) : Effect t t2 B B2 name where
  tl := h'.tl.trans h.tl
  le := Nat.le_trans h.le h'.le
  back b n hb := by
    rcases h'.back b n hb with ⟨n1, k1, k2⟩ | k
    · rcases h.back b n1 k1 with ⟨n2, k3, k4⟩ | k
      · exact Or.inl ⟨n2, k3, k4.trans k2⟩
      · exact Or.inr ⟨k.1, k2.symm.trans k.2⟩
    · exact Or.inr ⟨Nat.le_trans h.le k.1, k.2⟩
  fwd b n hb hn := by
    obtain ⟨n1, k1, k2⟩ := h.fwd b n hb hn
    obtain ⟨n2, k3, k4⟩ := h'.fwd b n1 k1 (by rw [k2]; exact hn)
    exact ⟨n2, k3, k4.trans k2⟩
  pos it a rest n hp ha hn := by
    obtain ⟨r1, p1, p2, p3⟩ := h.pos it a rest n hp ha hn
    obtain ⟨n1, k1, k2⟩ := h.fwd a n ha hn
    obtain ⟨r2, q1, q2, q3⟩ := h'.pos it a r1 n1 (by rw [h.tl]; exact p1) k1 (by rw [k2]; exact hn)
    refine ⟨r2, by rw [← h.tl]; exact q1, ?_, ?_⟩
    · intro b hb
      rcases q2 b hb with hb | hb
      · exact p2 b hb
      · exact Or.inr ⟨Nat.le_trans h.le hb.1, by rw [← h.tl]; exact hb.2⟩
    · intro b hb hlt hl
      have hlt1 : b < t1.fresh := Nat.lt_of_lt_of_le hlt h.le
      refine q3 b (p3 b hb hlt ?_) hlt1 hl
      obtain ⟨m, hm⟩ := hl
      rcases h'.back b m hm with ⟨n1, k1, _⟩ | ⟨k, _⟩
      · exact ⟨n1, k1⟩
      · omega

/-- Removing. -/
theorem Effect.remove {limit : Nat → Nat} {t : HTab CStr (CmdInfo P C)} {B : Nat → List Nat} {A : List (CStr × CmdInfo P C)}
    (h : TabInv (cmdFns limit) t B A) (name : CStr) :
    ∃ t' B', hashRemove (cmdFns limit) t name = .ok t' ∧
      TabInv (cmdFns limit) t' B' (A.filter (fun p => !(cmdFns limit).eqfn name p.1)) ∧ SameShape t t' ∧ t'.fresh = t.fresh ∧
      Effect t t' B B' name ∧ (∀ b n, t.mem b = some n → n.k = name → t'.mem b = none) := by
  obtain ⟨t', B', e1, e2, e3, e4, c, c1, c2, c3, c4⟩ := h.remove_pos (cmdFns_lawful limit) name
  have hk : ∀ n, t.mem c = some n → n.k = name := by
    intro n hn
    have := c1 n hn
    simp [cmdFns, equalKeys] at this
    exact this.symm
  refine ⟨t', B', e1, e2, e3, e4, ⟨e3.tl, by omega, ?_, ?_, ?_⟩, ?_⟩
  · exact fun b n hb => Or.inl (c4 b n hb).2
  · intro b n hb hn
    refine c3 b ?_ n hb
    rintro rfl
    exact hn (hk n hb)
  · intro it a rest n hp ha hn
    refine ⟨_, hp.filter c2 ?_, ?_, ?_⟩
    · rintro rfl
      exact hn (hk n ha)
    · exact fun b hb => Or.inl (List.mem_filter.1 hb).1
    · rintro b hb _ ⟨n', hn'⟩
      exact List.mem_filter.2 ⟨hb, by simpa using (c4 b n' hn').1⟩
  · intro b n hb hn
    cases hm : t'.mem b with
    | none => rfl
    | some n' =>
      exfalso
      obtain ⟨k1, n2, k2, k3⟩ := c4 b n' hm
      have hmA := (e2.memA (n'.k, n'.v)).2 ⟨b, n', hm, rfl⟩
      have := (List.mem_filter.1 hmA).2
      rw [hb] at k2
      cases k2
      simp [cmdFns, equalKeys] at this
      exact this (hn.symm.trans k3)

/-- Inserting, when there is room. -/
theorem Effect.insert {limit : Nat → Nat} {t : HTab CStr (CmdInfo P C)} {B : Nat → List Nat} {A : List (CStr × CmdInfo P C)}
    (h : TabInv (cmdFns limit) t B A) {name : CStr} {v : CmdInfo P C} (hk : lookup (cmdFns limit) A name = none) {m : Nat}
    (hm : A.length < m) (hc : Cap limit t m) :
    ∃ t' B', hashInsert (cmdFns limit) t name v = .ok t' ∧ TabInv (cmdFns limit) t' B' ((name, v) :: A) ∧ SameShape t t' ∧
      t'.fresh = t.fresh + 1 ∧ Effect t t' B B' name := by
  obtain ⟨t', B', idx, e1, e2, e3, e4, e5, e6, e7⟩ := h.insert_pos (cmdFns_lawful limit) (v := v) hk hm hc
  refine ⟨t', B', e1, e2, e3, e4, e3.tl, by omega, ?_, ?_, ?_⟩
  · intro b n hb
    by_cases hbf : b = t.fresh
    · obtain ⟨n1, k1, k2⟩ := e6
      subst hbf
      rw [k1] at hb
      cases hb
      exact Or.inr ⟨Nat.le_refl _, k2⟩
    · rw [e7 b hbf] at hb
      exact Or.inl ⟨n, hb, rfl⟩
  · intro b n hb _
    refine ⟨n, ?_, rfl⟩
    rw [e7 b ?_]
    · exact hb
    · rintro rfl
      rw [h.fresh _ (Nat.le_refl _)] at hb
      cases hb
  · intro it a rest n hp _ _
    obtain ⟨rest', k1, k2, k3⟩ := hp.insert e5
    refine ⟨rest', k1, ?_, fun b hb _ _ => k2 b hb⟩
    intro b hb
    rcases k3 b hb with k | ⟨k, k4, k5⟩
    · exact Or.inl k
    · obtain ⟨n1, m1, m2⟩ := e6
      have hs := nameSlot_of_mem e2 (i := idx) (a := t.fresh) (by rw [e3.tl]; exact k5) (by rw [e5 idx k5, if_pos rfl]; simp) m1
      rw [e3.tl, m2] at hs
      exact Or.inr ⟨by omega, by rw [hs]; exact k4⟩

theorem filter_absent {limit : Nat → Nat} {A : List (CStr × CmdInfo P C)} {n : CStr} (h : lookup (cmdFns limit) A n = none) :
    A.filter (fun p => !(cmdFns limit).eqfn n p.1) = A := by
  rw [List.filter_eq_self]
  intro q hq
  simp [lookup_none h q hq]

theorem filter_shorter {limit : Nat → Nat} {A : List (CStr × CmdInfo P C)} {n : CStr} (h : (lookup (cmdFns limit) A n).isSome) :
    (A.filter (fun p => !(cmdFns limit).eqfn n p.1)).length < A.length := by
  rcases Nat.lt_or_ge (A.filter (fun p => !(cmdFns limit).eqfn n p.1)).length A.length with h1 | h1
  · exact h1
  · exfalso
    have h2 := List.length_filter_eq_length_iff.1 (Nat.le_antisymm (List.length_filter_le _ _) h1)
    unfold lookup at h
    rw [Option.isSome_map, List.find?_isSome] at h
    obtain ⟨x, hx, hx'⟩ := h
    have := h2 x hx
    simp [hx'] at this

/-- One change of the registry, with the table not growing. -/
theorem event_effect {limit : Nat → Nat} {t : HTab CStr (CmdInfo P C)} {B : Nat → List Nat} {A : List (CStr × CmdInfo P C)}
    {evs : List (CmdEvent P C)} (h : TabInv (cmdFns limit) t B A) (hl : ∀ n, lookup (cmdFns limit) A n = latest evs n)
    {m : Nat} (hA : A.length ≤ m) (hc : Cap limit t m) {e : CmdEvent P C} (he : e.fits)
    (hg : ¬ (e.info.isSome ∧ (latest evs e.name).isNone ∧ ¬ A.length < m)) :
    ∃ t' B' A', runEvent limit (.table t) e = .ok (.table t') ∧ TabInv (cmdFns limit) t' B' A' ∧
      (∀ n, lookup (cmdFns limit) A' n = latest (evs ++ [e]) n) ∧ A'.length ≤ m ∧ Cap limit t' m ∧
      t'.fresh = t.fresh + registrations [e] ∧ Effect t t' B B' e.name ∧
      ∀ b n, t.mem b = some n → n.k = e.name → t'.mem b = none := by
  cases e with
  | unregister n =>
    obtain ⟨t', B', e1, e2, e3, e4, e5, e6⟩ := Effect.remove h n
    refine ⟨t', B', _, ?_, e2, ?_, Nat.le_trans (List.length_filter_le _ _) hA, hc.shape e3, by simpa [registrations, CmdEvent.info] using e4, e5,
      e6⟩
    · show cmdUnregister limit (.table t) n = _
      unfold cmdUnregister Registry.get
      show ((.ok t : M _) >>= _) = _
      rw [hbind_ok, e1, hbind_ok]
      rfl
    · intro m
      rw [lookup_filter, latest_snoc, hl]
      rfl
  | register n p d c =>
    obtain ⟨hn, hd⟩ := he
    have hrm : ∃ t1 B1, (if (lookup (cmdFns limit) A n).isSome then hashRemove (cmdFns limit) t n else pure t) = .ok t1 ∧
        TabInv (cmdFns limit) t1 B1 (A.filter (fun p => !(cmdFns limit).eqfn n p.1)) ∧ SameShape t t1 ∧ t1.fresh = t.fresh ∧
        Effect t t1 B B1 n ∧ (A.filter (fun p => !(cmdFns limit).eqfn n p.1)).length < m ∧
        ∀ b nd, t.mem b = some nd → nd.k = n → t1.mem b = none := by
      by_cases hs : (lookup (cmdFns limit) A n).isSome = true
      · rw [if_pos hs]
        obtain ⟨t', B', e1, e2, e3, e4, e5, e6⟩ := Effect.remove h n
        exact ⟨t', B', e1, e2, e3, e4, e5, Nat.lt_of_lt_of_le (filter_shorter hs) hA, e6⟩
      · rw [if_neg hs]
        have hno : lookup (cmdFns limit) A n = none := by simpa using hs
        rw [filter_absent hno]
        refine ⟨t, B, rfl, h, ⟨rfl, rfl, rfl⟩, rfl, Effect.refl _ _ _, ?_, ?_⟩
        · rw [hl] at hno
          by_contra hcon
          exact hg ⟨rfl, by show (latest evs n).isNone; rw [hno]; rfl, hcon⟩
        · intro b nd hb hk
          have := lookup_none hno _ ((h.memA _).2 ⟨b, nd, hb, rfl⟩)
          simp [cmdFns, equalKeys, hk] at this
    obtain ⟨t1, B1, e1, e2, e3, e4, e5, e6, e7⟩ := hrm
    obtain ⟨t2, B2, f1, f2, f3, f4, f5⟩ := Effect.insert e2 (name := n) (v := { name := n, description := d, proc := p, ctx := c })
      (by rw [lookup_filter, if_pos rfl]) e6 (hc.shape e3)
    refine ⟨t2, B2, _, ?_, f2, ?_, ?_, (hc.shape e3).shape f3, ?_, e5.trans f5, ?_⟩
    · show cmdRegister limit (.table t) n p d c = _
      unfold cmdRegister Registry.get
      rw [if_neg (by simpa [ARG_CMD_NAME_LEN] using hn), if_neg (by simpa [ARG_CMD_DESCRIPTION_LEN] using hd)]
      show ((.ok t : M _) >>= _) = _
      rw [hbind_ok, h.search (cmdFns_lawful limit), hbind_ok]
      have hswap : ∀ (b : Bool) (x y : M (HTab CStr (CmdInfo P C))) (g : HTab CStr (CmdInfo P C) → M (Registry P C)),
          (if b = true then x >>= g else y >>= g) = ((if b = true then x else y) >>= g) := by
        intro b x y g
        cases b <;> rfl
      refine (hswap _ _ (pure t) _).trans ?_
      rw [e1, hbind_ok]
      dsimp only
      rw [f1, hbind_ok]
      rfl
    · intro x
      rw [lookup_cons, lookup_filter, latest_snoc, hl]
      show (if n = x then _ else _) = if n = x then _ else _
      split <;> rfl
    · rw [List.length_cons]; omega
    · rw [f4, e4]; rfl
    · intro b nd hb hk
      cases hm : t2.mem b with
      | none => rfl
      | some n' =>
        exfalso
        rcases f5.back b n' hm with ⟨n1, k1, _⟩ | ⟨k, _⟩
        · rw [e7 b nd hb hk] at k1
          cases k1
        · rw [h.fresh b (by omega)] at hb
          cases hb

/-! ### histories -/

/-- The registry after a history: the table has room for as many commands as there ever were at once. -/
def RegCap (limit : Nat → Nat) (r : Registry P C) (evs : List (CmdEvent P C)) : Prop :=
  ∃ t B A, r = .table t ∧ TabInv (cmdFns limit) t B A ∧ (∀ n, lookup (cmdFns limit) A n = latest evs n) ∧
    ∀ m, HadRoom limit evs m → Cap limit t m

theorem RegCap.init (limit : Nat → Nat) : RegCap limit (cmdInit limit : Registry P C) [] := by
  obtain ⟨t, h1, h2, _⟩ := TabInv.create (ν := CmdInfo P C) (cmdFns limit) (minsize := 32) (by omega)
  refine ⟨t, _, [], ?_, h2, fun n => rfl, ?_⟩
  · unfold cmdInit
    rw [h1]
  · intro m hm
    unfold hashCreate at h1
    rw [if_neg (by omega)] at h1
    cases h1
    refine ⟨rfl, rfl, Or.inl ?_⟩
    rcases hm with hm | ⟨h, hh, hm⟩
    · exact hm
    · obtain rfl := List.prefix_nil.1 hh
      exact Nat.le_trans hm (Nat.zero_le _)

theorem count_eq {limit : Nat → Nat} {t : HTab CStr (CmdInfo P C)} {B : Nat → List Nat}
    {A : List (CStr × CmdInfo P C)} {evs : List (CmdEvent P C)} (h : TabInv (cmdFns limit) t B A)
    (hl : ∀ n, lookup (cmdFns limit) A n = latest evs n) : A.length = (registered evs).length := by
  rw [← (RegInv.keys h hl).length_eq, List.length_map]

theorem RegCap.step {limit : Nat → Nat} (hg : Growing limit) {r : Registry P C} {evs : List (CmdEvent P C)} (h : RegCap limit r evs)
    {e : CmdEvent P C} (he : e.fits) : ∃ r', runEvent limit r e = .ok r' ∧ RegCap limit r' (evs ++ [e]) := by
  obtain ⟨t, B, A, rfl, h1, h2, h3⟩ := h
  have hf := cmdFns_lawful limit
  have hcount := count_eq h1 h2
  have hnow : Cap limit t A.length := by rw [hcount]; exact h3 _ (Or.inr ⟨evs, List.prefix_refl _, Nat.le_refl _⟩)
  -- it is enough to know the table afterwards
  have fin : ∀ t' B' A', TabInv (cmdFns limit) t' B' A' → (∀ n, lookup (cmdFns limit) A' n = latest (evs ++ [e]) n) →
      (∀ m, Cap limit t m → Cap limit t' m) → Cap limit t' A'.length → RegCap limit (.table t') (evs ++ [e]) := by
    intro t' B' A' k1 k2 k3 k4
    refine ⟨t', B', A', rfl, k1, k2, fun m hm => ?_⟩
    rcases hm with hm | ⟨h, hh, hm⟩
    · exact k3 _ (h3 m (Or.inl hm))
    rcases List.prefix_concat_iff.1 hh with rfl | hh
    · rw [← count_eq k1 k2] at hm
      exact k4.mono hm
    · exact k3 _ (h3 m (Or.inr ⟨h, hh, hm⟩))
  cases e with
  | unregister n =>
    obtain ⟨t', B', e1, e2, e3, -, -, -⟩ := Effect.remove h1 n
    refine ⟨.table t', ?_, fin t' B' _ e2 ?_ (fun m hm => hm.shape e3) ?_⟩
    · show cmdUnregister limit (.table t) n = _
      unfold cmdUnregister Registry.get
      show ((.ok t : M _) >>= _) = _
      rw [hbind_ok, e1, hbind_ok]
      rfl
    · intro m
      rw [lookup_filter, latest_snoc, h2]
      rfl
    · exact (hnow.mono (List.length_filter_le _ _)).shape e3
  | register n p d c =>
    obtain ⟨hn, hd⟩ := he
    have hrm : ∃ t1 B1, (if (lookup (cmdFns limit) A n).isSome then hashRemove (cmdFns limit) t n else pure t) = .ok t1 ∧
        TabInv (cmdFns limit) t1 B1 (A.filter (fun p => !(cmdFns limit).eqfn n p.1)) ∧ SameShape t t1 := by
      by_cases hs : (lookup (cmdFns limit) A n).isSome = true
      · rw [if_pos hs]
        obtain ⟨t', B', e1, e2, e3, -⟩ := Effect.remove h1 n
        exact ⟨t', B', e1, e2, e3⟩
      · rw [if_neg hs, filter_absent (by simpa using hs)]
        exact ⟨t, B, rfl, h1, ⟨rfl, rfl, rfl⟩⟩
    obtain ⟨t1, B1, e1, e2, e3⟩ := hrm
    obtain ⟨t2, B2, f1, f2, _⟩ := e2.insert hf (k := n)
      (v := { name := n, description := d, proc := p, ctx := c }) (by rw [lookup_filter, if_pos rfl])
    have hcap : ∀ m, Cap limit t m → Cap limit t2 m ∧ (Cap limit t1 t1.entrycount → Cap limit t2 (t1.entrycount + 1)) :=
      fun m hm => Cap.insert (f := cmdFns limit) hg (hm.shape e3) f1
    refine ⟨.table t2, ?_, fin t2 B2 _ f2 ?_ (fun m hm => (hcap m hm).1) ?_⟩
    · show cmdRegister limit (.table t) n p d c = _
      unfold cmdRegister Registry.get
      rw [if_neg (by simpa [ARG_CMD_NAME_LEN] using hn), if_neg (by simpa [ARG_CMD_DESCRIPTION_LEN] using hd)]
      show ((.ok t : M _) >>= _) = _
      rw [hbind_ok, h1.search hf, hbind_ok]
      have hswap : ∀ (b : Bool) (x y : M (HTab CStr (CmdInfo P C))) (g : HTab CStr (CmdInfo P C) → M (Registry P C)),
          (if b = true then x >>= g else y >>= g) = ((if b = true then x else y) >>= g) := by
        intro b x y g
        cases b <;> rfl
      refine (hswap _ _ (pure t) _).trans ?_
      rw [e1, hbind_ok]
      dsimp only
      rw [f1, hbind_ok]
      rfl
    · intro x
      rw [lookup_cons, lookup_filter, latest_snoc, h2]
      show (if n = x then _ else _) = if n = x then _ else _
      split <;> rfl
    · have := (hcap _ hnow).2 (by
        rw [e2.cnt]
        exact (hnow.mono (List.length_filter_le _ _)).shape e3)
      rw [e2.cnt] at this
      exact this

theorem RegCap.run {limit : Nat → Nat} (hg : Growing limit) : ∀ (es : List (CmdEvent P C)) (r : Registry P C)
    (evs : List (CmdEvent P C)), RegCap limit r evs → (∀ e ∈ es, e.fits) →
    ∃ r', runEvents limit r es = .ok r' ∧ RegCap limit r' (evs ++ es)
  | [], r, evs, h, _ => ⟨r, rfl, by simpa using h⟩
  | e :: es, r, evs, h, hfit => by
    obtain ⟨r1, e1, e2⟩ := h.step hg (hfit e (by simp))
    obtain ⟨r2, g1, g2⟩ := RegCap.run hg es r1 _ e2 (fun e' he' => hfit e' (by simp [he']))
    refine ⟨r2, ?_, by simpa using g2⟩
    rw [runEvents, e1, hbind_ok, g1]

/-! ### the walk -/

/-- One sighting: `a` is the entry that was seen. -/
structure Sighted (evs did : List (CmdEvent P C)) (t : HTab CStr (CmdInfo P C)) (a : Nat) (r : CStr × CmdInfo P C × Nat) : Prop where
  le : r.2.2 ≤ did.length
  true : latest (evs ++ did.take r.2.2) r.1 = some r.2.1
  key : ∀ n, t.mem a = some n → n.k = r.1

/-- The invariant of the walk: `vis` are the entries seen, `L0` those at the start, `f0` the first address not used then. -/
structure StrollInv (limit : Nat → Nat) (evs : List (CmdEvent P C)) (M : Nat) (L0 : List Nat) (f0 : Nat) (s : Stroll P C)
    (t : HTab CStr (CmdInfo P C)) (B : Nat → List Nat) (A : List (CStr × CmdInfo P C)) (vis : List Nat) : Prop where
  reg : s.reg = .table t
  tab : TabInv (cmdFns limit) t B A
  look : ∀ n, lookup (cmdFns limit) A n = latest (evs ++ s.did) n
  cnt : A.length ≤ M
  cap : Cap limit t M
  fresh : t.fresh = f0 + registrations s.did
  vnodup : vis.Nodup
  vold : ∀ b ∈ vis, b ∈ L0 ∨ f0 ≤ b ∧ b < t.fresh
  old : ∀ b n, t.mem b = some n → b ∈ L0 ∨ f0 ≤ b
  l0 : ∀ b ∈ L0, b < f0
  recs : List.Forall₂ (Sighted evs s.did t) vis s.seen
  pairs : (s.seen.map (·.1)).Nodup
  quiet : ∀ name, (latest evs name).isSome → (∀ e ∈ s.did, e.name ≠ name) → ∃ a n, a < f0 ∧ t.mem a = some n ∧ n.k = name
  ahead : if s.over then ∀ b n, t.mem b = some n → b ∈ vis ∨ f0 ≤ b
    else (∃ a rest, AtPos t.tablelength B s.it a rest ∧ a ∈ vis ∧ (∀ b ∈ rest, b ∉ vis) ∧
        (∀ b n, t.mem b = some n → b ∈ vis ∨ f0 ≤ b ∨ b ∈ rest) ∧
        ∀ b ∈ rest, ∀ n, t.mem b = some n → n.k ∉ s.seen.map (·.1)) ∧
      ∀ r ∈ s.seen, nameSlot t.tablelength r.1 ≤ s.it.index

theorem StrollInv.visLt {limit : Nat → Nat} {evs : List (CmdEvent P C)} {M f0 : Nat} {L0 : List Nat} {s : Stroll P C}
    {t : HTab CStr (CmdInfo P C)} {B : Nat → List Nat} {A : List (CStr × CmdInfo P C)} {vis : List Nat}
    (h : StrollInv limit evs M L0 f0 s t B A vis) : ∀ b ∈ vis, b < t.fresh := by
  intro b hb
  rcases h.vold b hb with hb | hb
  · have := h.l0 b hb
    have := h.fresh
    omega
  · exact hb.2

theorem Sighted.mem {evs did : List (CmdEvent P C)} {t : HTab CStr (CmdInfo P C)} : ∀ {vis : List Nat}
    {seen : List (CStr × CmdInfo P C × Nat)}, List.Forall₂ (Sighted evs did t) vis seen →
    (∀ a ∈ vis, ∃ r ∈ seen, Sighted evs did t a r) ∧ ∀ r ∈ seen, ∃ a ∈ vis, Sighted evs did t a r
  | _, _, .nil => ⟨fun _ h => (by cases h), fun _ h => (by cases h)⟩
  | _, _, .cons h hs => by
    obtain ⟨h1, h2⟩ := Sighted.mem hs
    constructor
    · intro a ha
      rcases List.mem_cons.1 ha with rfl | ha
      · exact ⟨_, List.mem_cons_self .., h⟩
      · obtain ⟨r, r1, r2⟩ := h1 a ha
        exact ⟨r, List.mem_cons_of_mem _ r1, r2⟩
    · intro r hr
      rcases List.mem_cons.1 hr with rfl | hr
      · exact ⟨_, List.mem_cons_self .., h⟩
      · obtain ⟨a, r1, r2⟩ := h2 r hr
        exact ⟨a, List.mem_cons_of_mem _ r1, r2⟩

/-- A change keeps the invariant. -/
theorem StrollInv.change {limit : Nat → Nat} {evs : List (CmdEvent P C)} {M f0 : Nat} {L0 : List Nat} {s : Stroll P C}
    {t t' : HTab CStr (CmdInfo P C)} {B B' : Nat → List Nat} {A A' : List (CStr × CmdInfo P C)} {vis : List Nat}
    (h : StrollInv limit evs M L0 f0 s t B A vis) {e : CmdEvent P C}
    (hhere : s.over = false → ∀ a n, s.it.e = some a → t.mem a = some n → n.k ≠ e.name)
    (h1 : TabInv (cmdFns limit) t' B' A') (h2 : ∀ n, lookup (cmdFns limit) A' n = latest (evs ++ s.did ++ [e]) n)
    (h3 : A'.length ≤ M) (h4 : Cap limit t' M) (h5 : t'.fresh = t.fresh + registrations [e]) (h6 : Effect t t' B B' e.name) :
    StrollInv limit evs M L0 f0 { s with reg := .table t', did := s.did ++ [e] } t' B' A' vis where
  reg := rfl
  tab := h1
  look n := by rw [h2, List.append_assoc]
  cnt := h3
  cap := h4
  fresh := by
    show t'.fresh = f0 + registrations (s.did ++ [e])
    rw [h5, h.fresh]
    unfold registrations
    rw [List.filter_append, List.length_append]
    omega
  vnodup := h.vnodup
  vold b hb := (h.vold b hb).imp id fun k => ⟨k.1, Nat.lt_of_lt_of_le k.2 h6.le⟩
  old b n hb := by
    rcases h6.back b n hb with ⟨m, k, _⟩ | k
    · exact h.old b m k
    · have := h.fresh
      exact Or.inr (by omega)
  l0 := h.l0
  recs := by
    have hlt := h.visLt
    have key : ∀ (vis : List Nat) (seen : List (CStr × CmdInfo P C × Nat)), (∀ b ∈ vis, b < t.fresh) →
        List.Forall₂ (Sighted evs s.did t) vis seen → List.Forall₂ (Sighted evs (s.did ++ [e]) t') vis seen := by
      intro vis seen hv hs
      induction hs with
      | nil => exact .nil
      | @cons a r vis seen hr hs ih =>
        refine .cons ?_ (ih fun b hb => hv b (List.mem_cons_of_mem _ hb))
        have hlt := hv a (List.mem_cons_self ..)
        refine ⟨by have := hr.le; simp; omega, ?_, ?_⟩
        · rw [List.take_append_of_le_length hr.le]
          exact hr.true
        · intro n hn
          rcases h6.back a n hn with ⟨m, k1, k2⟩ | k
          · exact k2.symm.trans (hr.key m k1)
          · omega
    exact key vis s.seen hlt h.recs
  pairs := h.pairs
  quiet name h0 hq := by
    obtain ⟨a, n, k1, k2, k3⟩ := h.quiet name h0 fun e' he' => hq e' (by simp [he'])
    obtain ⟨m, m1, m2⟩ := h6.fwd a n k2 (by rw [k3]; exact (hq e (by simp)).symm)
    exact ⟨a, m, k1, m1, m2.trans k3⟩
  ahead := by
    have ha := h.ahead
    show if s.over = true then _ else _
    cases ho : s.over with
    | true =>
      rw [ho] at ha
      rw [if_pos rfl] at ha ⊢
      intro b n hb
      rcases h6.back b n hb with ⟨m, k, _⟩ | k
      · exact ha b m k
      · have := h.fresh
        exact Or.inr (by omega)
    | false =>
      rw [ho] at ha
      rw [if_neg (by decide)] at ha ⊢
      obtain ⟨⟨a, rest, p1, p2, p3, p4, p5⟩, p6⟩ := ha
      obtain ⟨n, hn⟩ := p1.live h.tab a (List.mem_cons_self ..)
      obtain ⟨rest', q1, q2, q3⟩ := h6.pos _ a rest n p1 hn (hhere ho a n p1.e hn)
      refine ⟨⟨a, rest', by rw [h6.tl]; exact q1, p2, ?_, ?_, ?_⟩, fun r hr => by rw [h6.tl]; exact p6 r hr⟩
      · intro b hb hv
        rcases q2 b hb with k | ⟨k, _⟩
        · exact p3 b k hv
        · have := h.visLt b hv
          omega
      · intro b m hb
        rcases h6.back b m hb with ⟨m', k, _⟩ | k
        · rcases p4 b m' k with k1 | k1 | k1
          · exact Or.inl k1
          · exact Or.inr (Or.inl k1)
          · refine Or.inr (Or.inr (q3 b k1 ?_ ⟨m, hb⟩))
            by_contra hlt
            rw [h.tab.fresh b (by omega)] at k
            cases k
        · have := h.fresh
          exact Or.inr (Or.inl (by omega))
      · intro b hb m hm
        rcases q2 b hb with k | ⟨k, k2⟩
        · obtain ⟨n1, hn1⟩ := p1.live h.tab b (List.mem_cons_of_mem _ k)
          rcases h6.back b m hm with ⟨m', k1, k2⟩ | ⟨k1, _⟩
          · rw [← k2]
            exact p5 b k m' k1
          · rw [h.tab.fresh b k1] at hn1
            cases hn1
        · rcases h6.back b m hm with ⟨m', k1, _⟩ | ⟨_, k1⟩
          · rw [h.tab.fresh b k] at k1
            cases k1
          · intro hs
            obtain ⟨r, r1, r2⟩ := List.mem_map.1 hs
            have := p6 r r1
            rw [r2, k1] at this
            omega

/-- A sighting keeps the invariant. -/
theorem StrollInv.see {limit : Nat → Nat} {evs : List (CmdEvent P C)} {M f0 : Nat} {L0 : List Nat} {s : Stroll P C}
    {t : HTab CStr (CmdInfo P C)} {B : Nat → List Nat} {A : List (CStr × CmdInfo P C)} {vis : List Nat}
    (reg : s.reg = .table t) (tab : TabInv (cmdFns limit) t B A)
    (look : ∀ n, lookup (cmdFns limit) A n = latest (evs ++ s.did) n) (cnt : A.length ≤ M) (cap : Cap limit t M)
    (fresh : t.fresh = f0 + registrations s.did) (vnodup : vis.Nodup) (vold : ∀ b ∈ vis, b ∈ L0 ∨ f0 ≤ b ∧ b < t.fresh)
    (old : ∀ b n, t.mem b = some n → b ∈ L0 ∨ f0 ≤ b) (l0 : ∀ b ∈ L0, b < f0)
    (recs : List.Forall₂ (Sighted evs s.did t) vis s.seen) (pairs : (s.seen.map (·.1)).Nodup)
    (quiet : ∀ name, (latest evs name).isSome → (∀ e ∈ s.did, e.name ≠ name) → ∃ a n, a < f0 ∧ t.mem a = some n ∧ n.k = name)
    (hover : s.over = false) {a : Nat} {rest : List Nat} (hp : AtPos t.tablelength B s.it a rest) (hr : ∀ b ∈ a :: rest, b ∉ vis)
    (hall : ∀ b n, t.mem b = some n → b ∈ vis ∨ f0 ≤ b ∨ b ∈ a :: rest)
    (hkey : ∀ b ∈ a :: rest, ∀ n, t.mem b = some n → n.k ∉ s.seen.map (·.1))
    (hslot : ∀ r ∈ s.seen, nameSlot t.tablelength r.1 ≤ s.it.index) :
    ∃ s', s.look = .ok s' ∧ s'.reg = s.reg ∧ s'.did = s.did ∧ s'.over = false ∧ s'.seen.length = s.seen.length + 1 ∧
      StrollInv limit evs M L0 f0 s' t B A (vis ++ [a]) := by
  obtain ⟨n, hn⟩ := hp.live tab a (List.mem_cons_self ..)
  obtain ⟨l1, l2⟩ := hp.look hn
  have hlt : a < t.fresh := by
    by_contra hlt
    rw [tab.fresh a (by omega)] at hn
    cases hn
  refine ⟨{ s with seen := s.seen ++ [(n.k, n.v, s.did.length)] }, ?_, rfl, rfl, hover, by simp, ?_⟩
  · unfold Stroll.look
    rw [reg]
    show ((.ok t : Except Fault _) >>= _) = _
    rw [hbind_ok, l1, hbind_ok, l2, hbind_ok]
  · refine ⟨reg, tab, look, cnt, cap, fresh, ?_, ?_, old, l0, ?_, ?_, quiet, ?_⟩
    · refine List.nodup_append.2 ⟨vnodup, List.nodup_singleton _, ?_⟩
      rintro x hx y hy rfl
      cases List.mem_singleton.1 hy
      exact hr _ (List.mem_cons_self ..) hx
    · intro b hb
      rcases List.mem_append.1 hb with hb | hb
      · exact vold b hb
      · cases List.mem_singleton.1 hb
        exact (old a n hn).imp id fun k => ⟨k, hlt⟩
    · refine List.rel_append recs (.cons ⟨Nat.le_refl _, ?_, ?_⟩ .nil)
      · show latest (evs ++ s.did.take s.did.length) n.k = some n.v
        rw [List.take_length, ← look, ← lookup_mem tab, tab.memA]
        exact ⟨a, n, hn, rfl⟩
      · intro m hm
        rw [hn] at hm
        cases hm
        rfl
    · show ((s.seen ++ [(n.k, n.v, s.did.length)]).map (·.1)).Nodup
      rw [List.map_append]
      refine List.nodup_append.2 ⟨pairs, List.nodup_singleton _, ?_⟩
      rintro x hx y hy rfl
      cases List.mem_singleton.1 hy
      exact hkey a (List.mem_cons_self ..) n hn hx
    · show if s.over = true then _ else _
      rw [hover, if_neg (by decide)]
      refine ⟨⟨a, rest, hp, by simp, ?_, ?_, ?_⟩, ?_⟩
      · intro b hb hv
        rcases List.mem_append.1 hv with hv | hv
        · exact hr b (List.mem_cons_of_mem _ hb) hv
        · cases List.mem_singleton.1 hv
          exact (List.nodup_cons.1 (hp.nodup tab)).1 hb
      · intro b m hb
        rcases hall b m hb with k | k | k
        · exact Or.inl (List.mem_append_left _ k)
        · exact Or.inr (Or.inl k)
        · rcases List.mem_cons.1 k with rfl | k
          · exact Or.inl (by simp)
          · exact Or.inr (Or.inr k)
      · intro b hb m hm hs
        rw [List.map_append, List.mem_append] at hs
        rcases hs with hs | hs
        · exact hkey b (List.mem_cons_of_mem _ hb) m hm hs
        · have hk : m.k = n.k := by simpa using hs
          have : b = a := tab.inj b a m n hm hn (by rw [hk]; exact (cmdFns_lawful limit).refl _)
          subst this
          exact (List.nodup_cons.1 (hp.nodup tab)).1 hb
      · intro r hr'
        rcases List.mem_append.1 hr' with hr' | hr'
        · exact hslot r hr'
        · cases List.mem_singleton.1 hr'
          obtain ⟨pre, post, hB, -⟩ := hp.split
          exact Nat.le_of_eq (nameSlot_of_mem tab hp.lt (by rw [hB]; simp) hn)

/-- What a move does, with the invariant hidden. -/
def Strolls (limit : Nat → Nat) (evs : List (CmdEvent P C)) (M : Nat) (L0 : List Nat) (f0 : Nat) (s : Stroll P C) : Prop :=
  ∃ t B A vis, StrollInv limit evs M L0 f0 s t B A vis

theorem Strolls.move {limit : Nat → Nat} {evs : List (CmdEvent P C)} {m M f0 : Nat} (hmM : m ≤ M) {L0 : List Nat} {s : Stroll P C}
    (h : Strolls limit evs M L0 f0 s) {c : Turn P C} (hc : c.fits) :
    ∃ s', s.move limit m c = .ok s' ∧ Strolls limit evs M L0 f0 s' ∧ (s'.over ∨ s'.seen.length = s.seen.length + nextsIn [c]) ∧
      (s.over → s'.over) := by
  obtain ⟨t, B, A, vis, h⟩ := h
  cases c with
  | next =>
    unfold Stroll.move
    cases ho : s.over with
    | true => exact ⟨s, by rw [if_pos rfl], ⟨t, B, A, vis, h⟩, Or.inl ho, fun _ => ho⟩
    | false =>
      rw [if_neg (by decide), h.reg]
      have ha := h.ahead
      rw [ho, if_neg (by decide)] at ha
      obtain ⟨⟨a, rest, p1, p2, p3, p4, p5⟩, p6⟩ := ha
      obtain ⟨it', r, e1, ⟨rfl, rfl⟩ | ⟨rfl, e2, b, rest', rfl, e3⟩⟩ := p1.advance h.tab
      · refine ⟨{ s with it := it', over := true }, ?_, ⟨t, B, A, vis, ?_⟩, Or.inl rfl, fun _ => rfl⟩
        · show ((.ok t : Except Fault _) >>= _) = _
          rw [hbind_ok, e1, hbind_ok, ← h.reg]
          rfl
        · refine ⟨h.reg, h.tab, h.look, h.cnt, h.cap, h.fresh, h.vnodup, h.vold, h.old, h.l0, h.recs, h.pairs, h.quiet, ?_⟩
          show if true = true then _ else _
          rw [if_pos rfl]
          intro b n hb
          rcases p4 b n hb with k | k | k
          · exact Or.inl k
          · exact Or.inr k
          · cases k
      · obtain ⟨s', q1, q2, q3, q4, q5, q6⟩ := StrollInv.see (s := { s with it := it' }) (vis := vis) h.reg h.tab h.look h.cnt h.cap h.fresh
          h.vnodup h.vold h.old h.l0 h.recs h.pairs h.quiet ho e3 p3 p4 p5 (fun r hr => Nat.le_trans (p6 r hr) e2)
        refine ⟨s', ?_, ⟨t, B, A, _, q6⟩, Or.inr q5, fun hk => by cases hk⟩
        show ((.ok t : Except Fault _) >>= _) = _
        rw [hbind_ok, e1, hbind_ok, ← h.reg]
        rw [ho] at q1
        exact q1
  | change e =>
    unfold Stroll.move
    -- where the iterator stands
    have hk : ∃ k, s.here = .ok k ∧ (s.over = false → ∀ a n, s.it.e = some a → t.mem a = some n → k = some n.k) := by
      unfold Stroll.here
      cases ho : s.over with
      | true => exact ⟨none, by rw [if_pos rfl], fun h => by cases h⟩
      | false =>
        have ha := h.ahead
        rw [ho, if_neg (by decide)] at ha
        obtain ⟨⟨a, rest, p1, -⟩, -⟩ := ha
        obtain ⟨n, hn⟩ := p1.live h.tab a (List.mem_cons_self ..)
        refine ⟨some n.k, ?_, ?_⟩
        · rw [if_neg (by decide), h.reg]
          show ((.ok t : Except Fault _) >>= _) = _
          rw [hbind_ok, (p1.look hn).1, hbind_ok]
        · intro _ a' n' ha' hn'
          rw [p1.e] at ha'
          cases ha'
          rw [hn] at hn'
          cases hn'
          rfl
    obtain ⟨k, hk1, hk2⟩ := hk
    dsimp only
    rw [hk1, hbind_ok]
    by_cases hke : k = some e.name
    · exact ⟨s, by rw [if_pos hke], ⟨t, B, A, vis, h⟩, Or.inr rfl, id⟩
    rw [if_neg hke]
    have hi : cmdInfo limit s.reg e.name = .ok (latest (evs ++ s.did) e.name) := by
      unfold cmdInfo
      rw [h.reg]
      show ((.ok t : Except Fault _) >>= _) = _
      rw [hbind_ok, h.tab.search (cmdFns_lawful limit), h.look]
    have hn : cmdCount s.reg = .ok A.length := by
      unfold cmdCount
      rw [h.reg]
      show ((.ok t : Except Fault _) >>= _) = _
      rw [hbind_ok]
      unfold hashCount
      rw [h.tab.cnt]
      rfl
    rw [hi, hbind_ok, hn, hbind_ok]
    by_cases hg : e.info.isSome ∧ (latest (evs ++ s.did) e.name).isNone ∧ ¬ A.length < m
    · exact ⟨s, by rw [if_pos hg], ⟨t, B, A, vis, h⟩, Or.inr rfl, id⟩
    rw [if_neg hg]
    obtain ⟨t', B', A', g1, g2, g3, g4, g5, g6, g7, -⟩ := event_effect h.tab h.look h.cnt h.cap hc
      (fun hh => hg ⟨hh.1, hh.2.1, fun hl => hh.2.2 (Nat.lt_of_lt_of_le hl hmM)⟩)
    refine ⟨{ s with reg := .table t', did := s.did ++ [e] }, ?_, ⟨t', B', A', vis, ?_⟩, Or.inr rfl, id⟩
    · rw [h.reg, g1, hbind_ok]
    · refine h.change ?_ g2 g3 g4 g5 g6 g7
      intro ho a n ha hn' he
      exact hke (by rw [hk2 ho a n ha hn', he])

theorem Strolls.moves {limit : Nat → Nat} {evs : List (CmdEvent P C)} {m M f0 : Nat} (hmM : m ≤ M) {L0 : List Nat} :
    ∀ {cs : List (Turn P C)} {s : Stroll P C}, Strolls limit evs M L0 f0 s → (∀ c ∈ cs, c.fits) →
    ∃ s', s.moves limit m cs = .ok s' ∧ Strolls limit evs M L0 f0 s' ∧
      (s'.over ∨ s'.seen.length = s.seen.length + nextsIn cs) ∧ (s.over → s'.over)
  | [], s, h, _ => ⟨s, rfl, h, Or.inr rfl, id⟩
  | c :: cs, s, h, hc => by
    obtain ⟨s1, a1, a2, a3, a4⟩ := h.move hmM (hc c (by simp))
    obtain ⟨s2, b1, b2, b3, b4⟩ := Strolls.moves hmM a2 (cs := cs) fun c' h' => hc c' (by simp [h'])
    refine ⟨s2, ?_, b2, ?_, fun h => b4 (a4 h)⟩
    · rw [Stroll.moves, a1, hbind_ok, b1]
    · rcases a3 with a3 | a3
      · exact Or.inl (b4 a3)
      · rcases b3 with b3 | b3
        · exact Or.inl b3
        · refine Or.inr ?_
          rw [b3, a3]
          cases c <;> simp only [nextsIn] <;> omega

/-- The start. -/
theorem Strolls.begin {limit : Nat → Nat} {r : Registry P C} {evs : List (CmdEvent P C)} (hr : RegCap limit r evs) {m : Nat}
    (hm : HadRoom limit evs m) :
    ∃ s, Stroll.begin r = .ok s ∧ s.reg = r ∧ s.did = [] ∧ (s.over ∨ s.seen.length = 1) ∧
      ∃ L0 f0, L0.length = (registered evs).length ∧
        Strolls limit evs (max m (registered evs).length) L0 f0 s := by
  obtain ⟨t, B, A, rfl, h1, h2, h3⟩ := hr
  have hcount := count_eq h1 h2
  have hcap : Cap limit t (max m (registered evs).length) := by
    have c1 := h3 m hm
    have c2 := h3 _ (Or.inr ⟨evs, List.prefix_refl _, Nat.le_refl _⟩)
    refine ⟨c1.size, c1.load, ?_⟩
    rcases c1.room with k1 | k1
    · rcases c2.room with k2 | k2
      · exact Or.inl (by omega)
      · exact Or.inr k2
    · exact Or.inr k1
  have hn : cmdCount (.table t : Registry P C) = .ok A.length := by
    unfold cmdCount
    show ((.ok t : Except Fault _) >>= _) = _
    rw [hbind_ok]
    unfold hashCount
    rw [h1.cnt]
    rfl
  have hlen := h1.all_length (cmdFns_lawful limit)
  have hold : ∀ b n, t.mem b = some n → b ∈ allFrom B t.tablelength 0 := fun b n hb => h1.mem_all.2 ⟨n, hb⟩
  have hlt : ∀ b ∈ allFrom B t.tablelength 0, b < t.fresh := by
    intro b hb
    obtain ⟨n, hn⟩ := h1.mem_all.1 hb
    by_contra hcon
    rw [h1.fresh b (by omega)] at hn
    cases hn
  have hquiet : ∀ name, (latest evs name).isSome → (∀ e ∈ ([] : List (CmdEvent P C)), e.name ≠ name) →
      ∃ a n, a < t.fresh ∧ t.mem a = some n ∧ n.k = name := by
    intro name hs _
    rw [← h2, Option.isSome_iff_exists] at hs
    obtain ⟨i, hi⟩ := hs
    obtain ⟨a, n, k1, k2⟩ := (h1.memA _).1 ((lookup_mem h1 name i).2 hi)
    exact ⟨a, n, hlt a (hold a n k1), k1, (congrArg Prod.fst k2).symm⟩
  by_cases hA : A = []
  · subst hA
    obtain ⟨it, hit⟩ : ∃ it, itrCreate t = .ok it := by
      unfold itrCreate
      rw [h1.cnt]
      exact ⟨_, rfl⟩
    refine ⟨{ reg := .table t, it, seen := [], did := [], over := true }, ?_, rfl, rfl, Or.inl rfl, allFrom B t.tablelength 0, t.fresh,
      by rw [hlen, hcount], t, B, [], [], ?_⟩
    · unfold Stroll.begin
      rw [hn, hbind_ok]
      show ((.ok t : Except Fault _) >>= _) = _
      rw [hbind_ok, hit, hbind_ok]
      rfl
    · refine ⟨rfl, h1, by simpa using h2, by simp, hcap, rfl, List.nodup_nil, fun _ hb => (by cases hb), fun b n hb => Or.inl (hold b n hb), hlt,
        .nil, List.nodup_nil, hquiet, ?_⟩
      show if true = true then _ else _
      rw [if_pos rfl]
      intro b n hb
      have := (h1.memA (n.k, n.v)).2 ⟨b, n, hb, rfl⟩
      cases this
  · obtain ⟨it, a, rest, e1, e2, e3⟩ := AtPos.create h1 hA
    obtain ⟨s', q1, q2, q3, q4, q5, q6⟩ := StrollInv.see (limit := limit) (evs := evs)
      (M := max m (registered evs).length) (L0 := allFrom B t.tablelength 0) (f0 := t.fresh)
      (s := { reg := .table t, it, seen := [], did := [], over := false }) (vis := []) rfl h1 (by simpa using h2) (by omega) hcap rfl
      List.nodup_nil (fun _ hb => (by cases hb)) (fun b n hb => Or.inl (hold b n hb)) hlt .nil List.nodup_nil hquiet rfl e2
      (fun _ _ hb => (by cases hb)) (fun b n hb => Or.inr (Or.inr (by rw [← e3]; exact hold b n hb)))
      (fun _ _ _ _ hs => (by cases hs)) (fun _ hs => (by cases hs))
    refine ⟨s', ?_, q2, q3, Or.inr q5, allFrom B t.tablelength 0, t.fresh, by rw [hlen, hcount], t, B, A, _, q6⟩
    unfold Stroll.begin
    rw [hn, hbind_ok]
    show ((.ok t : Except Fault _) >>= _) = _
    rw [hbind_ok, e1, hbind_ok, if_neg (by simpa using hA)]
    exact q1

/-! ### the whole program -/

/-- How the program ends, with the invariant. -/
theorem stroll_ok {limit : Nat → Nat} (hg : Growing limit) {m : Nat} {evs : List (CmdEvent P C)} (hev : ∀ e ∈ evs, e.fits)
    (hm : HadRoom limit evs m) {cs : List (Turn P C)} (hcs : ∀ c ∈ cs, c.fits) :
    ∃ s L0 f0, stroll limit m evs cs = .ok s ∧ L0.length = (registered evs).length ∧
      Strolls limit evs (max m (registered evs).length) L0 f0 s ∧ (s.over ∨ s.seen.length = nextsIn cs + 1) := by
  obtain ⟨r, r1, r2⟩ := RegCap.run hg evs _ _ (RegCap.init limit) hev
  rw [List.nil_append] at r2
  obtain ⟨s, s1, -, -, s4, L0, f0, s5, s6⟩ := Strolls.begin r2 hm
  obtain ⟨s', t1, t2, t3, t4⟩ := s6.moves (Nat.le_max_left _ _) hcs
  refine ⟨s', L0, f0, ?_, s5, t2, ?_⟩
  · unfold stroll
    rw [r1, hbind_ok, s1, hbind_ok, t1]
  · rcases s4 with s4 | s4
    · exact Or.inl (t4 s4)
    · rcases t3 with t3 | t3
      · exact Or.inl t3
      · exact Or.inr (by omega)

theorem StrollInv.seen_le {limit : Nat → Nat} {evs : List (CmdEvent P C)} {M f0 : Nat} {L0 : List Nat} {s : Stroll P C}
    {t : HTab CStr (CmdInfo P C)} {B : Nat → List Nat} {A : List (CStr × CmdInfo P C)} {vis : List Nat}
    (h : StrollInv limit evs M L0 f0 s t B A vis) : s.seen.length ≤ L0.length + registrations s.did := by
  rw [← h.recs.length_eq]
  have hsub : vis.Subperm (L0 ++ List.range' f0 (registrations s.did)) := by
    refine List.subperm_of_subset h.vnodup fun b hb => ?_
    rw [List.mem_append, List.mem_range'_1]
    rcases h.vold b hb with k | k
    · exact Or.inl k
    · have := h.fresh
      exact Or.inr ⟨k.1, by omega⟩
  have := hsub.length_le
  rwa [List.length_append, List.length_range'] at this

theorem latest_quiet {evs : List (CmdEvent P C)} {name : CStr} : ∀ (did : List (CmdEvent P C)), (∀ e ∈ did, e.name ≠ name) →
    latest (evs ++ did) name = latest evs name := by
  intro did
  induction did using List.reverseRecOn with
  | nil => intro _; rw [List.append_nil]
  | append_singleton did e ih =>
    intro h
    rw [← List.append_assoc, latest_snoc, if_neg (h e (by simp)), ih fun e' h' => h e' (by simp [h'])]

/-- A name is seen at most once. -/
theorem about_le {name : CStr} {seen : List (CStr × CmdInfo P C × Nat)} (h : (seen.map (·.1)).Nodup) :
    (seen.filter fun r => r.1 = name).length ≤ 1 := by
  induction seen with
  | nil => simp
  | cons r seen ih =>
    rw [List.map_cons, List.nodup_cons] at h
    rw [List.filter_cons]
    split
    · rename_i hr
      rw [List.filter_eq_nil_iff.2]
      · simp
      · intro r' hr' he
        rw [decide_eq_true_eq] at hr he
        exact h.1 (List.mem_map.2 ⟨r', hr', he.trans hr.symm⟩)
    · exact ih h.2

theorem itr_dead {t : HTab CStr (CmdInfo P C)} {it : HItr} {a : Nat} (h1 : it.e = some a) (h2 : t.mem a = none) :
    (∃ w, itrKey t it = .error (.ub w)) ∧ (∃ w, itrValue t it = .error (.ub w)) ∧ ∃ w, itrAdvance t it = .error (.ub w) := by
  unfold itrKey itrValue itrNode itrAdvance
  rw [h1]
  dsimp only
  unfold loadNode
  rw [h2]
  exact ⟨⟨_, rfl⟩, ⟨_, rfl⟩, ⟨_, rfl⟩⟩

end

/-! ### the end of the walk -/

theorem itrAdvance_zero {κ ν : Type} {t : HTab κ ν} {it it' : HItr} (h : itrAdvance t it = .ok (it', 0)) : it'.e = none := by
  unfold itrAdvance at h
  split at h
  · rename_i he
    cases h
    exact he
  · obtain ⟨n, -, h⟩ := mbind_inv h
    split at h
    · cases h
    · dsimp only at h
      split at h
      · cases h; rfl
      · obtain ⟨x, -, h⟩ := mbind_inv h
        split at h
        · cases h; rfl
        · cases h

theorem stroll_look_over {s s' : Stroll P C} (h : s.look = .ok s') : s'.over = s.over ∧ s'.it = s.it := by
  unfold Stroll.look at h
  obtain ⟨_, -, h⟩ := mbind_inv h
  obtain ⟨_, -, h⟩ := mbind_inv h
  obtain ⟨_, -, h⟩ := mbind_inv h
  cases h
  exact ⟨rfl, rfl⟩

theorem stroll_move_over {limit : Nat → Nat} {m : Nat} {s s' : Stroll P C} {c : Turn P C} (hs : s.over = true → s.it.e = none)
    (h : s.move limit m c = .ok s') : s'.over = true → s'.it.e = none := by
  intro ho
  cases c with
  | next =>
    unfold Stroll.move at h
    dsimp only at h
    split at h
    · cases h; exact hs ho
    · rename_i hn
      obtain ⟨t, -, h⟩ := mbind_inv h
      obtain ⟨q, hq, h⟩ := mbind_inv h
      obtain ⟨it, r⟩ := q
      dsimp only at h
      split at h
      · rename_i h0
        subst h0
        cases h
        exact itrAdvance_zero hq
      · have := (stroll_look_over h).1
        rw [this] at ho
        exact absurd ho hn
  | change e =>
    unfold Stroll.move at h
    dsimp only at h
    obtain ⟨k, -, h⟩ := mbind_inv h
    split at h
    · cases h; exact hs ho
    · obtain ⟨i, -, h⟩ := mbind_inv h
      obtain ⟨n, -, h⟩ := mbind_inv h
      split at h
      · cases h; exact hs ho
      · obtain ⟨r, -, h⟩ := mbind_inv h
        cases h
        exact hs ho

theorem stroll_over {limit : Nat → Nat} {m : Nat} {evs : List (CmdEvent P C)} {cs : List (Turn P C)} {s : Stroll P C}
    (h : stroll limit m evs cs = .ok s) : s.over = true → s.it.e = none := by
  unfold stroll at h
  obtain ⟨r, -, h⟩ := mbind_inv h
  obtain ⟨s0, h0, h⟩ := mbind_inv h
  have hb : s0.over = true → s0.it.e = none := by
    unfold Stroll.begin at h0
    obtain ⟨n, hn, h0⟩ := mbind_inv h0
    obtain ⟨t, ht, h0⟩ := mbind_inv h0
    obtain ⟨it, hit, h0⟩ := mbind_inv h0
    split at h0
    · rename_i h00
      cases h0
      intro _
      unfold cmdCount at hn
      rw [ht] at hn
      have he : t.entrycount = 0 := by
        have := Except.ok.inj hn
        unfold hashCount at this
        omega
      unfold itrCreate at hit
      rw [if_pos he] at hit
      cases hit
      rfl
    · intro ho
      rw [(stroll_look_over h0).1] at ho
      cases ho
  have aux : ∀ (cs : List (Turn P C)) (s0 : Stroll P C), (s0.over = true → s0.it.e = none) → s0.moves limit m cs = .ok s →
      s.over = true → s.it.e = none := by
    intro cs
    induction cs with
    | nil => intro s0 hb h; cases h; exact hb
    | cons c cs ih =>
      intro s0 hb h
      unfold Stroll.moves at h
      obtain ⟨s1, h1, h⟩ := mbind_inv h
      exact ih s1 (stroll_move_over hb h1) h
  exact aux cs s0 hb h

end Argtable
