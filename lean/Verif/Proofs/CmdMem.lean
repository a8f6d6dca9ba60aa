import Verif.Spec.Pointers
import Verif.Proofs.Cmd
/-!
# The blocks of the command registry: proofs
-/

namespace Argtable

open Spec

variable {P C : Type}

theorem cmdMemFns_lawful (limit : Nat → Nat) : HashLawful (cmdMemFns limit) where
  refl := fun a => by simp [cmdMemFns, equalKeys]
  symm := fun a b h => by simp [cmdMemFns, equalKeys] at *; exact h.symm
  trans := fun a b c h h' => by simp [cmdMemFns, equalKeys] at *; exact h.trans h'
  hash := fun a b h => by simp [cmdMemFns, equalKeys] at h; simp [cmdMemFns, h]

theorem memEq (limit : Nat → Nat) (a b : Blk CStr) : (cmdMemFns limit).eqfn a b = true ↔ a.val = b.val := by
  simp [cmdMemFns, equalKeys]

theorem memEq_false (limit : Nat → Nat) (a b : Blk CStr) : (cmdMemFns limit).eqfn a b = false ↔ a.val ≠ b.val := by
  simp [cmdMemFns, equalKeys]

theorem memLookup_cons (limit : Nat → Nat) (A : List (Blk CStr × Blk (CmdInfo P C))) (k : Blk CStr) (m : CStr)
    (i : Blk (CmdInfo P C)) :
    lookup (cmdMemFns limit) ((k, i) :: A) ⟨0, m⟩ = if k.val = m then some i else lookup (cmdMemFns limit) A ⟨0, m⟩ := by
  unfold lookup
  rw [List.find?_cons]
  by_cases h : k.val = m
  · simp [cmdMemFns, equalKeys, h]
  · have : (cmdMemFns limit).eqfn ⟨0, m⟩ k = false := by
      rw [memEq_false]; exact fun h' => h h'.symm
    simp [this, h]

/-- The entries with another name. -/
def others (A : List (Blk CStr × Blk (CmdInfo P C))) (n : CStr) : List (Blk CStr × Blk (CmdInfo P C)) :=
  A.filter (fun p => p.1.val ≠ n)

theorem others_eq (limit : Nat → Nat) (A : List (Blk CStr × Blk (CmdInfo P C))) (n : CStr) :
    A.filter (fun p => !(cmdMemFns limit).eqfn ⟨0, n⟩ p.1) = others A n := by
  unfold others
  refine List.filter_congr ?_
  intro p _
  cases h : (cmdMemFns limit).eqfn ⟨0, n⟩ p.1 with
  | true =>
    have := (memEq limit _ _).mp h
    simp only [Bool.not_true]
    symm
    simpa using this.symm
  | false =>
    have := (memEq_false limit _ _).mp h
    simp only [Bool.not_false]
    symm
    simpa using fun h' => this h'.symm

theorem memLookup_others (limit : Nat → Nat) (A : List (Blk CStr × Blk (CmdInfo P C))) (n m : CStr) :
    lookup (cmdMemFns limit) (others A n) ⟨0, m⟩ = if n = m then none else lookup (cmdMemFns limit) A ⟨0, m⟩ := by
  induction A with
  | nil => simp [others, lookup]
  | cons p A ih =>
    obtain ⟨k, i⟩ := p
    unfold others at ih ⊢
    rw [List.filter_cons]
    by_cases hk : k.val = n
    · rw [if_neg (by simp [hk]), ih, memLookup_cons, hk]
      split <;> rfl
    · rw [if_pos (by simp [hk]), memLookup_cons, ih, memLookup_cons]
      by_cases hkm : k.val = m
      · subst hkm
        rw [if_pos rfl, if_neg (fun h => hk h.symm), if_pos rfl]
      · simp [hkm]

theorem memLookup_mem {limit : Nat → Nat} {t : CmdTab P C} {B : Nat → List Nat}
    {A : List (Blk CStr × Blk (CmdInfo P C))} (h : TabInv (cmdMemFns limit) t B A) (n : CStr)
    (i : Blk (CmdInfo P C)) :
    lookup (cmdMemFns limit) A ⟨0, n⟩ = some i ↔ ∃ k, (k, i) ∈ A ∧ k.val = n := by
  constructor
  · intro hl
    unfold lookup at hl
    rw [Option.map_eq_some_iff] at hl
    obtain ⟨q, hq, rfl⟩ := hl
    have h0 := List.find?_some hq
    have h1 := (memEq limit _ _).mp h0
    have h2 := List.mem_of_find?_eq_some hq
    exact ⟨q.1, h2, h1.symm⟩
  · rintro ⟨k, hm, rfl⟩
    obtain ⟨a, nd, ha, he⟩ := (h.memA _).mp hm
    obtain ⟨rfl, rfl⟩ := Prod.mk.inj he
    unfold lookup
    rw [lookup_some (k := ⟨0, nd.k.val⟩) (cmdMemFns_lawful limit) h ha ((memEq limit _ _).mpr rfl)]
    rfl

/-- The addresses of the blocks behind the entries. -/
def addrs (A : List (Blk CStr × Blk (CmdInfo P C))) : List Nat := (blocks A).map addrOf

theorem mem_addrs {A : List (Blk CStr × Blk (CmdInfo P C))} {a : Nat} :
    a ∈ addrs A ↔ ∃ e ∈ A, a = e.1.addr ∨ a = e.2.addr := by
  unfold addrs blocks
  simp only [List.mem_map, List.mem_flatMap, List.mem_cons, List.not_mem_nil, or_false]
  constructor
  · rintro ⟨x, ⟨e, he, rfl | rfl⟩, rfl⟩
    · exact ⟨e, he, Or.inl rfl⟩
    · exact ⟨e, he, Or.inr rfl⟩
  · rintro ⟨e, he, rfl | rfl⟩
    · exact ⟨.inl e.1, ⟨e, he, Or.inl rfl⟩, rfl⟩
    · exact ⟨.inr e.2, ⟨e, he, Or.inr rfl⟩, rfl⟩

theorem length_addrs (A : List (Blk CStr × Blk (CmdInfo P C))) : (addrs A).length = 2 * A.length := by
  unfold addrs blocks
  rw [List.length_map]
  induction A with
  | nil => rfl
  | cons e A ih => rw [List.flatMap_cons, List.length_append, ih]; simp; omega

/-- The registry after a history.  `L` are the blocks that have been lost (by calls that ran out of memory). -/
structure RegAt (limit : Nat → Nat) (s : RegMem P C) (evs : List (CmdEvent P C)) (t : CmdTab P C)
    (A : List (Blk CStr × Blk (CmdInfo P C))) (L : List Nat) : Prop where
  tab : s.tab = some t
  inv : ∃ B, TabInv (cmdMemFns limit) t B A
  past : s.past = []
  ledger : (t.freed.map addrOf ++ (addrs A ++ L)).Perm (List.range s.next)
  latest : ∀ n, (lookup (cmdMemFns limit) A ⟨0, n⟩).map Blk.val = latest evs n
  names : ∀ e ∈ A, e.2.val.name = e.1.val

theorem RegAt.released {limit : Nat → Nat} {s : RegMem P C} {evs : List (CmdEvent P C)} {t : CmdTab P C}
    {A : List (Blk CStr × Blk (CmdInfo P C))} (h : RegAt limit s evs t A L) :
    s.released = t.freed.map addrOf := by
  unfold RegMem.released
  rw [h.tab, h.past]
  rfl

theorem RegAt.get {limit : Nat → Nat} {s : RegMem P C} {evs : List (CmdEvent P C)} {t : CmdTab P C}
    {A : List (Blk CStr × Blk (CmdInfo P C))} (h : RegAt limit s evs t A L) : s.get = .ok t := by
  unfold RegMem.get
  rw [h.tab]

theorem RegAt.nodup {limit : Nat → Nat} {s : RegMem P C} {evs : List (CmdEvent P C)} {t : CmdTab P C}
    {A : List (Blk CStr × Blk (CmdInfo P C))} (h : RegAt limit s evs t A L) :
    (t.freed.map addrOf ++ (addrs A ++ L)).Nodup := h.ledger.nodup_iff.mpr List.nodup_range

theorem RegAt.alive {limit : Nat → Nat} {s : RegMem P C} {evs : List (CmdEvent P C)} {t : CmdTab P C}
    {A : List (Blk CStr × Blk (CmdInfo P C))} (h : RegAt limit s evs t A L) {a : Nat} (ha : a ∈ addrs A) :
    a ∉ s.released := by
  rw [h.released]
  intro hr
  exact (List.disjoint_of_nodup_append h.nodup) hr (List.mem_append_left _ ha)

theorem RegAt.info {limit : Nat → Nat} {s : RegMem P C} {evs : List (CmdEvent P C)} {t : CmdTab P C}
    {A : List (Blk CStr × Blk (CmdInfo P C))} (h : RegAt limit s evs t A L) (n : CStr) :
    memInfo limit (own n) s = .ok (lookup (cmdMemFns limit) A ⟨0, n⟩) := by
  obtain ⟨B, hB⟩ := h.inv
  unfold memInfo
  show ((.ok n : M CStr) >>= _) = _
  rw [hbind_ok, h.get, hbind_ok, hB.search (cmdMemFns_lawful limit)]

theorem RegAt.infoOf {limit : Nat → Nat} {s : RegMem P C} {evs : List (CmdEvent P C)} {t : CmdTab P C}
    {A : List (Blk CStr × Blk (CmdInfo P C))} (h : RegAt limit s evs t A L) (n : CStr) (b : Blk (CmdInfo P C)) :
    InfoOf limit s n b ↔ ∃ k, (k, b) ∈ A ∧ k.val = n := by
  obtain ⟨B, hB⟩ := h.inv
  unfold InfoOf
  rw [h.info]
  rw [← memLookup_mem hB]
  constructor
  · intro hh; exact Except.ok.inj hh
  · intro hh; rw [hh]

theorem RegAt.keyOf {limit : Nat → Nat} {s : RegMem P C} {evs : List (CmdEvent P C)} {t : CmdTab P C}
    {A : List (Blk CStr × Blk (CmdInfo P C))} (h : RegAt limit s evs t A L) (n : CStr) (b : Blk CStr) :
    KeyOf limit s n b ↔ ∃ i, (b, i) ∈ A ∧ b.val = n := by
  obtain ⟨B, hB⟩ := h.inv
  have hf := cmdMemFns_lawful limit
  have hs : ∀ it, cmdItrSearch limit s it (own n) = itrSearch (cmdMemFns limit) t it ⟨0, n⟩ := by
    intro it
    unfold cmdItrSearch
    show ((.ok n : M CStr) >>= _) = _
    rw [hbind_ok, h.get, hbind_ok]
  have hk : ∀ it, cmdItrKey s it = itrKey t it := by
    intro it
    unfold cmdItrKey
    rw [h.get, hbind_ok]
  unfold KeyOf
  constructor
  · rintro ⟨it, it', h1, h2⟩
    rw [hs] at h1
    rw [hk] at h2
    rcases hB.itrSearch hf it ⟨0, n⟩ with ⟨_, g⟩ | ⟨a, nd, it2, rest, g1, g2, g3, g4, g5⟩
    · rw [h1] at g
      have := (Prod.mk.inj (Except.ok.inj g)).2
      omega
    · rw [h1] at g1
      obtain ⟨rfl, _⟩ := Prod.mk.inj (Except.ok.inj g1)
      obtain ⟨nd', k1, k2, _⟩ := hB.current g5
      rw [g2] at k1
      cases k1
      rw [h2] at k2
      obtain rfl := Except.ok.inj k2
      exact ⟨nd.v, (hB.memA _).mpr ⟨a, nd, g2, rfl⟩, ((memEq limit _ _).mp g3).symm⟩
  · rintro ⟨i, hm, hn⟩
    let it : HItr := ⟨none, none, 0⟩
    rcases hB.itrSearch hf it ⟨0, n⟩ with ⟨g, _⟩ | ⟨a, nd, it2, rest, g1, g2, g3, g4, g5⟩
    · exact absurd ((memEq limit ⟨0, n⟩ b).mpr hn.symm) (by rw [lookup_none g _ hm]; simp)
    · refine ⟨it, it2, by rw [hs]; exact g1, ?_⟩
      obtain ⟨nd', k1, k2, _⟩ := hB.current g5
      rw [g2] at k1
      cases k1
      rw [hk, k2]
      obtain ⟨a', nd2, q1, q2⟩ := (hB.memA _).mp hm
      obtain ⟨rfl, rfl⟩ := Prod.mk.inj q2
      have : a' = a := hB.inj a' a _ _ q1 g2
        ((memEq limit _ _).mpr (hn.trans ((memEq limit _ _).mp g3)))
      subst this
      rw [g2] at q1
      cases q1
      rfl

theorem RegAt.pointsInto {limit : Nat → Nat} {s : RegMem P C} {evs : List (CmdEvent P C)} {t : CmdTab P C}
    {A : List (Blk CStr × Blk (CmdInfo P C))} (h : RegAt limit s evs t A L) (n : CStr) (p : StrPtr) :
    PointsInto limit s n p ↔ ∃ e ∈ A, e.1.val = n ∧ (p.home = some e.1.addr ∨ p.home = some e.2.addr) := by
  unfold PointsInto
  constructor
  · rintro (⟨b, h1, h2⟩ | ⟨b, h1, h2⟩)
    · obtain ⟨k, h3, h4⟩ := (h.infoOf n b).mp h1
      exact ⟨_, h3, h4, Or.inr h2⟩
    · obtain ⟨i, h3, h4⟩ := (h.keyOf n b).mp h1
      exact ⟨_, h3, h4, Or.inl h2⟩
  · rintro ⟨⟨k, i⟩, h1, h2, h3 | h3⟩
    · exact Or.inr ⟨k, (h.keyOf n k).mpr ⟨i, h1, h2⟩, h3⟩
    · exact Or.inl ⟨i, (h.infoOf n i).mpr ⟨k, h1, h2⟩, h3⟩

theorem RegAt.good {limit : Nat → Nat} {s : RegMem P C} {evs : List (CmdEvent P C)} {t : CmdTab P C}
    {A : List (Blk CStr × Blk (CmdInfo P C))} (h : RegAt limit s evs t A L) {p : StrPtr} (hp : Good limit s p) :
    p.home = none ∨ ∃ a ∈ addrs A, p.home = some a := by
  rcases hp with h1 | ⟨n, b, h1, h2, _⟩ | ⟨n, b, h1, h2, _⟩
  · exact Or.inl h1
  · obtain ⟨k, h3, _⟩ := (h.infoOf n b).mp h1
    exact Or.inr ⟨b.addr, mem_addrs.mpr ⟨_, h3, Or.inr rfl⟩, h2⟩
  · obtain ⟨k, h3, _⟩ := (h.keyOf n b).mp h1
    exact Or.inr ⟨b.addr, mem_addrs.mpr ⟨_, h3, Or.inl rfl⟩, h2⟩

theorem readPtr_eq {s : RegMem P C} {p : StrPtr} :
    readPtr s p = if (∃ a ∈ s.released, p.home = some a) then .error (.ub "read from a freed block") else .ok p.text := by
  unfold readPtr
  cases h : p.home with
  | none => simp
  | some a => simp

theorem RegAt.read {limit : Nat → Nat} {s : RegMem P C} {evs : List (CmdEvent P C)} {t : CmdTab P C}
    {A : List (Blk CStr × Blk (CmdInfo P C))} (h : RegAt limit s evs t A L) {p : StrPtr} (hp : Good limit s p) :
    readPtr s p = .ok p.text := by
  rw [readPtr_eq, if_neg]
  rintro ⟨a, h1, h2⟩
  rcases h.good hp with h3 | ⟨b, h3, h4⟩
  · rw [h3] at h2; cases h2
  · rw [h4] at h2
    cases h2
    exact h.alive h3 h1

theorem RegAt.unregister {limit : Nat → Nat} {s : RegMem P C} {evs : List (CmdEvent P C)} {t : CmdTab P C}
    {A : List (Blk CStr × Blk (CmdInfo P C))} (h : RegAt limit s evs t A L) (n : CStr) :
    ∃ t', hashRemove (cmdMemFns limit) t ⟨0, n⟩ = .ok t' ∧
      RegAt limit { s with tab := some t' } (evs ++ [.unregister n]) t' (others A n) L := by
  obtain ⟨B, hB⟩ := h.inv
  obtain ⟨t', B', fr, e1, e2, e3, e4⟩ := hB.remove (cmdMemFns_lawful limit) ⟨0, n⟩
  rw [others_eq] at e2 e4
  refine ⟨t', e1, { tab := rfl, inv := ⟨B', e2⟩, past := h.past, ledger := ?_, latest := ?_, names := ?_ }⟩
  · rw [e3, List.map_append, List.append_assoc]
    refine List.Perm.trans ?_ h.ledger
    refine List.Perm.append_left _ ?_
    rw [← List.append_assoc]
    refine List.Perm.append_right _ ?_
    unfold addrs
    rw [← List.map_append]
    exact (e4.map _).symm
  · intro m
    rw [memLookup_others, latest_snoc]
    show _ = if n = m then none else _
    split
    · rfl
    · exact h.latest m
  · intro e he
    exact h.names e (List.mem_filter.mp he).1

/-- What removing the entry of a command frees: exactly the blocks of that entry. -/
theorem RegAt.gone {limit : Nat → Nat} {s s' : RegMem P C} {evs evs' : List (CmdEvent P C)} {t t' : CmdTab P C}
    {A : List (Blk CStr × Blk (CmdInfo P C))} {n : CStr} (h : RegAt limit s evs t A L)
    (h' : RegAt limit s' evs' t' (others A n) L) (hn : s'.next = s.next) {a : Nat} (ha : a ∈ addrs A) :
    a ∈ s'.released ↔ ∃ e ∈ A, e.1.val = n ∧ (a = e.1.addr ∨ a = e.2.addr) := by
  have hnd0 := h.nodup.of_append_right
  have hnd : (addrs A).Nodup := hnd0.of_append_left
  have hL : a ∉ L := fun hx => List.disjoint_of_nodup_append hnd0 ha hx
  have hiff : a ∈ s'.released ↔ a ∉ addrs (others A n) := by
    constructor
    · intro hr hx
      exact h'.alive hx hr
    · intro hx
      have : a ∈ List.range s'.next := by
        rw [hn]
        exact h.ledger.mem_iff.mp (List.mem_append_right _ (List.mem_append_left _ ha))
      have := h'.ledger.mem_iff.mpr this
      rw [List.mem_append, List.mem_append] at this
      rw [h'.released]
      exact this.resolve_right (fun hy => hy.elim hx hL)
  rw [hiff]
  have hsplit : (addrs A).Perm (addrs (A.filter (fun p => p.1.val = n)) ++ addrs (others A n)) := by
    unfold addrs
    rw [← List.map_append]
    refine List.Perm.map _ ?_
    unfold blocks
    rw [← List.flatMap_append]
    refine List.Perm.flatMap_right _ ?_
    have := (List.filter_append_perm (fun p : Blk CStr × Blk (CmdInfo P C) => decide (p.1.val = n)) A).symm
    refine this.trans ?_
    unfold others
    refine List.Perm.append_left _ ?_
    refine List.Perm.of_eq (List.filter_congr ?_)
    intro p _
    simp
  have hnd2 := hsplit.nodup_iff.mp hnd
  constructor
  · intro hx
    have := hsplit.mem_iff.mp ha
    rw [List.mem_append] at this
    obtain ⟨e, he, hae⟩ := mem_addrs.mp (this.resolve_right hx)
    rw [List.mem_filter] at he
    exact ⟨e, he.1, by simpa using he.2, hae⟩
  · rintro ⟨e, he, hen, hae⟩ hx
    refine List.disjoint_of_nodup_append hnd2 ?_ hx
    exact mem_addrs.mpr ⟨e, List.mem_filter.mpr ⟨he, by simpa using hen⟩, hae⟩

/-- The registration itself, once the strings can still be read. -/
theorem RegAt.insert {limit : Nat → Nat} {s : RegMem P C} {evs : List (CmdEvent P C)} {t : CmdTab P C}
    {A : List (Blk CStr × Blk (CmdInfo P C))} (h : RegAt limit s evs t A L) {n d : CStr}
    (hn : lookup (cmdMemFns limit) A ⟨0, n⟩ = none) (p : Option P) (c : C) :
    ∃ t', hashInsert (cmdMemFns limit) t ⟨s.next + 1, n⟩
        ⟨s.next, { name := n, description := d, proc := p, ctx := c }⟩ = .ok t' ∧
      RegAt limit { s with tab := some t', next := s.next + 2 } (evs ++ [.register n p d c]) t'
        ((⟨s.next + 1, n⟩, ⟨s.next, { name := n, description := d, proc := p, ctx := c }⟩) :: A) L := by
  obtain ⟨B, hB⟩ := h.inv
  obtain ⟨t', B', e1, e2, e3⟩ := hB.insert (cmdMemFns_lawful limit) (k := ⟨s.next + 1, n⟩)
    (v := ⟨s.next, { name := n, description := d, proc := p, ctx := c }⟩) (by
      rw [← hn]
      rfl)
  refine ⟨t', e1, { tab := rfl, inv := ⟨B', e2⟩, past := h.past, ledger := ?_, latest := ?_, names := ?_ }⟩
  · rw [e3]
    show (t.freed.map addrOf ++ ((s.next + 1) :: s.next :: (addrs A ++ L))).Perm (List.range (s.next + 2))
    rw [List.range_succ, List.range_succ, List.append_assoc]
    refine List.Perm.trans ?_ (h.ledger.append_right _)
    rw [List.append_assoc]
    refine List.Perm.append_left _ ?_
    refine (List.Perm.swap _ _ _).trans ?_
    exact (List.perm_append_comm (l₁ := [s.next, s.next + 1]) (l₂ := addrs A ++ L))
  · intro m
    rw [memLookup_cons, latest_snoc]
    show _ = if n = m then _ else _
    dsimp only
    split
    · rfl
    · exact h.latest m
  · intro e he
    rcases List.mem_cons.mp he with rfl | he
    · rfl
    · exact h.names e he

theorem RegAt.init (limit : Nat → Nat) : ∃ t, RegAt limit (memInit limit : RegMem P C) [] t [] [] := by
  obtain ⟨t, h1, h2, h3⟩ := TabInv.create (ν := Blk (CmdInfo P C)) (cmdMemFns limit) (minsize := 32) (by omega)
  refine ⟨t, { tab := h1, inv := ⟨_, h2⟩, past := rfl, ledger := ?_, latest := fun n => rfl, names := ?_ }⟩
  · rw [h3]
    exact List.Perm.refl _
  · intro e he; cases he

/-- The removal in `arg_cmd_register`. -/
theorem RegAt.removed {limit : Nat → Nat} {s : RegMem P C} {evs : List (CmdEvent P C)} {t t1 : CmdTab P C}
    {A : List (Blk CStr × Blk (CmdInfo P C))} (h : RegAt limit s evs t A L) {n : CStr}
    (e1 : hashRemove (cmdMemFns limit) t ⟨0, n⟩ = .ok t1) :
    (if (lookup (cmdMemFns limit) A ⟨0, n⟩).isSome then hashRemove (cmdMemFns limit) t ⟨0, n⟩
      else (.ok t : M (CmdTab P C))) = .ok t1 := by
  obtain ⟨B, hB⟩ := h.inv
  have hf := cmdMemFns_lawful limit
  by_cases hs : (lookup (cmdMemFns limit) A ⟨0, n⟩).isSome = true
  · rw [if_pos hs, e1]
  · rw [if_neg hs]
    obtain ⟨i, hi, ⟨q1, q2⟩ | ⟨pre, a, post, nd, q1, q2, q3, q4⟩⟩ := hB.find hf ⟨0, n⟩
    · unfold hashRemove at e1
      rw [q1, hbind_ok] at e1
      exact e1
    · exfalso
      apply hs
      unfold lookup
      rw [lookup_some hf hB q2 q3]
      rfl

/-- Reading the strings again, after the removal. -/
theorem RegAt.reread {limit : Nat → Nat} {s : RegMem P C} {evs evs' : List (CmdEvent P C)} {t t1 : CmdTab P C}
    {A : List (Blk CStr × Blk (CmdInfo P C))} (h : RegAt limit s evs t A L) {n : CStr}
    (g1 : RegAt limit { s with tab := some t1 } evs' t1 (others A n) L) {q : StrPtr} (hq : Good limit s q) :
    (PointsInto limit s n q → readPtr { s with tab := some t1 } q = .error (.ub "read from a freed block")) ∧
    (¬ PointsInto limit s n q → readPtr { s with tab := some t1 } q = .ok q.text) := by
  rw [readPtr_eq]
  have hiff : (∃ a ∈ RegMem.released { s with tab := some t1 }, q.home = some a) ↔ PointsInto limit s n q := by
    rw [h.pointsInto]
    constructor
    · rintro ⟨a, ha, hq'⟩
      rcases h.good hq with h0 | ⟨b, hb, hb'⟩
      · rw [h0] at hq'; cases hq'
      · rw [hq'] at hb'
        cases hb'
        obtain ⟨e, he, hen, hae⟩ := (h.gone g1 rfl hb).mp ha
        refine ⟨e, he, hen, ?_⟩
        rcases hae with rfl | rfl
        · exact Or.inl hq'
        · exact Or.inr hq'
    · rintro ⟨e, he, hen, hq' | hq'⟩
      · exact ⟨_, (h.gone g1 rfl (mem_addrs.mpr ⟨e, he, Or.inl rfl⟩)).mpr ⟨e, he, hen, Or.inl rfl⟩, hq'⟩
      · exact ⟨_, (h.gone g1 rfl (mem_addrs.mpr ⟨e, he, Or.inr rfl⟩)).mpr ⟨e, he, hen, Or.inr rfl⟩, hq'⟩
  exact ⟨fun hx => if_pos (hiff.mpr hx), fun hx => if_neg (fun hy => hx (hiff.mp hy))⟩

/-- What `arg_cmd_register` does, with good pointers and strings that fit. -/
theorem RegAt.register {limit : Nat → Nat} {s : RegMem P C} {evs : List (CmdEvent P C)} {t : CmdTab P C}
    {A : List (Blk CStr × Blk (CmdInfo P C))} (h : RegAt limit s evs t A L) {n d : StrPtr}
    (hn : Good limit s n) (hd : Good limit s d) (h1 : n.text.length < 100) (h2 : d.text.length < 256)
    (p : Option P) (c : C) :
    (¬ PointsInto limit s n.text n → ¬ PointsInto limit s n.text d →
      ∃ s' t', memRegister limit n p d c s = .ok s' ∧ s'.next = s.next + 2 ∧
        RegAt limit s' (evs ++ [.register n.text p d.text c]) t'
          ((⟨s.next + 1, n.text⟩, ⟨s.next, { name := n.text, description := d.text, proc := p, ctx := c }⟩) ::
            others A n.text) L) ∧
    (PointsInto limit s n.text n ∨ PointsInto limit s n.text d →
      memRegister limit n p d c s = .error (.ub "read from a freed block")) := by
  obtain ⟨B, hB⟩ := h.inv
  have hf := cmdMemFns_lawful limit
  obtain ⟨t1, e1, g1⟩ := h.unregister n.text
  -- the state in which the strings are read again
  have hrm := h.removed e1
  have hbase : memRegister limit n p d c s = (do
      let n' ← readPtr { s with tab := some t1 } n
      let d' ← readPtr { s with tab := some t1 } d
      let k ← readPtr { s with tab := some t1 } n
      let t ← hashInsert (cmdMemFns limit) t1 ⟨s.next + 1, k⟩
        ⟨s.next, { name := n', description := d', proc := p, ctx := c }⟩
      .ok { s with tab := some t, next := s.next + 2 }) := by
    unfold memRegister
    rw [h.read hn, hbind_ok, if_neg (by simpa [ARG_CMD_NAME_LEN] using h1), h.read hd, hbind_ok,
      if_neg (by simpa [ARG_CMD_DESCRIPTION_LEN] using h2), h.get, hbind_ok, hB.search hf, hbind_ok]
    have hswap : ∀ {α : Type} (b : Bool) (x y : M (CmdTab P C)) (g : CmdTab P C → M α),
        (if b = true then x >>= g else y >>= g) = ((if b = true then x else y) >>= g) := by
      intro α b x y g
      cases b <;> rfl
    refine (hswap _ _ (.ok t) _).trans ?_
    rw [hrm, hbind_ok]
  have hread : ∀ q : StrPtr, Good limit s q →
      (PointsInto limit s n.text q → readPtr { s with tab := some t1 } q = .error (.ub "read from a freed block")) ∧
      (¬ PointsInto limit s n.text q → readPtr { s with tab := some t1 } q = .ok q.text) := fun q hq => h.reread g1 hq
  constructor
  · intro hp1 hp2
    rw [hbase, (hread n hn).2 hp1, (hread d hd).2 hp2, hbind_ok, hbind_ok, hbind_ok]
    obtain ⟨t2, e2, g2⟩ := g1.insert (n := n.text) (d := d.text)
      (by rw [memLookup_others, if_pos rfl]) p c
    refine ⟨_, t2, by rw [e2]; rfl, rfl, ?_⟩
    refine ⟨rfl, g2.inv, g2.past, g2.ledger, ?_, g2.names⟩
    intro m
    rw [g2.latest m, latest_snoc, latest_snoc, latest_snoc]
    show (if n.text = m then _ else if n.text = m then _ else _) = if n.text = m then _ else _
    split <;> rfl
  · intro hp
    rw [hbase]
    by_cases hp1 : PointsInto limit s n.text n
    · rw [(hread n hn).1 hp1]
      rfl
    · rw [(hread n hn).2 hp1, hbind_ok, (hread d hd).1 (hp.resolve_left hp1)]
      rfl

end Argtable

namespace Argtable

open Spec

variable {P C : Type}

theorem PtrEvent.plain_name (e : PtrEvent P C) :
    e.plain.name = match e with
      | .register n _ _ _ => n.text
      | .unregister n => n.text := by cases e <;> rfl

/-- One call. -/
theorem RegAt.step {limit : Nat → Nat} {s : RegMem P C} {evs : List (CmdEvent P C)} {t : CmdTab P C}
    {A : List (Blk CStr × Blk (CmdInfo P C))} (h : RegAt limit s evs t A L) {e : PtrEvent P C}
    (he : Allowed limit s e) :
    ∃ s' t' A', runPtr limit s e = .ok s' ∧ RegAt limit s' (evs ++ [e.plain]) t' A' L ∧
      (∀ x ∈ A, x.1.val ≠ e.plain.name → x ∈ A') ∧
      (∀ a ∈ s.released, a ∈ s'.released) ∧
      ∀ x ∈ A, x.1.val = e.plain.name → x.1.addr ∈ s'.released ∧ x.2.addr ∈ s'.released := by
  have hout : ∀ {s' : RegMem P C} {t' : CmdTab P C} {A' : List (Blk CStr × Blk (CmdInfo P C))} {evs'},
      RegAt limit s' evs' t' A' L → s.next ≤ s'.next → ∀ a, a < s.next → a ∉ addrs A' → a ∉ L → a ∈ s'.released := by
    intro s' t' A' evs' h' hle a ha hna hnl
    have : a ∈ List.range s'.next := List.mem_range.mpr (by omega)
    have := h'.ledger.mem_iff.mpr this
    rw [List.mem_append, List.mem_append] at this
    rw [h'.released]
    exact this.resolve_right (fun hy => hy.elim hna hnl)
  have hlost : ∀ a ∈ s.released, a ∉ L := by
    intro a ha hx
    rw [h.released] at ha
    exact List.disjoint_of_nodup_append h.nodup ha (List.mem_append_right _ hx)
  have hlost2 : ∀ a ∈ addrs A, a ∉ L := fun a ha hx => List.disjoint_of_nodup_append h.nodup.of_append_right ha hx
  have hold : ∀ a ∈ s.released, a < s.next := by
    intro a ha
    rw [h.released] at ha
    exact List.mem_range.mp (h.ledger.mem_iff.mp (List.mem_append_left _ ha))
  have hold2 : ∀ a ∈ addrs A, a < s.next := by
    intro a ha
    exact List.mem_range.mp (h.ledger.mem_iff.mp (List.mem_append_right _ (List.mem_append_left _ ha)))
  have hsub : ∀ n a, a ∈ addrs (others A n) → a ∈ addrs A := by
    intro n a ha
    obtain ⟨x, hx, hxa⟩ := mem_addrs.mp ha
    exact mem_addrs.mpr ⟨x, (List.mem_filter.mp hx).1, hxa⟩
  have hkeep : ∀ (n : CStr) (x : Blk CStr × Blk (CmdInfo P C)), x ∈ A → x.1.val ≠ n → x ∈ others A n := by
    intro n x hx hxn
    exact List.mem_filter.mpr ⟨hx, by simpa using hxn⟩
  cases e with
  | unregister n =>
    obtain ⟨t', e1, g1⟩ := h.unregister n.text
    refine ⟨_, t', _, ?_, g1, hkeep _, ?_, ?_⟩
    · show memUnregister limit n s = _
      unfold memUnregister
      rw [h.read he, hbind_ok, h.get, hbind_ok, e1, hbind_ok]
    · intro a ha
      refine hout g1 (Nat.le_refl _) a (hold a ha) ?_ (hlost a ha)
      intro hx
      exact h.alive (hsub _ _ hx) ha
    · intro x hx hxn
      exact ⟨(h.gone g1 rfl (mem_addrs.mpr ⟨x, hx, Or.inl rfl⟩)).mpr ⟨x, hx, hxn, Or.inl rfl⟩,
        (h.gone g1 rfl (mem_addrs.mpr ⟨x, hx, Or.inr rfl⟩)).mpr ⟨x, hx, hxn, Or.inr rfl⟩⟩
  | register n p d c =>
    obtain ⟨a1, a2, a3, a4, a5, a6⟩ := he
    obtain ⟨s', t', e1, e2, g1⟩ := (h.register a1 a2 a3 a4 p c).1 a5 a6
    have hnew : ∀ a, a < s.next → a ∉ addrs (others A n.text) → a ∉ L → a ∈ s'.released := by
      intro a ha hna hnl
      refine hout g1 (by omega) a ha ?_ hnl
      intro hx
      obtain ⟨x, hx, hxa⟩ := mem_addrs.mp hx
      rcases List.mem_cons.mp hx with rfl | hx
      · dsimp only at hxa
        omega
      · exact hna (mem_addrs.mpr ⟨x, hx, hxa⟩)
    refine ⟨s', t', _, e1, g1, fun x hx hxn => List.mem_cons_of_mem _ (hkeep _ x hx hxn), ?_, ?_⟩
    · intro a ha
      refine hnew a (hold a ha) ?_ (hlost a ha)
      intro hx
      exact h.alive (hsub _ _ hx) ha
    · intro x hx hxn
      obtain ⟨t1, _, g2⟩ := h.unregister n.text
      have hq : ∀ a, a = x.1.addr ∨ a = x.2.addr → a ∉ addrs (others A n.text) := by
        intro a ha hx'
        have hm : a ∈ addrs A := mem_addrs.mpr ⟨x, hx, ha⟩
        exact g2.alive hx' ((h.gone g2 rfl hm).mpr ⟨x, hx, hxn, ha⟩)
      have hx1 : x.1.addr ∈ addrs A := mem_addrs.mpr ⟨x, hx, Or.inl rfl⟩
      have hx2 : x.2.addr ∈ addrs A := mem_addrs.mpr ⟨x, hx, Or.inr rfl⟩
      exact ⟨hnew _ (hold2 _ hx1) (hq _ (Or.inl rfl)) (hlost2 _ hx1), hnew _ (hold2 _ hx2) (hq _ (Or.inr rfl)) (hlost2 _ hx2)⟩

theorem RegAt.run {limit : Nat → Nat} : ∀ (es : List (PtrEvent P C)) {s : RegMem P C} {evs : List (CmdEvent P C)}
    {t : CmdTab P C} {A : List (Blk CStr × Blk (CmdInfo P C))} {L : List Nat}, RegAt limit s evs t A L → Legal limit s es →
    ∃ s' t' A', runPtrs limit s es = .ok s' ∧ RegAt limit s' (evs ++ es.map PtrEvent.plain) t' A' L ∧
      (∀ x ∈ A, (∀ e ∈ es, e.plain.name ≠ x.1.val) → x ∈ A') ∧ (∀ a ∈ s.released, a ∈ s'.released) := by
  intro es
  induction es with
  | nil => intro s evs t A L h _; exact ⟨s, t, A, rfl, by simpa using h, fun x hx _ => hx, fun a ha => ha⟩
  | cons e es ih =>
    intro s evs t A L h hl
    obtain ⟨s1, t1, A1, e1, g1, g2, g3, _⟩ := h.step hl.1
    obtain ⟨s2, t2, A2, e2, k1, k2, k3⟩ := ih g1 (hl.2 _ e1)
    refine ⟨s2, t2, A2, ?_, by simpa using k1, ?_, fun a ha => k3 a (g3 a ha)⟩
    · rw [runPtrs, e1, hbind_ok, e2]
    · intro x hx hn
      exact k2 x (g2 x hx (fun hc => hn e (by simp) hc.symm)) (fun e' he' => hn e' (by simp [he']))

theorem Legal.split {limit : Nat → Nat} : ∀ (a b : List (PtrEvent P C)) {s s1 : RegMem P C},
    Legal limit s (a ++ b) → runPtrs limit s a = .ok s1 → Legal limit s1 b ∧ Legal limit s a := by
  intro a
  induction a with
  | nil => intro b s s1 h e; cases e; exact ⟨h, trivial⟩
  | cons x a ih =>
    intro b s s1 h e
    cases hx : runPtr limit s x with
    | error er => rw [runPtrs, hx] at e; cases e
    | ok s2 =>
      rw [runPtrs, hx, hbind_ok] at e
      obtain ⟨q1, q2⟩ := ih b (h.2 _ hx) e
      exact ⟨q1, h.1, fun s' hs' => by rw [hx] at hs'; cases hs'; exact q2⟩

theorem runPtrs_append {limit : Nat → Nat} : ∀ (a b : List (PtrEvent P C)) (s : RegMem P C),
    runPtrs limit s (a ++ b) = (runPtrs limit s a >>= fun s => runPtrs limit s b) := by
  intro a
  induction a with
  | nil => intro b s; rfl
  | cons x a ih =>
    intro b s
    rw [List.cons_append, runPtrs, runPtrs]
    cases hx : runPtr limit s x with
    | error er => rfl
    | ok s2 => rw [hbind_ok, hbind_ok, ih]

/-- Strings in the caller's own memory are always within the rules. -/
theorem legal_own {limit : Nat → Nat} {es : List (PtrEvent P C)}
    (h : ∀ e ∈ es, e.plain.fits ∧ match e with
      | .register n _ d _ => n.home = none ∧ d.home = none
      | .unregister n => n.home = none) : ∀ s : RegMem P C, Legal limit s es := by
  induction es with
  | nil => intro s; trivial
  | cons e es ih =>
    intro s
    refine ⟨?_, fun s' _ => ih (fun e' he' => h e' (by simp [he'])) s'⟩
    have he := h e (by simp)
    have hno : ∀ (n : CStr) (p : StrPtr), p.home = none → ¬ PointsInto limit s n p := by
      intro n p hp hi
      rcases hi with ⟨b, _, h2⟩ | ⟨b, _, h2⟩ <;> rw [hp] at h2 <;> cases h2
    cases e with
    | register n p d c =>
      obtain ⟨⟨h1, h2⟩, h3, h4⟩ := he
      exact ⟨Or.inl h3, Or.inl h4, h1, h2, hno _ _ h3, hno _ _ h4⟩
    | unregister n => exact Or.inl he.2

theorem RegAt.outstanding {limit : Nat → Nat} {s : RegMem P C} {evs : List (CmdEvent P C)} {t : CmdTab P C}
    {A : List (Blk CStr × Blk (CmdInfo P C))} (h : RegAt limit s evs t A L) : (addrs A ++ L).Perm (outstanding s) := by
  refine (List.perm_ext_iff_of_nodup h.nodup.of_append_right (List.nodup_range.filter _)).mpr ?_
  intro a
  rw [List.mem_filter, ← h.ledger.mem_iff, h.released, List.mem_append (t := addrs A ++ L)]
  constructor
  · intro ha
    exact ⟨Or.inr ha, by simpa using fun hr => List.disjoint_of_nodup_append h.nodup hr ha⟩
  · rintro ⟨h1, h2⟩
    exact h1.resolve_left (by simpa using h2)

theorem RegAt.outstanding_nil {limit : Nat → Nat} {s : RegMem P C} {evs : List (CmdEvent P C)} {t : CmdTab P C}
    {A : List (Blk CStr × Blk (CmdInfo P C))} (h : RegAt limit s evs t A []) : (addrs A).Perm (Spec.outstanding s) := by
  simpa using h.outstanding

theorem RegAt.keys {limit : Nat → Nat} {s : RegMem P C} {evs : List (CmdEvent P C)} {t : CmdTab P C}
    {A : List (Blk CStr × Blk (CmdInfo P C))} (h : RegAt limit s evs t A L) :
    (A.map (·.1.val)).Perm (registered evs) := by
  obtain ⟨B, hB⟩ := h.inv
  refine (List.perm_ext_iff_of_nodup ?_ ?_).mpr ?_
  · unfold List.Nodup
    rw [List.pairwise_map]
    refine hB.pw.imp ?_
    intro p q hpq
    exact (memEq_false limit _ _).mp hpq
  · exact (List.nodup_dedup _).filter _
  · intro n
    unfold registered
    rw [List.mem_filter, List.mem_dedup, List.mem_map]
    constructor
    · rintro ⟨⟨k, i⟩, hm, rfl⟩
      have h1 := (memLookup_mem hB k.val i).mpr ⟨k, hm, rfl⟩
      have h2 := h.latest k.val
      rw [h1] at h2
      have hs : (Spec.latest evs k.val).isSome = true := by rw [← h2]; rfl
      exact ⟨latest_mem hs, hs⟩
    · rintro ⟨_, hs⟩
      rw [← h.latest n] at hs
      cases hc : lookup (cmdMemFns limit) A ⟨0, n⟩ with
      | none => rw [hc] at hs; simp at hs
      | some i =>
        obtain ⟨k, h1, h2⟩ := (memLookup_mem hB n i).mp hc
        exact ⟨_, h1, h2⟩

theorem cmdLoop_eq {s : RegMem P C} {t : CmdTab P C} (h : s.get = .ok t) : ∀ (n : Nat) (it : HItr),
    cmdLoop s n it = visitLoop t n it := by
  intro n
  induction n with
  | zero => intro it; rfl
  | succ n ih =>
    intro it
    rw [cmdLoop, visitLoop]
    unfold cmdItrKey cmdItrValue cmdItrAdvance
    rw [h, hbind_ok, hbind_ok, hbind_ok]
    simp only [ih]
    rfl

theorem cmdWalk_eq {s : RegMem P C} {t : CmdTab P C} (h : s.get = .ok t) (n : Nat) : cmdWalk s n = visit t n := by
  unfold cmdWalk visit memCount cmdItrCreate
  rw [h, hbind_ok, hbind_ok, hbind_ok]
  split
  · rfl
  · simp only [cmdLoop_eq h]

end Argtable
