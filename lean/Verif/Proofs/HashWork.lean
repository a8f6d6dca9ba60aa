import Verif.Spec.HashWork
import Verif.Proofs.Iterate
import Verif.Proofs.HashIter
/-!
# What the command registry costs: lemmas
-/

namespace Argtable
open Spec

variable {κ ν P C : Type}

/-! ### leaving out the counters -/

theorem fst_bind {α β γ : Type} {x : M α} {y : M (α × γ)} (h : y.map Prod.fst = x) {f : α → M β} {g : α × γ → M β}
    (hg : ∀ a c, g (a, c) = f a) : (y >>= g) = (x >>= f) := by
  subst h
  cases y with
  | error e => rfl
  | ok p => exact hg p.1 p.2

theorem map_bind {α β δ : Type} (x : M α) (f : α → M β) (g : β → δ) : (x >>= f).map g = (x >>= fun a => (f a).map g) := by
  cases x <;> rfl

theorem moveChainW_fst (ns i : Nat) : ∀ (fuel : Nat) (table newtable : List (Option Nat)) (mem : Nat → Option (HNode κ ν)),
    (moveChainW ns i fuel table newtable mem).map Prod.fst = moveChain ns i fuel table newtable mem := by
  intro fuel
  induction fuel with
  | zero => intros; rfl
  | succ fuel ih =>
    intro table newtable mem
    rw [moveChainW, moveChain, map_bind]
    congr 1; funext hd
    cases hd with
    | none => rfl
    | some a =>
      dsimp only
      rw [map_bind]; congr 1; funext e
      rw [map_bind]; congr 1; funext tb
      rw [map_bind]; congr 1; funext ix
      rw [map_bind]; congr 1; funext hh
      rw [map_bind]; congr 1; funext nt
      rw [map_bind, ← ih]
      cases moveChainW ns i fuel tb nt _ <;> rfl

theorem moveAllW_fst (ns fuel : Nat) : ∀ (n i : Nat) (table newtable : List (Option Nat)) (mem : Nat → Option (HNode κ ν)),
    (moveAllW ns fuel n i table newtable mem).map Prod.fst = moveAll ns fuel n i table newtable mem := by
  intro n
  induction n with
  | zero => intros; rfl
  | succ n ih =>
    intro i table newtable mem
    rw [moveAllW, moveAll, map_bind]
    refine fst_bind (moveChainW_fst ..) ?_
    rintro ⟨tb, nt, mm⟩ c
    dsimp only
    rw [map_bind, ← ih]
    cases moveAllW ns fuel n (i + 1) tb nt mm <;> rfl

theorem hashExpandW_fst (f : HFns κ) (t : HTab κ ν) : (hashExpandW f t).map Prod.fst = hashExpand f t := by
  unfold hashExpandW hashExpand
  split
  · rfl
  · cases primes[t.primeindex + 1]? with
    | none => rfl
    | some ns =>
      dsimp only
      rw [map_bind]
      refine fst_bind (moveAllW_fst ..) ?_
      rintro ⟨nt, mm⟩ c
      rfl

/-- The first part of an insertion. -/
def makeRoomW (f : HFns κ) (t : HTab κ ν) : M (HTab κ ν × Nat) :=
  if t.entrycount + 1 > t.loadlimit then hashExpandW f t else pure (t, 0)

theorem makeRoomW_fst (f : HFns κ) (t : HTab κ ν) :
    (makeRoomW f t).map Prod.fst = if t.entrycount + 1 > t.loadlimit then hashExpand f t else pure t := by
  unfold makeRoomW
  split
  · exact hashExpandW_fst f t
  · rfl

theorem hashInsertW_eq (f : HFns κ) (t : HTab κ ν) (k : κ) (v : ν) :
    hashInsertW f t k v = (makeRoomW f t >>= fun q => hashPut f k v q.1 >>= fun t => .ok (t, ⟨q.2, 0, 0⟩)) := by
  unfold hashInsertW makeRoomW
  have h : ∀ q : HTab κ ν × Nat, (do
      let h := enhancedHash f k
      let index ← indexFor q.1.tablelength h
      let head ← tableGet q.1.table index
      let table ← tableSet q.1.table index (some q.1.fresh)
      pure
        ({ q.1 with
          table := table
          mem := memSet q.1.mem q.1.fresh (some { k := k, v := v, h := h, next := head })
          fresh := q.1.fresh + 1
          entrycount := q.1.entrycount + 1 }, (⟨q.2, 0, 0⟩ : HCost)) : M _) =
      (hashPut f k v q.1 >>= fun t => .ok (t, ⟨q.2, 0, 0⟩)) := by
    intro q
    unfold hashPut
    dsimp only
    cases indexFor q.1.tablelength (enhancedHash f k) with
    | error e => rfl
    | ok ix =>
      rw [hbind_ok, hbind_ok]
      cases tableGet q.1.table ix with
      | error e => rfl
      | ok hd =>
        rw [hbind_ok, hbind_ok]
        cases tableSet q.1.table ix (some q.1.fresh) <;> rfl
  split
  · exact congrArg (fun g => hashExpandW f t >>= g) (funext h)
  · exact h (t, 0)

theorem hashInsertW_fst (f : HFns κ) (t : HTab κ ν) (k : κ) (v : ν) :
    (hashInsertW f t k v).map Prod.fst = hashInsert f t k v := by
  rw [hashInsertW_eq, hashInsert_eq, map_bind]
  refine fst_bind (makeRoomW_fst f t) ?_
  intro t1 c
  dsimp only
  cases hashPut f k v t1 <;> rfl

theorem walkChainW_fst (f : HFns κ) (mem : Nat → Option (HNode κ ν)) (hv : UInt32) (k : κ) : ∀ (fuel : Nat) (p hd : Option Nat),
    (walkChainW f mem hv k fuel p hd).map Prod.fst = walkChain f mem hv k fuel p hd := by
  intro fuel
  induction fuel with
  | zero => intros; rfl
  | succ fuel ih =>
    intro p hd
    cases hd with
    | none => rfl
    | some a =>
      rw [walkChainW, walkChain, map_bind]
      congr 1; funext e
      by_cases h1 : (hv == e.h) = true
      · rw [if_pos h1]
        by_cases h2 : f.eqfn k e.k = true
        · rw [if_pos h2, if_pos (by simp [h1, h2])]; rfl
        · rw [if_neg h2, if_neg (by simp [h2]), ← ih]
          cases walkChainW f mem hv k fuel (some a) e.next <;> rfl
      · rw [if_neg h1, if_neg (by simp [h1]), ← ih]
        cases walkChainW f mem hv k fuel (some a) e.next <;> rfl

theorem hashFindW_fst (f : HFns κ) (t : HTab κ ν) (k : κ) : (hashFindW f t k).map Prod.fst = hashFind f t k := by
  unfold hashFindW hashFind
  dsimp only
  rw [map_bind]; congr 1; funext ix
  rw [map_bind]; congr 1; funext hd
  rw [← walkChainW_fst]
  cases walkChainW f t.mem (enhancedHash f k) k (t.fresh + 1) none hd <;> rfl

theorem hashSearchW_fst (f : HFns κ) (t : HTab κ ν) (k : κ) : (hashSearchW f t k).map Prod.fst = hashSearch f t k := by
  unfold hashSearchW hashSearch
  rw [map_bind]
  refine fst_bind (hashFindW_fst f t k) ?_
  rintro ⟨i, _ | ⟨p, a, e⟩⟩ c <;> rfl

theorem hashRemoveW_fst (f : HFns κ) (t : HTab κ ν) (k : κ) : (hashRemoveW f t k).map Prod.fst = hashRemove f t k := by
  unfold hashRemoveW hashRemove
  rw [map_bind]
  refine fst_bind (hashFindW_fst f t k) ?_
  rintro ⟨i, _ | ⟨p, a, e⟩⟩ c
  · rfl
  · dsimp only
    cases unlink t i p e.next <;> rfl

theorem cmdUnregisterW_fst (limit : Nat → Nat) (r : Registry P C) (n : CStr) :
    (cmdUnregisterW limit r n).map Prod.fst = cmdUnregister limit r n := by
  unfold cmdUnregisterW cmdUnregister
  rw [map_bind]; congr 1; funext t
  rw [← hashRemoveW_fst]
  cases hashRemoveW (cmdFns limit) t n <;> rfl

theorem cmdInfoW_fst (limit : Nat → Nat) (r : Registry P C) (n : CStr) : (cmdInfoW limit r n).map Prod.fst = cmdInfo limit r n := by
  unfold cmdInfoW cmdInfo
  rw [map_bind]; congr 1; funext t
  exact hashSearchW_fst ..

/-- The optional removal in `arg_cmd_register`. -/
def dropOldW (limit : Nat → Nat) (t : HTab CStr (CmdInfo P C)) (n : CStr) (b : Bool) : M (HTab CStr (CmdInfo P C) × HCost) :=
  if b then hashRemoveW (cmdFns limit) t n else pure (t, .zero)

/-- The optional removal, without its cost. -/
def dropOld (limit : Nat → Nat) (t : HTab CStr (CmdInfo P C)) (n : CStr) (b : Bool) : M (HTab CStr (CmdInfo P C)) :=
  if b then hashRemove (cmdFns limit) t n else pure t

theorem dropOldW_fst (limit : Nat → Nat) (t : HTab CStr (CmdInfo P C)) (n : CStr) (b : Bool) :
    (dropOldW limit t n b).map Prod.fst = dropOld limit t n b := by
  unfold dropOldW dropOld
  split
  · exact hashRemoveW_fst ..
  · rfl

theorem cmdRegisterW_eq (limit : Nat → Nat) (t : HTab CStr (CmdInfo P C)) {n : CStr} {p : Option P} {d : CStr} {c : C}
    (hn : n.length < 100) (hd : d.length < 256) : cmdRegisterW limit (.table t) n p d c =
      (hashSearchW (cmdFns limit) t n >>= fun q1 => dropOldW limit t n q1.1.isSome >>= fun q2 =>
        hashInsertW (cmdFns limit) q2.1 n ⟨n, d, p, c⟩ >>= fun q3 => .ok (.table q3.1, (q1.2.plus q2.2).plus q3.2)) := by
  unfold cmdRegisterW Registry.get
  rw [if_neg (by simpa [ARG_CMD_NAME_LEN] using hn), if_neg (by simpa [ARG_CMD_DESCRIPTION_LEN] using hd)]
  show ((.ok t : M _) >>= _) = _
  rw [hbind_ok]
  congr 1; funext q1
  obtain ⟨info, c1⟩ := q1
  unfold dropOldW
  cases info <;> rfl

theorem cmdRegister_eq (limit : Nat → Nat) (t : HTab CStr (CmdInfo P C)) {n : CStr} {p : Option P} {d : CStr} {c : C}
    (hn : n.length < 100) (hd : d.length < 256) : cmdRegister limit (.table t) n p d c =
      (hashSearch (cmdFns limit) t n >>= fun q1 => dropOld limit t n q1.isSome >>= fun q2 =>
        hashInsert (cmdFns limit) q2 n ⟨n, d, p, c⟩ >>= fun q3 => .ok (.table q3)) := by
  unfold cmdRegister Registry.get
  rw [if_neg (by simpa [ARG_CMD_NAME_LEN] using hn), if_neg (by simpa [ARG_CMD_DESCRIPTION_LEN] using hd)]
  show ((.ok t : M _) >>= _) = _
  rw [hbind_ok]
  congr 1; funext q1
  unfold dropOld
  split
  · rfl
  · rfl

theorem cmdRegisterW_fst (limit : Nat → Nat) (r : Registry P C) (n : CStr) (p : Option P) (d : CStr) (c : C) :
    (cmdRegisterW limit r n p d c).map Prod.fst = cmdRegister limit r n p d c := by
  by_cases hn : n.length < 100
  · by_cases hd : d.length < 256
    · cases r with
      | null =>
        unfold cmdRegisterW cmdRegister
        rw [if_neg (by simpa [ARG_CMD_NAME_LEN] using hn), if_neg (by simpa [ARG_CMD_DESCRIPTION_LEN] using hd),
          if_neg (by simpa [ARG_CMD_NAME_LEN] using hn), if_neg (by simpa [ARG_CMD_DESCRIPTION_LEN] using hd)]
        rfl
      | dangling =>
        unfold cmdRegisterW cmdRegister
        rw [if_neg (by simpa [ARG_CMD_NAME_LEN] using hn), if_neg (by simpa [ARG_CMD_DESCRIPTION_LEN] using hd),
          if_neg (by simpa [ARG_CMD_NAME_LEN] using hn), if_neg (by simpa [ARG_CMD_DESCRIPTION_LEN] using hd)]
        rfl
      | table t =>
        rw [cmdRegisterW_eq limit t hn hd, cmdRegister_eq limit t hn hd, map_bind]
        refine fst_bind (hashSearchW_fst ..) fun q1 c1 => ?_
        dsimp only
        rw [map_bind]
        refine fst_bind (dropOldW_fst ..) fun q2 c2 => ?_
        dsimp only
        rw [map_bind]
        exact fst_bind (hashInsertW_fst ..) fun q3 c3 => rfl
    · unfold cmdRegisterW cmdRegister
      rw [if_neg (by simpa [ARG_CMD_NAME_LEN] using hn), if_pos (by simpa [ARG_CMD_DESCRIPTION_LEN] using hd),
        if_neg (by simpa [ARG_CMD_NAME_LEN] using hn), if_pos (by simpa [ARG_CMD_DESCRIPTION_LEN] using hd)]
      rfl
  · unfold cmdRegisterW cmdRegister
    rw [if_pos (by simpa [ARG_CMD_NAME_LEN] using hn), if_pos (by simpa [ARG_CMD_NAME_LEN] using hn)]
    rfl

theorem runEventW_fst (limit : Nat → Nat) (r : Registry P C) (e : CmdEvent P C) :
    (runEventW limit r e).map Prod.fst = runEvent limit r e := by
  cases e with
  | register => exact cmdRegisterW_fst ..
  | unregister => exact cmdUnregisterW_fst ..

theorem runEventsW_fst (limit : Nat → Nat) : ∀ (es : List (CmdEvent P C)) (r : Registry P C),
    (runEventsW limit r es).map Prod.fst = runEvents limit r es := by
  intro es
  induction es with
  | nil => intro r; rfl
  | cons e es ih =>
    intro r
    rw [runEventsW, runEvents, map_bind]
    refine fst_bind (runEventW_fst ..) fun r1 c => ?_
    dsimp only
    rw [← ih]
    cases runEventsW limit r1 es <;> rfl

/-- With the counters, if it returns. -/
theorem with_cost {α γ : Type} {x : M α} {y : M (α × γ)} (h : y.map Prod.fst = x) {a : α} (hx : x = .ok a) : ∃ c, y = .ok (a, c) := by
  subst h
  cases y with
  | error e => cases hx
  | ok p => cases hx; exact ⟨p.2, rfl⟩

/-! ### how many entries move -/

theorem moveChainW_count {tl ns i : Nat} (hns : 0 < ns) (hi : i < tl) :
    ∀ (fuel : Nat) (table newtable : List (Option Nat)) (mem : Nat → Option (HNode κ ν)) (R B : Nat → List Nat),
      Moving tl ns table newtable mem R B → (R i).length < fuel →
      ∃ r, moveChainW ns i fuel table newtable mem = .ok (r, (R i).length) := by
  intro fuel
  induction fuel with
  | zero => intro _ _ _ _ _ _ h; omega
  | succ fuel ih =>
    intro table newtable mem R B h hf
    obtain ⟨hd, h1, h2⟩ := h.pathR i hi
    rw [moveChainW, tableGet_ok h1, hbind_ok]
    cases hR : R i with
    | nil =>
      rw [hR] at h2
      have h2' : hd = none := h2
      subst h2'
      exact ⟨_, rfl⟩
    | cons a r =>
      rw [hR] at h2 hf
      obtain ⟨h3, e, h4, h5⟩ := h2
      subst h3
      have hj : e.h.toNat % ns < ns := Nat.mod_lt _ hns
      obtain ⟨head, g1, g2⟩ := h.pathB _ hj
      dsimp only
      rw [loadNode_ok h4, hbind_ok, tableSet_ok (by rw [h.lenT]; exact hi), hbind_ok, indexFor_ok hns, hbind_ok, tableGet_ok g1, hbind_ok,
        tableSet_ok (by rw [h.lenN]; exact hj), hbind_ok]
      obtain ⟨r', k⟩ := ih _ _ _ _ _ (h.step hns hi hR h4 g1) (by
        rw [if_pos rfl]
        simp at hf
        omega)
      rw [k, hbind_ok, if_pos rfl]
      exact ⟨r', rfl⟩

theorem moveAllW_count {tl ns fuel : Nat} (hns : 0 < ns) :
    ∀ (n i : Nat) (table newtable : List (Option Nat)) (mem : Nat → Option (HNode κ ν)) (R B : Nat → List Nat),
      Moving tl ns table newtable mem R B → n + i = tl → (∀ x < tl, (R x).length < fuel) →
      ∃ r, moveAllW ns fuel n i table newtable mem = .ok (r, (allFrom R n i).length) := by
  intro n
  induction n with
  | zero => intros; exact ⟨_, rfl⟩
  | succ n ih =>
    intro i table newtable mem R B h hn hf
    obtain ⟨⟨t', n', m'⟩, k0⟩ := moveChainW_count hns (by omega) fuel table newtable mem R B h (hf i (by omega))
    obtain ⟨t'', n'', m'', R', B', k1, k2, k3, k4, -⟩ :=
      moveChain_ok hns (by omega) fuel table newtable mem R B h (hf i (by omega))
    have hk := moveChainW_fst ns i fuel table newtable mem
    rw [k0, k1] at hk
    cases hk
    rw [moveAllW, k0, hbind_ok]
    dsimp only
    obtain ⟨r, j⟩ := ih (i + 1) t' n' m' R' B' k2 (by omega) (by
      intro x hxt
      by_cases hxi' : x = i
      · rw [hxi', k3]; simp; exact Nat.lt_of_le_of_lt (Nat.zero_le _) (hf i (by omega))
      · rw [k4 x hxi']; exact hf x hxt)
    rw [j, hbind_ok]
    refine ⟨r, ?_⟩
    simp only [allFrom, List.length_append]
    rw [allFrom_congr (B := R') (B' := R) fun x hx _ => k4 x (by omega)]
    rfl

theorem TabInv.expandW {f : HFns κ} (hf : HashLawful f) {t : HTab κ ν} {B : Nat → List Nat} {A : List (κ × ν)}
    (h : TabInv f t B A) :
    ∃ t', hashExpandW f t = .ok (t', if t.primeindex + 1 = primes.length then 0 else A.length) := by
  have hlen : 0 < primes.length := by decide
  unfold hashExpandW
  by_cases hl : t.primeindex = primes.length - 1
  · rw [if_pos hl, if_pos (by omega)]
    exact ⟨t, rfl⟩
  · rw [if_neg hl, if_neg (by omega)]
    have hp := h.pidx
    have hlt : t.primeindex + 1 < primes.length := by omega
    rw [List.getElem?_eq_getElem hlt]
    dsimp only
    have hns : 0 < primes[t.primeindex + 1] := primes_pos _ (List.getElem_mem hlt)
    generalize primes[t.primeindex + 1] = ns at hns
    have hm : Moving t.tablelength ns t.table (List.replicate ns none) t.mem B (fun _ => []) := by
      refine ⟨h.len, List.length_replicate .., h.path, ?_, ?_, ?_, ?_, ?_⟩
      · intro j hj
        exact ⟨none, by rw [List.getElem?_replicate, if_pos hj], rfl⟩
      · intro i hi a ha n hn
        exact (h.node i hi a ha n hn).1
      · intro j _ a ha; simp at ha
      · intro a n hn
        exact Or.inl (h.all a n hn)
      · intro i _ j _ a _; simp
    obtain ⟨r, k⟩ := moveAllW_count hns (fuel := t.fresh + 1) t.tablelength 0 t.table _ t.mem B _ hm (by omega) (by
      intro x hx
      have := h.length_le hx
      omega)
    rw [k, hbind_ok, h.all_length hf]
    exact ⟨_, rfl⟩

/-! ### what a search looks at -/

theorem walkChainW_count (f : HFns κ) (mem : Nat → Option (HNode κ ν)) (hv : UInt32) (k : κ) :
    ∀ (L : List Nat) (fuel : Nat) (p hd : Option Nat), HChain mem hd L → L.length < fuel →
      ∃ r c, walkChainW f mem hv k fuel p hd = .ok (r, c) ∧ c.moved = 0 ∧
        c.looked ≤ L.length ∧ c.compared ≤ L.countP (fun a => (mem a).any fun n => hv == n.h) ∧
        (r = none → c.looked = L.length ∧ c.compared = L.countP (fun a => (mem a).any fun n => hv == n.h)) ∧
        (r ≠ none → 1 ≤ c.looked ∧ 1 ≤ c.compared) := by
  intro L
  induction L with
  | nil =>
    intro fuel p hd hc hf
    have hc' : hd = none := hc
    subst hc'
    cases fuel with
    | zero => omega
    | succ fuel => exact ⟨none, .zero, rfl, rfl, Nat.le_refl _, Nat.le_refl _, fun _ => ⟨rfl, rfl⟩, fun hn => absurd rfl hn⟩
  | cons a L ih =>
    intro fuel p hd hc hf
    obtain ⟨h1, n, h2, h3⟩ := hc
    subst h1
    cases fuel with
    | zero => omega
    | succ fuel =>
      simp only [List.length_cons] at hf
      obtain ⟨r, c, e, c0, c1, c2, c3, c4⟩ := ih fuel (some a) n.next h3 (by omega)
      rw [walkChainW, loadNode_ok h2, hbind_ok, List.countP_cons, h2]
      by_cases hh : (hv == n.h) = true
      · rw [if_pos hh]
        by_cases he : f.eqfn k n.k = true
        · rw [if_pos he]
          refine ⟨_, _, rfl, rfl, ?_, ?_, (fun hr => by cases hr), fun _ => ⟨Nat.le_refl _, Nat.le_refl _⟩⟩
          · simp
          · simp [hh]
        · rw [if_neg he, e, hbind_ok]
          refine ⟨_, _, rfl, ?_, ?_, ?_, (fun hr => ?_), fun hr => ?_⟩
          · simp [HCost.plus, c0]
          · simp only [HCost.plus, List.length_cons]; omega
          · simp only [HCost.plus, Option.any_some, hh, if_true]; omega
          · obtain ⟨d1, d2⟩ := c3 hr
            simp only [HCost.plus, List.length_cons, Option.any_some, hh, if_true]
            omega
          · have := c4 hr
            simp only [HCost.plus]; omega
      · rw [if_neg hh, e, hbind_ok]
        refine ⟨_, _, rfl, ?_, ?_, ?_, (fun hr => ?_), fun hr => ?_⟩
        · simp [HCost.plus, c0]
        · simp only [HCost.plus, List.length_cons]; omega
        · simp only [HCost.plus, Option.any_some, hh]; omega
        · obtain ⟨d1, d2⟩ := c3 hr
          simp only [HCost.plus, List.length_cons, Option.any_some, hh]
          refine ⟨by omega, ?_⟩
          simp; omega
        · have := c4 hr
          simp only [HCost.plus]; omega

/-- The keys in a bucket. -/
def bucketKeys (t : HTab CStr (CmdInfo P C)) (L : List Nat) : List CStr := L.filterMap fun a => (t.mem a).map (·.k)

theorem bucketKeys_length {t : HTab CStr (CmdInfo P C)} : ∀ {L : List Nat}, (∀ a ∈ L, ∃ n, t.mem a = some n) →
    (bucketKeys t L).length = L.length
  | [], _ => rfl
  | a :: L, h => by
    obtain ⟨n, hn⟩ := h a (by simp)
    have := bucketKeys_length (t := t) (L := L) fun b hb => h b (by simp [hb])
    unfold bucketKeys at this ⊢
    rw [List.filterMap_cons_some (by rw [hn]; rfl), List.length_cons, List.length_cons, this]

theorem bucketKeys_countP {t : HTab CStr (CmdInfo P C)} (hv : UInt32) : ∀ {L : List Nat},
    (∀ a ∈ L, ∃ n, t.mem a = some n ∧ n.h = hashOf n.k) →
    L.countP (fun a => (t.mem a).any fun n => hv == n.h) = ((bucketKeys t L).filter fun k => hashOf k = hv).length
  | [], _ => rfl
  | a :: L, h => by
    obtain ⟨n, hn, hh⟩ := h a (by simp)
    have := bucketKeys_countP (t := t) hv (L := L) fun b hb => h b (by simp [hb])
    unfold bucketKeys at this ⊢
    rw [List.filterMap_cons_some (by rw [hn]; rfl), List.countP_cons, this, hn]
    by_cases hc : hashOf n.k = hv
    · rw [List.filter_cons_of_pos (by simpa using hc)]
      simp [hh, hc]
    · rw [List.filter_cons_of_neg (by simpa using hc)]
      have : ¬ hv = n.h := fun h' => hc (by rw [h', hh])
      simp [this]

section
variable {limit : Nat → Nat} {t : HTab CStr (CmdInfo P C)} {B : Nat → List Nat} {A : List (CStr × CmdInfo P C)}
  {evs : List (CmdEvent P C)}

theorem bucket_perm (h : TabInv (cmdFns limit) t B A) (hl : ∀ n, lookup (cmdFns limit) A n = latest evs n) (name : CStr) :
    (bucketKeys t (B ((hashOf name).toNat % t.tablelength))).Perm (sharing evs t.tablelength name) := by
  have hp := RegInv.keys h hl
  have hA : (A.map (·.1)).Nodup := by
    unfold List.Nodup
    rw [List.pairwise_map]
    refine h.pw.imp ?_
    intro p q hpq heq
    simp [cmdFns, equalKeys, heq] at hpq
  have hlt : (hashOf name).toNat % t.tablelength < t.tablelength := Nat.mod_lt _ h.pos
  obtain ⟨hd, _, hc⟩ := h.path _ hlt
  refine (List.perm_ext_iff_of_nodup ?_ ((hp.nodup_iff.1 hA).filter _)).mpr ?_
  · unfold bucketKeys
    refine List.Nodup.filterMap ?_ hc.nodup
    intro a b k ha hb
    rw [Option.mem_map] at ha hb
    obtain ⟨n, hn, rfl⟩ := ha
    obtain ⟨m, hm, hk⟩ := hb
    exact h.inj a b n m hn hm (by simp [cmdFns, equalKeys, hk])
  · intro k
    unfold bucketKeys
    rw [List.mem_filterMap, List.mem_filter, ← hp.mem_iff, List.mem_map]
    constructor
    · rintro ⟨a, ha, hk⟩
      rw [Option.map_eq_some_iff] at hk
      obtain ⟨n, hn, rfl⟩ := hk
      refine ⟨⟨_, (h.memA _).2 ⟨a, n, hn, rfl⟩, rfl⟩, ?_⟩
      have := nameSlot_of_mem h hlt ha hn
      exact decide_eq_true this
    · rintro ⟨⟨q, hq, rfl⟩, hs⟩
      obtain ⟨a, n, hn, rfl⟩ := (h.memA _).1 hq
      have ha := h.all a n hn
      refine ⟨a, ?_, by rw [hn]; rfl⟩
      have h1 : n.h.toNat % t.tablelength < t.tablelength := Nat.mod_lt _ h.pos
      have := nameSlot_of_mem h h1 ha hn
      rw [← this] at ha
      have hs' : (hashOf n.k).toNat % t.tablelength = (hashOf name).toNat % t.tablelength := by simpa using hs
      rw [← hs']
      exact ha

theorem sharing_colliding (evs : List (CmdEvent P C)) (size : Nat) (name : CStr) :
    (sharing evs size name).filter (fun k => hashOf k = hashOf name) = colliding evs name := by
  unfold sharing colliding
  rw [List.filter_filter]
  refine List.filter_congr fun n _ => ?_
  by_cases hn : hashOf n = hashOf name
  · simp [hn]
  · simp [hn]

theorem hashFindW_count (h : TabInv (cmdFns limit) t B A) (hl : ∀ n, lookup (cmdFns limit) A n = latest evs n) (name : CStr) :
    ∃ i r c, hashFindW (cmdFns limit) t name = .ok ((i, r), c) ∧ OneSearch evs t.tablelength name c := by
  have hlt : (hashOf name).toNat % t.tablelength < t.tablelength := Nat.mod_lt _ h.pos
  obtain ⟨hd, p1, p2⟩ := h.path _ hlt
  obtain ⟨r, c, e, c0, c1, c2, c3, c4⟩ := walkChainW_count (cmdFns limit) t.mem (hashOf name) name _ (t.fresh + 1) none hd p2
    (by have := h.length_le hlt; omega)
  have hL := bucket_perm h hl name
  have hsome : ∀ a ∈ B ((hashOf name).toNat % t.tablelength), ∃ n, t.mem a = some n ∧ n.h = hashOf n.k := by
    intro a ha
    obtain ⟨n, hn⟩ := p2.mem_some ha
    exact ⟨n, hn, (h.node _ hlt a ha n hn).2⟩
  have k1 : (B ((hashOf name).toNat % t.tablelength)).length = (sharing evs t.tablelength name).length := by
    rw [← hL.length_eq, bucketKeys_length fun a ha => by obtain ⟨n, hn, _⟩ := hsome a ha; exact ⟨n, hn⟩]
  have k2 : (B ((hashOf name).toNat % t.tablelength)).countP (fun a => (t.mem a).any fun n => hashOf name == n.h) =
      (colliding evs name).length := by
    rw [bucketKeys_countP _ hsome, (hL.filter _).length_eq, sharing_colliding]
  rw [k1] at c1 c3
  rw [k2] at c2 c3
  have hfind : hashFindW (cmdFns limit) t name = .ok (((hashOf name).toNat % t.tablelength, r), c) := by
    unfold hashFindW
    dsimp only
    show (indexFor t.tablelength (hashOf name) >>= _) = _
    rw [indexFor_ok h.pos, hbind_ok, tableGet_ok p1, hbind_ok]
    show (walkChainW (cmdFns limit) t.mem (hashOf name) name (t.fresh + 1) none hd >>= _) = _
    rw [e, hbind_ok]
    rfl
  have hs := h.search (cmdFns_lawful limit) name
  have hs' := hashSearchW_fst (cmdFns limit) t name
  rw [hs, hl] at hs'
  unfold hashSearchW at hs'
  rw [hfind, hbind_ok] at hs'
  refine ⟨_, r, c, hfind, c0, c1, c2, fun hn => c3 ?_, fun hn => c4 ?_⟩
  · rw [hn] at hs'
    cases r with
    | none => rfl
    | some q => cases hs'
  · cases r with
    | some q => simp
    | none =>
      have : latest evs name = none := by
        have : (none : Option (CmdInfo P C)) = latest evs name := by
          injection hs'
        exact this.symm
      rw [this] at hn; cases hn

theorem hashSearchW_count (h : TabInv (cmdFns limit) t B A) (hl : ∀ n, lookup (cmdFns limit) A n = latest evs n) (name : CStr) :
    ∃ c, hashSearchW (cmdFns limit) t name = .ok (latest evs name, c) ∧ OneSearch evs t.tablelength name c := by
  obtain ⟨i, r, c, e, hc⟩ := hashFindW_count h hl name
  have hs := h.search (cmdFns_lawful limit) name
  rw [hl] at hs
  obtain ⟨c', hc'⟩ := with_cost (hashSearchW_fst (cmdFns limit) t name) hs
  refine ⟨c', hc', ?_⟩
  unfold hashSearchW at hc'
  rw [e, hbind_ok] at hc'
  rcases r with _ | ⟨p, a, n⟩
  · have h0 : (Except.ok (none, c) : M (Option (CmdInfo P C) × HCost)) = .ok (latest evs name, c') := hc'
    injection h0 with h0
    injection h0 with _ h0
    subst h0
    exact hc
  · have h0 : (Except.ok (some n.v, c) : M (Option (CmdInfo P C) × HCost)) = .ok (latest evs name, c') := hc'
    injection h0 with h0
    injection h0 with _ h0
    subst h0
    exact hc

theorem hashRemoveW_count (h : TabInv (cmdFns limit) t B A) (hl : ∀ n, lookup (cmdFns limit) A n = latest evs n) (name : CStr)
    {t' : HTab CStr (CmdInfo P C)} (he : hashRemove (cmdFns limit) t name = .ok t') :
    ∃ c, hashRemoveW (cmdFns limit) t name = .ok (t', c) ∧ OneSearch evs t.tablelength name c := by
  obtain ⟨i, r, c, e, hc⟩ := hashFindW_count h hl name
  obtain ⟨c', hc'⟩ := with_cost (hashRemoveW_fst (cmdFns limit) t name) he
  refine ⟨c', hc', ?_⟩
  unfold hashRemoveW at hc'
  rw [e, hbind_ok] at hc'
  rcases r with _ | ⟨p, a, n⟩
  · cases hc'; exact hc
  · obtain ⟨t1, _, h2⟩ := mbind_inv hc'
    cases h2
    exact hc

/-- A search and a removal look at the same entries. -/
theorem search_remove_cost {f : HFns CStr} {name : CStr} {o : Option (CmdInfo P C)} {t' : HTab CStr (CmdInfo P C)} {c c' : HCost}
    (h1 : hashSearchW f t name = .ok (o, c)) (h2 : hashRemoveW f t name = .ok (t', c')) : c' = c := by
  unfold hashSearchW at h1
  unfold hashRemoveW at h2
  cases hfd : hashFindW f t name with
  | error e => rw [hfd] at h1; cases h1
  | ok q =>
    rw [hfd, hbind_ok] at h1 h2
    obtain ⟨⟨i, _ | ⟨p, a, n⟩⟩, d⟩ := q
    · cases h1
      cases h2
      rfl
    · cases h1
      obtain ⟨t1, _, h3⟩ := mbind_inv h2
      cases h3
      rfl

/-! ### histories -/

theorem Spec.IsPeak.snoc {n : Nat} (h : IsPeak evs n) (e : CmdEvent P C) : IsPeak (evs ++ [e]) (max n (registered (evs ++ [e])).length) := by
  obtain ⟨⟨p, p1, p2⟩, h2⟩ := h
  constructor
  · rcases Nat.le_total n (registered (evs ++ [e])).length with hle | hle
    · exact ⟨_, List.prefix_refl _, (Nat.max_eq_right hle).symm⟩
    · exact ⟨p, p1.trans (List.prefix_append _ _), by rw [p2, Nat.max_eq_left hle]⟩
  · intro q hq
    rcases List.prefix_concat_iff.1 hq with rfl | hq
    · exact Nat.le_max_right ..
    · exact Nat.le_trans (h2 q hq) (Nat.le_max_left ..)

theorem Spec.IsPeak.unique {n m : Nat} (h : IsPeak evs n) (h' : IsPeak evs m) : n = m := by
  obtain ⟨⟨p, p1, p2⟩, h2⟩ := h
  obtain ⟨⟨q, q1, q2⟩, h3⟩ := h'
  have := h2 q q1
  have := h3 p p1
  omega

/-- The registry after a history whose changes moved `m` entries. -/
structure PeakInv (limit : Nat → Nat) (t : HTab CStr (CmdInfo P C)) (B : Nat → List Nat) (A : List (CStr × CmdInfo P C))
    (evs : List (CmdEvent P C)) (m n : Nat) : Prop where
  tab : TabInv (cmdFns limit) t B A
  look : ∀ x, lookup (cmdFns limit) A x = latest evs x
  size : primes[t.primeindex]? = some t.tablelength
  load : t.loadlimit = limit t.tablelength
  peak : IsPeak evs n
  small : t.primeindex = 0 ∨ ∃ p, primes[t.primeindex - 1]? = some p ∧ limit p < n
  large : n ≤ limit t.tablelength ∨ t.primeindex + 1 = primes.length
  moved : m = outgrown limit t.primeindex

theorem outgrown_succ {i p : Nat} (h : primes[i]? = some p) : outgrown limit (i + 1) = outgrown limit i + limit p := by
  unfold outgrown
  rw [List.take_add_one, h]
  simp

theorem makeRoomW_count (hf : HashLawful (cmdFns limit)) (h : TabInv (cmdFns limit) t B A) :
    ∃ t', makeRoomW (cmdFns limit) t =
      .ok (t', if A.length + 1 > t.loadlimit then (if t.primeindex + 1 = primes.length then 0 else A.length) else 0) := by
  unfold makeRoomW
  rw [h.cnt]
  by_cases hc : A.length + 1 > t.loadlimit
  · rw [if_pos hc, if_pos hc]
    exact h.expandW hf
  · rw [if_neg hc, if_neg hc]
    exact ⟨t, rfl⟩

theorem hashInsertW_count (hf : HashLawful (cmdFns limit)) (h : TabInv (cmdFns limit) t B A) {name : CStr} {v : CmdInfo P C}
    {t' : HTab CStr (CmdInfo P C)} (he : hashInsert (cmdFns limit) t name v = .ok t') :
    hashInsertW (cmdFns limit) t name v =
      .ok (t', ⟨if A.length + 1 > t.loadlimit then (if t.primeindex + 1 = primes.length then 0 else A.length) else 0, 0, 0⟩) := by
  obtain ⟨c, hc⟩ := with_cost (hashInsertW_fst (cmdFns limit) t name v) he
  rw [hc]
  rw [hashInsertW_eq] at hc
  obtain ⟨t1, e1⟩ := makeRoomW_count hf h
  rw [e1, hbind_ok] at hc
  obtain ⟨t2, _, h2⟩ := mbind_inv hc
  cases h2
  rfl

/-- What an insertion does with the shape. -/
theorem insert_shape {name : CStr} {v : CmdInfo P C} {t' : HTab CStr (CmdInfo P C)}
    (he : hashInsert (cmdFns limit) t name v = .ok t') :
    (t.entrycount + 1 > t.loadlimit ∧ t.primeindex + 1 ≠ primes.length ∧ t'.primeindex = t.primeindex + 1 ∧
      primes[t.primeindex + 1]? = some t'.tablelength ∧ t'.loadlimit = limit t'.tablelength) ∨
    ((t.entrycount + 1 ≤ t.loadlimit ∨ t.primeindex + 1 = primes.length) ∧ SameShape t t') := by
  obtain ⟨t1, h1, h2⟩ := hashInsert_inv he
  have hlen : 0 < primes.length := by decide
  by_cases hc : t.entrycount + 1 > t.loadlimit
  · rw [if_pos hc] at h1
    unfold hashExpand at h1
    by_cases hp : t.primeindex = primes.length - 1
    · rw [if_pos hp] at h1
      cases h1
      exact Or.inr ⟨Or.inr (by omega), h2⟩
    · rw [if_neg hp] at h1
      cases hq : primes[t.primeindex + 1]? with
      | none => rw [hq] at h1; cases h1
      | some ns =>
        rw [hq] at h1
        dsimp only at h1
        obtain ⟨⟨nt, mm⟩, _, h1⟩ := mbind_inv h1
        cases h1
        refine Or.inl ⟨hc, by omega, h2.pi, by rw [h2.tl], by rw [h2.ll, h2.tl]; rfl⟩
  · rw [if_neg hc] at h1
    cases h1
    exact Or.inr ⟨Or.inl (by omega), h2⟩

theorem PeakInv.init (limit : Nat → Nat) :
    ∃ t B A, (cmdInit limit : Registry P C) = .table t ∧ PeakInv limit t B A [] 0 0 := by
  obtain ⟨t, h1, h2, _⟩ := TabInv.create (ν := CmdInfo P C) (cmdFns limit) (minsize := 32) (by omega)
  refine ⟨t, fun _ => [], [], ?_, ?_⟩
  · unfold cmdInit
    rw [h1]
  · unfold hashCreate at h1
    rw [if_neg (by omega)] at h1
    cases h1
    refine ⟨h2, fun n => rfl, rfl, rfl, ⟨⟨[], List.prefix_refl _, rfl⟩, ?_⟩, Or.inl rfl, Or.inl (Nat.zero_le _), rfl⟩
    intro h hh
    obtain rfl := List.prefix_nil.1 hh
    exact Nat.le_refl _

/-- The cost of one change: the searches, and the entries that move. -/
def EventCost (limit : Nat → Nat) (t : HTab CStr (CmdInfo P C)) (evs : List (CmdEvent P C)) (e : CmdEvent P C) (c : HCost) : Prop :=
  match e with
  | .unregister n => OneSearch evs t.tablelength n c ∧ ∃ o, hashSearchW (cmdFns limit) t n = .ok (o, c)
  | .register n _ _ _ => ∃ o d, hashSearchW (cmdFns limit) t n = .ok (o, d) ∧ OneSearch evs t.tablelength n d ∧
      (latest evs n = none → c.looked = d.looked ∧ c.compared = d.compared) ∧
      ((latest evs n).isSome → c.looked = 2 * d.looked ∧ c.compared = 2 * d.compared)

theorem PeakInv.step (hg : Growing limit) {m n : Nat} (h : PeakInv limit t B A evs m n) {e : CmdEvent P C} (he : e.fits) :
    ∃ t' B' A' c, runEventW limit (.table t) e = .ok (.table t', c) ∧ EventCost limit t evs e c ∧
      PeakInv limit t' B' A' (evs ++ [e]) (m + c.moved) (max n (registered (evs ++ [e])).length) := by
  have hf := cmdFns_lawful limit
  have hcount := count_eq h.tab h.look
  have hnow : A.length ≤ n := by rw [hcount]; exact h.peak.2 _ (List.prefix_refl _)
  have h1 := h.tab
  have h2 := h.look
  cases e with
  | unregister x =>
    obtain ⟨t', B', e1, e2, e3, -, -, -⟩ := Effect.remove h1 x
    obtain ⟨c, e4, hc⟩ := hashRemoveW_count h1 h2 x e1
    obtain ⟨c0, s0, -⟩ := hashSearchW_count h1 h2 x
    have hs0 : ∃ o, hashSearchW (cmdFns limit) t x = .ok (o, c) := ⟨_, by rw [search_remove_cost s0 e4]; exact s0⟩
    have hlook : ∀ y, lookup (cmdFns limit) (A.filter fun p => !(cmdFns limit).eqfn x p.1) y = latest (evs ++ [.unregister x]) y := by
      intro y
      rw [lookup_filter, latest_snoc, h2]
      rfl
    have hlen := count_eq e2 hlook
    have hle : (registered (evs ++ [CmdEvent.unregister x])).length ≤ n := by
      rw [← hlen]
      exact Nat.le_trans (List.length_filter_le _ _) hnow
    refine ⟨t', B', _, c, ?_, ⟨hc, hs0⟩, e2, hlook, ?_, ?_, h.peak.snoc _, ?_, ?_, ?_⟩
    · show cmdUnregisterW limit (.table t) x = _
      unfold cmdUnregisterW Registry.get
      show ((.ok t : M _) >>= _) = _
      rw [hbind_ok, e4, hbind_ok]
      rfl
    · rw [e3.pi, e3.tl]; exact h.size
    · rw [e3.ll, e3.tl]; exact h.load
    · rw [e3.pi, Nat.max_eq_left hle]; exact h.small
    · rw [e3.pi, e3.tl, Nat.max_eq_left hle]; exact h.large
    · rw [e3.pi, hc.moved]; exact h.moved
  | register x p d ctx =>
    obtain ⟨hn, hd⟩ := he
    obtain ⟨c1, s1, hc1⟩ := hashSearchW_count h1 h2 x
    have hrm : ∃ t1 B1 c2, dropOldW limit t x (latest evs x).isSome = .ok (t1, c2) ∧
        TabInv (cmdFns limit) t1 B1 (A.filter (fun p => !(cmdFns limit).eqfn x p.1)) ∧ SameShape t t1 ∧ c2.moved = 0 ∧
        (latest evs x = none → c2.looked = 0 ∧ c2.compared = 0) ∧ ((latest evs x).isSome → c2 = c1) := by
      unfold dropOldW
      by_cases hs : (latest evs x).isSome = true
      · rw [if_pos hs]
        obtain ⟨t', B', e1, e2, e3, -⟩ := Effect.remove h1 x
        obtain ⟨c, e4, hc⟩ := hashRemoveW_count h1 h2 x e1
        exact ⟨t', B', c, e4, e2, e3, hc.moved, (fun hno => by rw [hno] at hs; cases hs), fun _ => search_remove_cost s1 e4⟩
      · rw [if_neg hs, filter_absent (by rw [h2]; simpa using hs)]
        exact ⟨t, B, .zero, rfl, h1, ⟨rfl, rfl, rfl⟩, rfl, fun _ => ⟨rfl, rfl⟩, fun h => absurd h hs⟩
    obtain ⟨t1, B1, c2, e1, e2, e3, m2, n2, q2⟩ := hrm
    obtain ⟨t2, B2, f1, f2, _⟩ := e2.insert hf (k := x)
      (v := { name := x, description := d, proc := p, ctx := ctx }) (by rw [lookup_filter, if_pos rfl])
    have f3 := hashInsertW_count hf e2 f1
    have hlook : ∀ y, lookup (cmdFns limit) ((x, { name := x, description := d, proc := p, ctx := ctx }) ::
        A.filter fun p => !(cmdFns limit).eqfn x p.1) y = latest (evs ++ [.register x p d ctx]) y := by
      intro y
      rw [lookup_cons, lookup_filter, latest_snoc, h2]
      show (if x = y then _ else _) = if x = y then _ else _
      split <;> rfl
    have hlen := count_eq f2 hlook
    rw [List.length_cons] at hlen
    have hle1 : (A.filter fun p => !(cmdFns limit).eqfn x p.1).length ≤ A.length := List.length_filter_le _ _
    generalize (A.filter fun p => !(cmdFns limit).eqfn x p.1) = A1 at *
    have hrun : ∀ c3, hashInsertW (cmdFns limit) t1 x { name := x, description := d, proc := p, ctx := ctx } = .ok (t2, c3) →
        runEventW limit (.table t) (.register x p d ctx) = .ok (.table t2, (c1.plus c2).plus c3) := by
      intro c3 h3
      show cmdRegisterW limit (.table t) x p d ctx = _
      rw [cmdRegisterW_eq limit t hn hd, s1, hbind_ok]
      dsimp only
      rw [e1, hbind_ok]
      dsimp only
      rw [h3, hbind_ok]
    refine ⟨t2, B2, (x, { name := x, description := d, proc := p, ctx := ctx }) :: A1, _, hrun _ f3, ⟨_, c1, s1, hc1, ?_, ?_⟩, ?_⟩
    · intro hno
      obtain ⟨b1, b2⟩ := n2 hno
      show c1.looked + c2.looked + 0 = _ ∧ c1.compared + c2.compared + 0 = _
      omega
    · intro hyes
      rw [q2 hyes]
      show c1.looked + c1.looked + 0 = _ ∧ c1.compared + c1.compared + 0 = _
      omega
    · have hmv : ∀ k, (((c1.plus c2).plus ⟨k, 0, 0⟩ : HCost)).moved = k := by
        intro k
        show c1.moved + c2.moved + k = k
        rw [hc1.moved, m2]; omega
      rw [hmv]
      have hll : t1.loadlimit = limit t.tablelength := by rw [e3.ll, h.load]
      have hpk : IsPeak (evs ++ [CmdEvent.register x p d ctx]) (max n (registered (evs ++ [CmdEvent.register x p d ctx])).length) :=
        h.peak.snoc _
      rw [← hlen] at hpk ⊢
      rcases insert_shape f1 with ⟨g1, g2, g3, g4, g5⟩ | ⟨g1, g2⟩
      · rw [e2.cnt] at g1
        rw [e3.pi] at g2 g3 g4
        have hn' : n ≤ limit t.tablelength := by
          rcases h.large with hh | hh
          · exact hh
          · exact absurd hh g2
        rw [if_pos g1, if_neg (by rw [e3.pi]; exact g2)]
        rw [hll] at g1
        have hA1 : A1.length = limit t.tablelength := by omega
        have hgrow := hg _ _ _ h.size g4
        refine ⟨f2, hlook, by rw [g3]; exact g4, g5, hpk, Or.inr ⟨t.tablelength, ?_, ?_⟩, Or.inl ?_, ?_⟩
        · rw [g3]; exact h.size
        · omega
        · omega
        · rw [g3, outgrown_succ h.size, h.moved, hA1]
      · have hz : (if A1.length + 1 > t1.loadlimit then (if t1.primeindex + 1 = primes.length then 0 else A1.length) else 0) = 0 := by
          rw [e2.cnt] at g1
          rcases g1 with g1 | g1
          · rw [if_neg (by omega)]
          · rw [if_pos g1]; split <;> rfl
        rw [hz]
        refine ⟨f2, hlook, ?_, ?_, hpk, ?_, ?_, ?_⟩
        · rw [g2.pi, e3.pi, g2.tl, e3.tl]; exact h.size
        · rw [g2.ll, e3.ll, g2.tl, e3.tl]; exact h.load
        · rw [g2.pi, e3.pi]
          rcases h.small with hh | ⟨q, q1, q2⟩
          · exact Or.inl hh
          · exact Or.inr ⟨q, q1, by omega⟩
        · rw [g2.pi, e3.pi, g2.tl, e3.tl]
          rcases h.large with hh | hh
          · rcases g1 with g1 | g1
            · left
              rw [e2.cnt, hll] at g1
              omega
            · right; rw [← e3.pi]; exact g1
          · exact Or.inr hh
        · rw [g2.pi, e3.pi]; exact h.moved

end

theorem PeakInv.run {limit : Nat → Nat} (hg : Growing limit) : ∀ (es : List (CmdEvent P C)) (t : HTab CStr (CmdInfo P C))
    (B : Nat → List Nat) (A : List (CStr × CmdInfo P C)) (evs : List (CmdEvent P C)) (m n : Nat),
    PeakInv limit t B A evs m n → (∀ e ∈ es, e.fits) →
    ∃ t' B' A' n' c, runEventsW limit (.table t) es = .ok (.table t', c) ∧ PeakInv limit t' B' A' (evs ++ es) (m + c.moved) n'
  | [], t, B, A, evs, m, n, h, _ => ⟨t, B, A, n, .zero, rfl, by simpa [HCost.zero] using h⟩
  | e :: es, t, B, A, evs, m, n, h, hfit => by
    obtain ⟨t1, B1, A1, c1, e1, -, e2⟩ := h.step hg (hfit e (by simp))
    obtain ⟨t2, B2, A2, n2, c2, g1, g2⟩ := PeakInv.run hg es t1 B1 A1 _ _ _ e2 (fun e' he' => hfit e' (by simp [he']))
    refine ⟨t2, B2, A2, n2, c1.plus c2, ?_, ?_⟩
    · rw [runEventsW, e1, hbind_ok]
      dsimp only
      rw [g1, hbind_ok]
      rfl
    · have : m + (c1.plus c2).moved = m + c1.moved + c2.moved := by show m + (c1.moved + c2.moved) = _; omega
      rw [this]
      simpa using g2

/-! ### the size of the table -/

theorem growing_lt {limit : Nat → Nat} (hg : Growing limit) : ∀ {d i p q : Nat}, primes[i]? = some p → primes[i + d + 1]? = some q →
    limit p < limit q := by
  intro d
  induction d with
  | zero => exact fun hp hq => hg _ _ _ hp hq
  | succ d ih =>
    intro i p q hp hq
    have hlt : i + (d + 1) + 1 < primes.length := by
      by_contra hc
      rw [List.getElem?_eq_none (by omega)] at hq
      cases hq
    obtain ⟨r, hr⟩ : ∃ r, primes[i + d + 1]? = some r := ⟨_, List.getElem?_eq_getElem (by omega)⟩
    exact Nat.lt_trans (ih hp hr) (hg _ _ _ hr hq)

/-- The number of the table is determined by the peak. -/
theorem index_le {limit : Nat → Nat} (hg : Growing limit) {i j n p q : Nat} (hp : primes[i]? = some p) (hq : primes[j]? = some q)
    (hl : n ≤ limit p ∨ i + 1 = primes.length) (hs : j = 0 ∨ ∃ r, primes[j - 1]? = some r ∧ limit r < n) : j ≤ i := by
  have hj : j < primes.length := by
    by_contra hc
    rw [List.getElem?_eq_none (by omega)] at hq
    cases hq
  rcases hs with hs | ⟨r, hr, hrn⟩
  · omega
  rcases hl with hl | hl
  · by_contra hc
    rcases Nat.lt_trichotomy i (j - 1) with hlt | heq | hgt
    · obtain ⟨d, hd⟩ : ∃ d, j - 1 = i + d + 1 := ⟨j - 1 - i - 1, by omega⟩
      rw [hd] at hr
      have := growing_lt hg hp hr
      omega
    · rw [← heq, hp] at hr
      cases hr
      omega
    · omega
  · omega

/-! ### the worst case -/

theorem shift_five (x : UInt32) : (x <<< 5 + x).toNat = (33 * x.toNat) % 2 ^ 32 := by
  rw [UInt32.toNat_add, UInt32.toNat_shiftLeft]
  have : (5 : UInt32).toNat % 32 = 5 := rfl
  rw [this, Nat.shiftLeft_eq]
  omega

theorem block_eq (h : UInt32) :
    ['a', 'z'].foldl (fun (hash : UInt32) c => ((hash <<< 5) + hash) + UInt32.ofInt (charInt c)) h =
    ['b', 'Y'].foldl (fun (hash : UInt32) c => ((hash <<< 5) + hash) + UInt32.ofInt (charInt c)) h := by
  have e1 : UInt32.ofInt (charInt 'a') = 97 := by decide
  have e2 : UInt32.ofInt (charInt 'b') = 98 := by decide
  have e3 : UInt32.ofInt (charInt 'z') = 122 := by decide
  have e4 : UInt32.ofInt (charInt 'Y') = 89 := by decide
  simp only [List.foldl_cons, List.foldl_nil, e1, e2, e3, e4]
  apply UInt32.toNat_inj.1
  rw [UInt32.toNat_add, shift_five, UInt32.toNat_add, shift_five, UInt32.toNat_add, shift_five, UInt32.toNat_add, shift_five]
  have h1 : (97 : UInt32).toNat = 97 := rfl
  have h2 : (98 : UInt32).toNat = 98 := rfl
  have h3 : (122 : UInt32).toNat = 122 := rfl
  have h4 : (89 : UInt32).toNat = 89 := rfl
  rw [h1, h2, h3, h4]
  omega

theorem blocks_eq (i k : Nat) : ∀ (L : List Nat) (h : UInt32),
    (L.flatMap fun j => if i.testBit j then ['a', 'z'] else ['b', 'Y']).foldl
      (fun (hash : UInt32) c => ((hash <<< 5) + hash) + UInt32.ofInt (charInt c)) h =
    (L.flatMap fun j => if k.testBit j then ['a', 'z'] else ['b', 'Y']).foldl
      (fun (hash : UInt32) c => ((hash <<< 5) + hash) + UInt32.ofInt (charInt c)) h := by
  intro L
  induction L with
  | nil => intro h; rfl
  | cons j L ih =>
    intro h
    rw [List.flatMap_cons, List.flatMap_cons, List.foldl_append, List.foldl_append, ih]
    congr 1
    split <;> split
    · rfl
    · exact block_eq h
    · exact (block_eq h).symm
    · rfl

theorem twin_hash (i k : Nat) : hashOf (twin i) = hashOf (twin k) := by
  unfold hashOf enhancedHash
  have : (cmdFns fun n => n).hashfn (twin i) = (cmdFns fun n => n).hashfn (twin k) := by
    show hashKey (twin i) = hashKey (twin k)
    exact blocks_eq i k _ _
  rw [this]

theorem blocks_length (i : Nat) : ∀ L : List Nat,
    (L.flatMap fun j => if i.testBit j then ['a', 'z'] else ['b', 'Y']).length = 2 * L.length := by
  intro L
  induction L with
  | nil => rfl
  | cons j L ih =>
    rw [List.flatMap_cons, List.length_append, ih, List.length_cons]
    split <;> (simp only [List.length_cons, List.length_nil]; omega)

theorem twin_length (i : Nat) : (twin i).length = 98 := by
  unfold twin
  rw [blocks_length, List.length_range]

theorem twin_alpha (i : Nat) : ∀ c ∈ twin i, c.isAlpha = true := by
  intro c hc
  unfold twin at hc
  rw [List.mem_flatMap] at hc
  obtain ⟨j, _, hc⟩ := hc
  split at hc
  · rcases List.mem_cons.1 hc with rfl | hc
    · decide
    · rcases List.mem_cons.1 hc with rfl | hc
      · decide
      · cases hc
  · rcases List.mem_cons.1 hc with rfl | hc
    · decide
    · rcases List.mem_cons.1 hc with rfl | hc
      · decide
      · cases hc

theorem blocks_inj {i k : Nat} : ∀ {L : List Nat},
    (L.flatMap fun j => if i.testBit j then ['a', 'z'] else ['b', 'Y']) =
    (L.flatMap fun j => if k.testBit j then ['a', 'z'] else ['b', 'Y']) → ∀ j ∈ L, i.testBit j = k.testBit j := by
  intro L
  induction L with
  | nil => intro _ j hj; cases hj
  | cons a L ih =>
    intro h j hj
    rw [List.flatMap_cons, List.flatMap_cons] at h
    have hl : (if i.testBit a then ['a', 'z'] else ['b', 'Y']).length = (if k.testBit a then ['a', 'z'] else ['b', 'Y']).length := by
      split <;> split <;> rfl
    obtain ⟨h1, h2⟩ := List.append_inj h hl
    rcases List.mem_cons.1 hj with rfl | hj
    · cases hi : i.testBit j <;> cases hk : k.testBit j <;> simp_all
    · exact ih h2 j hj

theorem twin_inj {i k : Nat} (hi : i < 2 ^ 49) (hk : k < 2 ^ 49) (h : twin i = twin k) : i = k := by
  refine Nat.eq_of_testBit_eq fun j => ?_
  by_cases hj : j < 49
  · exact blocks_inj h j (List.mem_range.2 hj)
  · have h1 : 2 ^ 49 ≤ 2 ^ j := Nat.pow_le_pow_right (by omega) (by omega)
    rw [Nat.testBit_lt_two_pow (Nat.lt_of_lt_of_le hi h1), Nat.testBit_lt_two_pow (Nat.lt_of_lt_of_le hk h1)]

/-- Registering names once each. -/
theorem latest_registers {names : List CStr} {f : CStr → Option P} {d : CStr} {ctx : C} {s : CStr} (hs : s ∈ names) :
    (latest (names.map fun s => CmdEvent.register s (f s) d ctx) s).isSome = true := by
  unfold latest
  rw [Option.isSome_bind, Option.any_eq_true]
  have h : ((names.map fun s => CmdEvent.register s (f s) d ctx).reverse.find? fun e => e.name = s).isSome := by
    rw [List.find?_isSome]
    exact ⟨CmdEvent.register s (f s) d ctx, by
      rw [List.mem_reverse]; exact List.mem_map.2 ⟨s, hs, rfl⟩, by simp [CmdEvent.name]⟩
  obtain ⟨e, he⟩ := Option.isSome_iff_exists.1 h
  refine ⟨e, he, ?_⟩
  have := List.mem_of_find?_eq_some he
  rw [List.mem_reverse, List.mem_map] at this
  obtain ⟨s', _, rfl⟩ := this
  rfl

theorem registered_registers {names : List CStr} (hn : names.Nodup) (f : CStr → Option P) (d : CStr) (ctx : C) :
    registered (names.map fun s => CmdEvent.register s (f s) d ctx) = names := by
  unfold registered
  have : (names.map fun s => CmdEvent.register s (f s) d ctx).map CmdEvent.name = names := by
    rw [List.map_map]
    exact List.map_id'' (fun _ => rfl) names
  rw [this, hn.dedup, List.filter_eq_self]
  exact fun s hs => latest_registers hs

theorem latest_registers_none {names : List CStr} {f : CStr → Option P} {d : CStr} {ctx : C} {s : CStr} (hs : s ∉ names) :
    latest (names.map fun s => CmdEvent.register s (f s) d ctx) s = none := by
  unfold latest
  have h : ((names.map fun s => CmdEvent.register s (f s) d ctx).reverse.find? fun e => e.name = s) = none := by
    rw [List.find?_eq_none]
    intro e he
    rw [List.mem_reverse, List.mem_map] at he
    obtain ⟨s', hs', rfl⟩ := he
    intro h
    exact hs (by rw [← of_decide_eq_true h]; exact hs')
  rw [h]
  rfl

end Argtable
