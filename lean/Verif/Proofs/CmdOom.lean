import Verif.Spec.CmdOom
import Verif.Proofs.CmdMem
import Verif.Proofs.ModMem
import Verif.Proofs.DstrOom
/-!
# The command registry and the module settings when memory runs out (C78)
-/

namespace Argtable

open Spec

section
variable {κ ν : Type} {room : Room} {f : HFns κ} {t : HTab κ ν} {B : Nat → List Nat} {A : List (κ × ν)}

theorem TabInv.skip (h : TabInv f t B A) (hl : t.primeindex + 1 < primes.length) :
    TabInv f { t with primeindex := t.primeindex + 1 } B A where
  len := h.len
  pos := h.pos
  pidx := hl
  path := h.path
  node := h.node
  all := h.all
  fresh := h.fresh
  inj := h.inj
  memA := h.memA
  pw := h.pw
  cnt := h.cnt

theorem up_ok' {ω α : Type} (v : α) : (up (.ok v) : OM ω α) = .ok v := rfl

theorem obind_ok {ω α β : Type} (v : α) (g : α → OM ω β) : ((Except.ok v : OM ω α) >>= g) = g v := rfl

theorem TabInv.expandOom (h : TabInv f t B A) (room : Room) :
    (hashExpandOom room f t = up (hashExpand f t)) ∨
    (room.array = false ∧ ∃ t', hashExpandOom room f t = .error (.panic t') ∧ TabInv f t' B A ∧ t'.freed = t.freed) := by
  have hp := h.pidx
  unfold hashExpandOom hashExpand
  by_cases hl : t.primeindex = primes.length - 1
  · rw [if_pos hl, if_pos hl]
    exact Or.inl rfl
  · rw [if_neg hl, if_neg hl]
    have hlt : t.primeindex + 1 < primes.length := by omega
    rw [List.getElem?_eq_getElem hlt]
    dsimp only
    cases ha : room.array with
    | true => exact Or.inl rfl
    | false => exact Or.inr ⟨rfl, _, rfl, h.skip hlt, rfl⟩

theorem TabInv.insertOom (hf : HashLawful f) (h : TabInv f t B A) (room : Room) {k : κ} {v : ν} (hn : lookup f A k = none) :
    (hashInsertOom room f t k v = up (hashInsert f t k v)) ∨
    (¬ (room.array = true ∧ room.entry = true) ∧ ∃ t' B', hashInsertOom room f t k v = .error (.panic t') ∧
      TabInv f t' B' A ∧ t'.freed = t.freed) := by
  have main : ∀ {t1 : HTab κ ν} {B1 : Nat → List Nat}, TabInv f t1 B1 A → t1.freed = t.freed →
      ((if room.entry = true then up (do
          let h := enhancedHash f k
          let index ← indexFor t1.tablelength h
          let head ← tableGet t1.table index
          let table ← tableSet t1.table index (some t1.fresh)
          pure
            { t1 with
              table := table
              mem := memSet t1.mem t1.fresh (some { k := k, v := v, h := h, next := head })
              fresh := t1.fresh + 1
              entrycount := t1.entrycount + 1 })
        else .error (.panic t1)) = up (do
          let h := enhancedHash f k
          let index ← indexFor t1.tablelength h
          let head ← tableGet t1.table index
          let table ← tableSet t1.table index (some t1.fresh)
          pure
            { t1 with
              table := table
              mem := memSet t1.mem t1.fresh (some { k := k, v := v, h := h, next := head })
              fresh := t1.fresh + 1
              entrycount := t1.entrycount + 1 })) ∨
      (¬ (room.array = true ∧ room.entry = true) ∧ ∃ t' B', ((if room.entry = true then up (do
          let h := enhancedHash f k
          let index ← indexFor t1.tablelength h
          let head ← tableGet t1.table index
          let table ← tableSet t1.table index (some t1.fresh)
          pure
            { t1 with
              table := table
              mem := memSet t1.mem t1.fresh (some { k := k, v := v, h := h, next := head })
              fresh := t1.fresh + 1
              entrycount := t1.entrycount + 1 })
        else .error (.panic t1)) : OM (HTab κ ν) (HTab κ ν)) = .error (.panic t') ∧
        TabInv f t' B' A ∧ t'.freed = t.freed) := by
    intro t1 B1 h1 hfr
    cases he : room.entry with
    | true => exact Or.inl rfl
    | false => exact Or.inr ⟨by simp, t1, B1, rfl, h1, hfr⟩
  unfold hashInsertOom hashInsert
  by_cases hg : t.entrycount + 1 > t.loadlimit
  · rw [if_pos hg, if_pos hg]
    rcases h.expandOom room with e | ⟨ha, t', e, h', hfr⟩
    · obtain ⟨t1, B1, e1, h1, hfr⟩ := h.expand
      rw [e, e1, up_ok', obind_ok, hbind_ok]
      exact main h1 hfr
    · right
      rw [e]
      exact ⟨by simp [ha], t', B, rfl, h', hfr⟩
  · rw [if_neg hg, if_neg hg]
    exact main h rfl

end

section
variable {P C : Type} {limit : Nat → Nat} {s : RegMem P C} {evs : List (CmdEvent P C)} {t : CmdTab P C}
  {A : List (Blk CStr × Blk (CmdInfo P C))} {L : List Nat}

/-- Blocks that are allocated and lost. -/
theorem RegAt.lose (h : RegAt limit s evs t A L) {t' : CmdTab P C} {B' : Nat → List Nat}
    (hB : TabInv (cmdMemFns limit) t' B' A) (hfr : t'.freed = t.freed) {k : Nat} :
    RegAt limit { s with tab := some t', next := s.next + k } evs t' A (L ++ (List.range k).map (s.next + ·)) where
  tab := rfl
  inv := ⟨_, hB⟩
  past := h.past
  ledger := by
    rw [hfr, ← List.append_assoc (addrs A), ← List.append_assoc (t.freed.map addrOf), List.range_add]
    exact h.ledger.append_right _
  latest := h.latest
  names := h.names

theorem RegAt.registerOom (h : RegAt limit s evs t A L) (room : Room) {n d : StrPtr}
    (hn : Spec.Good limit s n) (hd : Spec.Good limit s d) (h1 : n.text.length < 100) (h2 : d.text.length < 256)
    (hp1 : ¬ PointsInto limit s n.text n) (hp2 : ¬ PointsInto limit s n.text d) (p : Option P) (c : C) :
    (∃ s', memRegisterOom room limit n p d c s = .ok s' ∧ memRegister limit n p d c s = .ok s') ∨
    (¬ Ample room ∧ ∃ s' t' lost, memRegisterOom room limit n p d c s = .error (.panic s') ∧
      RegAt limit s' (evs ++ [.unregister n.text]) t' (others A n.text) (L ++ lost) ∧ lost.length ≤ 2 ∧
      s.next ≤ s'.next ∧ (∀ x ∈ lost, s.next ≤ x)) := by
  obtain ⟨B, hB⟩ := h.inv
  have hf := cmdMemFns_lawful limit
  obtain ⟨t1, e1, g1⟩ := h.unregister n.text
  have hrm := h.removed e1
  have r1 := (h.reread g1 hn).2 hp1
  have r2 := (h.reread g1 hd).2 hp2
  have r3 : ∀ (q : StrPtr) (x : Nat), readPtr { s with tab := some t1, next := x } q = readPtr { s with tab := some t1 } q :=
    fun _ _ => rfl
  have hbase : memRegisterOom room limit n p d c s =
      (if ¬ room.info = true then .error (.panic { s with tab := some t1 }) else
        if ¬ room.key = true then .error (.panic { s with tab := some t1, next := s.next + 1 }) else do
          let t ← within (fun t => { s with tab := some t, next := s.next + 2 }) (hashInsertOom room (cmdMemFns limit) t1
            ⟨s.next + 1, n.text⟩ ⟨s.next, { name := n.text, description := d.text, proc := p, ctx := c }⟩)
          .ok { s with tab := some t, next := s.next + 2 }) := by
    unfold memRegisterOom
    rw [h.read hn, up_ok', obind_ok, if_neg (by simpa [ARG_CMD_NAME_LEN] using h1), h.read hd, up_ok', obind_ok,
      if_neg (by simpa [ARG_CMD_DESCRIPTION_LEN] using h2), h.get, up_ok', obind_ok, hB.search hf, up_ok', obind_ok, hrm,
      up_ok', obind_ok]
    dsimp only
    by_cases hi : ¬ room.info = true
    · rw [if_pos hi, if_pos hi]
    · rw [if_neg hi, if_neg hi, r3, r1, up_ok', obind_ok, r3, r2, up_ok', obind_ok]
      by_cases hk : ¬ room.key = true
      · rw [if_pos hk, if_pos hk]
      · rw [if_neg hk, if_neg hk, r3, r1, up_ok', obind_ok]
  have hbase2 : memRegister limit n p d c s = (do
      let t ← hashInsert (cmdMemFns limit) t1 ⟨s.next + 1, n.text⟩
        ⟨s.next, { name := n.text, description := d.text, proc := p, ctx := c }⟩
      .ok { s with tab := some t, next := s.next + 2 }) := by
    unfold memRegister
    rw [h.read hn, hbind_ok, if_neg (by simpa [ARG_CMD_NAME_LEN] using h1), h.read hd, hbind_ok,
      if_neg (by simpa [ARG_CMD_DESCRIPTION_LEN] using h2), h.get, hbind_ok, hB.search hf, hbind_ok]
    have hswap : ∀ {α : Type} (b : Bool) (x y : M (CmdTab P C)) (g : CmdTab P C → M α),
        (if b = true then x >>= g else y >>= g) = ((if b = true then x else y) >>= g) := by
      intro α b x y g
      cases b <;> rfl
    refine (hswap _ _ (.ok t) _).trans ?_
    rw [hrm, hbind_ok]
    dsimp only
    rw [r1, hbind_ok, r2, hbind_ok, hbind_ok]
  obtain ⟨B1, hB1⟩ := g1.inv
  rw [hbase]
  by_cases hi : room.info = true
  · rw [if_neg (by simpa using hi)]
    by_cases hk : room.key = true
    · rw [if_neg (by simpa using hk)]
      have hnone : lookup (cmdMemFns limit) (others A n.text) ⟨s.next + 1, n.text⟩ = none := by
        have := memLookup_others limit A n.text n.text
        rw [if_pos rfl] at this
        rw [← this]
        rfl
      rcases hB1.insertOom hf room (k := ⟨s.next + 1, n.text⟩)
        (v := ⟨s.next, { name := n.text, description := d.text, proc := p, ctx := c }⟩) hnone with e | ⟨hr, t', B', e, h', hfr⟩
      · left
        obtain ⟨t2, e2, g2⟩ := g1.insert (n := n.text) (d := d.text) (by rw [memLookup_others, if_pos rfl]) p c
        change hashInsert (cmdMemFns limit) t1 ⟨s.next + 1, n.text⟩
          ⟨s.next, { name := n.text, description := d.text, proc := p, ctx := c }⟩ = _ at e2
        refine ⟨{ s with tab := some t2, next := s.next + 2 }, ?_, ?_⟩
        · rw [e, e2]; rfl
        · rw [hbase2, e2]; rfl
      · right
        refine ⟨fun hc => ?_, _, t', [s.next, s.next + 1], by rw [e]; rfl, ?_, by simp, by simp, by simp⟩
        · unfold Ample at hc
          rw [hc] at hr
          simp at hr
        · have := g1.lose h' hfr (k := 2)
          simpa [List.range_succ] using this
    · rw [if_pos hk]
      right
      refine ⟨fun hc => by unfold Ample at hc; rw [hc] at hk; simp at hk, _, t1, [s.next], rfl, ?_, by simp, by simp, by simp⟩
      have := g1.lose hB1 rfl (k := 1)
      simpa [List.range_succ] using this
  · rw [if_pos hi]
    right
    refine ⟨fun hc => by unfold Ample at hc; rw [hc] at hi; simp at hi, _, t1, [], rfl, ?_, by simp, by simp, by simp⟩
    simpa using g1

theorem RegAt.tryPtr (h : RegAt limit s evs t A L) (room : Room) {e : PtrEvent P C} (he : Allowed limit s e) :
    ∃ s' t' A' b lost, Spec.tryPtr limit room s e = .ok (s', b) ∧ (Ample room → b = true) ∧
      RegAt limit s' (evs ++ [cameTo e b]) t' A' (L ++ lost) ∧ lost.length ≤ (if b then 0 else 2) ∧
      (∀ x ∈ A, x.1.val ≠ e.plain.name → x ∈ A') := by
  cases e with
  | unregister n =>
    obtain ⟨s', t', A', e1, g1, g2, -⟩ := h.step he
    refine ⟨s', t', A', true, [], ?_, fun _ => rfl, by simpa [cameTo] using g1, by simp, g2⟩
    unfold Spec.tryPtr
    dsimp only
    change memUnregister limit n s = _ at e1
    rw [e1, hbind_ok]
  | register n p d c =>
    have he' := he
    obtain ⟨a1, a2, a3, a4, a5, a6⟩ := he
    rcases h.registerOom room a1 a2 a3 a4 a5 a6 p c with ⟨s', e1, e2⟩ | ⟨hr, s', t', lost, e1, g1, hl, -⟩
    · obtain ⟨s2, t', A', e3, g1, g2, -⟩ := h.step he'
      change memRegister limit n p d c s = _ at e3
      rw [e2] at e3
      cases e3
      refine ⟨s', t', A', true, [], ?_, fun _ => rfl, by simpa [cameTo] using g1, by simp, g2⟩
      unfold Spec.tryPtr
      dsimp only
      rw [e1]
    · refine ⟨s', t', others A n.text, false, lost, ?_, fun hc => absurd hc hr, g1, by simpa using hl, ?_⟩
      · unfold Spec.tryPtr
        dsimp only
        rw [e1]
      · intro x hx hxn
        have hxn : x.1.val ≠ n.text := hxn
        exact List.mem_filter.mpr ⟨hx, by simpa using hxn⟩

theorem RegAt.tryPtrs : ∀ (hist : List (Room × PtrEvent P C)) {s : RegMem P C} {evs : List (CmdEvent P C)} {t : CmdTab P C}
    {A : List (Blk CStr × Blk (CmdInfo P C))} {L : List Nat}, RegAt limit s evs t A L → LegalShort limit s hist →
    ∃ s' t' A' bs lost, Spec.tryPtrs limit s hist = .ok (s', bs) ∧ bs.length = hist.length ∧
      (∀ (i : Nat) e, hist[i]? = some e → Ample e.1 → bs[i]? = some true) ∧
      RegAt limit s' (evs ++ cameToAll hist bs) t' A' (L ++ lost) ∧ lost.length ≤ 2 * failures bs ∧
      (∀ x ∈ A, (∀ e ∈ hist, e.2.plain.name ≠ x.1.val) → x ∈ A') := by
  intro hist
  induction hist with
  | nil =>
    intro s evs t A L h _
    exact ⟨s, t, A, [], [], rfl, rfl, by simp, by simpa [cameToAll] using h, by simp, fun x hx _ => hx⟩
  | cons e hist ih =>
    obtain ⟨room, e⟩ := e
    intro s evs t A L h hl
    obtain ⟨s1, t1, A1, b, lost1, e1, hr, g1, hl1, hk1⟩ := h.tryPtr room hl.1
    obtain ⟨s2, t2, A2, bs, lost2, e2, hlen, hr2, g2, hl2, hk2⟩ := ih g1 (hl.2 _ _ e1)
    refine ⟨s2, t2, A2, b :: bs, lost1 ++ lost2, ?_, by simp [hlen], ?_, ?_, ?_, ?_⟩
    · unfold Spec.tryPtrs
      rw [e1, hbind_ok]
      dsimp only
      rw [e2, hbind_ok]
    · intro i e' he ha
      cases i with
      | zero => cases he; simp [hr ha]
      | succ i => exact hr2 i e' (by simpa using he) ha
    · simpa [cameToAll] using g2
    · rw [List.length_append]
      unfold failures at *
      cases b with
      | true => rw [List.count_cons]; simp at hl1 ⊢; subst hl1; simpa using hl2
      | false => rw [List.count_cons]; simp at hl1 ⊢; omega
    · intro x hx hn
      exact hk2 x (hk1 x hx (fun hc => hn (room, e) (by simp) hc.symm)) (fun e' he' => hn e' (by simp [he']))

end

/-! ### The module settings -/

section
variable {base : Heap} {sup : Supply} {m : ModMem} {i : ModInfo} {L R : List Nat}

theorem heapCopyStrOom_cases (sup : Supply) (s : CStr) (heap : Heap) :
    heapCopyStrOom sup s heap = .ok (heap.length, heap ++ [some (strBytes s)]) ∨
    (¬ Plenty sup ∧ heapCopyStrOom sup s heap = .error (.panic heap)) := by
  unfold heapCopyStrOom
  split
  · left
    rw [heapCopyStr_ok]
    rfl
  · rename_i hc
    exact Or.inr ⟨fun hp => hc (hp.1 _ _), rfl⟩

theorem DInv.blocks {st : DState} {text : CStr} {S : List (Nat × List Byte)} {cus : List (Nat × CStr)}
    (h : DInv base st text S cus) : ∃ O, O.length ≤ 1 ∧ HInv base st.heap O S := by
  obtain ⟨-, -, O, pend, hh, hm, -⟩ := h
  exact ⟨O, by cases hm <;> simp, hh⟩

theorem within_ok {ω ω' α : Type} (f : ω → ω') (v : α) : within f (.ok v : OM ω α) = .ok v := rfl

/-- The text of the version. -/
def verText (a b c : Int) (tag : CStr) : CStr :=
  [] ++ (decText a ++ cs ".") ++ (decText b ++ cs ".") ++ (decText c ++ cs ".") ++ tag

/-- Building the text of the version. -/
theorem versionBuild {a b c : Int} {tag : CStr} (hs : (ModEvent.version a b c tag).Sane) (sup : Supply) (heap : Heap) :
    (∃ st, (do
      let st ← dstrCatfOom sup (dstrCreate (heap ++ [some (strBytes tag)])) (some 3) (decText a ++ cs ".")
      let st ← dstrCatfOom sup st (some 3) (decText b ++ cs ".")
      let st ← dstrCatfOom sup st (some 3) (decText c ++ cs ".")
      dstrCatOom sup st ⟨.blk heap.length, 0⟩) = .ok st ∧
      DInv heap st (verText a b c tag) [(heap.length, strBytes tag)] [] ∧
      ∃ x, heap.length ≤ x ∧ st.ds.data = ⟨.blk x, 0⟩) ∨
    (¬ Plenty sup ∧ ∃ w text S, (do
      let st ← dstrCatfOom sup (dstrCreate (heap ++ [some (strBytes tag)])) (some 3) (decText a ++ cs ".")
      let st ← dstrCatfOom sup st (some 3) (decText b ++ cs ".")
      let st ← dstrCatfOom sup st (some 3) (decText c ++ cs ".")
      dstrCatOom sup st ⟨.blk heap.length, 0⟩) = .error (.panic w) ∧
      DInv heap w text S [] ∧ (S = [(heap.length, strBytes tag)] ∨ ∃ e, S = [(heap.length, strBytes tag)] ++ [e])) := by
  obtain ⟨ht, hl, h3⟩ := hs
  have hda := decText_length (h3 a (by simp))
  have hdb := decText_length (h3 b (by simp))
  have hdc := decText_length (h3 c (by simp))
  have hcs : ∀ x : Int, '\x00' ∉ decText x ++ cs "." := by
    intro x
    simp only [List.mem_append, not_or]
    exact ⟨decText_nul x, by decide⟩
  have hcl : (cs ".").length = 1 := by decide
  have hd0 : DInv heap (dstrCreate (heap ++ [some (strBytes tag)])) [] [(heap.length, strBytes tag)] [] :=
    (DInv.create heap).lend (strBytes tag)
  obtain ⟨st1, c1, d1⟩ := (appends_catf 3 (by decide) (decText a ++ cs ".")).run (hcs a) _ _ _ _ _ hd0
    (by simp only [List.length_append, List.length_nil]; omega)
  obtain ⟨st2, c2, d2⟩ := (appends_catf 3 (by decide) (decText b ++ cs ".")).run (hcs b) _ _ _ _ _ d1
    (by simp only [List.length_append, List.length_nil]; omega)
  obtain ⟨st3, c3, d3⟩ := (appends_catf 3 (by decide) (decText c ++ cs ".")).run (hcs c) _ _ _ _ _ d2
    (by simp only [List.length_append, List.length_nil]; omega)
  obtain ⟨st4, c4, d4, -, hx⟩ := d3.cat_own (t := heap.length) (b := strBytes tag) (by simp)
    (scanStr_strBytes ht) ht (by simp only [List.length_append, List.length_nil]; omega)
  unfold dsCatf at c1 c2 c3
  let P : DState → Prop := fun w => ∃ text S, DInv heap w text S [] ∧
    (S = [(heap.length, strBytes tag)] ∨ ∃ e, S = [(heap.length, strBytes tag)] ++ [e])
  have key : OSim sup P (do
      let st ← dstrCatf (dstrCreate (heap ++ [some (strBytes tag)])) (some 3) (decText a ++ cs ".")
      let st ← dstrCatf st (some 3) (decText b ++ cs ".")
      let st ← dstrCatf st (some 3) (decText c ++ cs ".")
      dstrCat st ⟨.blk heap.length, 0⟩) (do
      let st ← dstrCatfOom sup (dstrCreate (heap ++ [some (strBytes tag)])) (some 3) (decText a ++ cs ".")
      let st ← dstrCatfOom sup st (some 3) (decText b ++ cs ".")
      let st ← dstrCatfOom sup st (some 3) (decText c ++ cs ".")
      dstrCatOom sup st ⟨.blk heap.length, 0⟩) := by
    refine .bind ((osim_catf_inv hd0 (hcs a) (by simp only [List.length_append, List.length_nil]; omega)
      (by decide)).mono fun w hw => ?_) fun v hv => ?_
    · obtain ⟨S', q1, q2⟩ := hw; exact ⟨_, _, q1, q2⟩
    rw [c1] at hv
    have hv := Except.ok.inj hv
    subst hv
    refine .bind ((osim_catf_inv d1 (hcs b) (by simp only [List.length_append, List.length_nil]; omega)
      (by decide)).mono fun w hw => ?_) fun v hv => ?_
    · obtain ⟨S', q1, q2⟩ := hw; exact ⟨_, _, q1, q2⟩
    rw [c2] at hv
    have hv := Except.ok.inj hv
    subst hv
    refine .bind ((osim_catf_inv d2 (hcs c) (by simp only [List.length_append, List.length_nil]; omega)
      (by decide)).mono fun w hw => ?_) fun v hv => ?_
    · obtain ⟨S', q1, q2⟩ := hw; exact ⟨_, _, q1, q2⟩
    rw [c3] at hv
    have hv := Except.ok.inj hv
    subst hv
    refine (osim_cat _ _).mono fun w hw => ?_
    exact ⟨_, _, (d3.used (by simp only [List.length_append, List.length_nil]; omega) hw).1, Or.inl rfl⟩
  rcases key.cases (v := st4) (by rw [c1, bind_ok, c2, bind_ok, c3, bind_ok, c4]) with e | ⟨w, e, ⟨text, S, q1, q2⟩, hp⟩
  · exact Or.inl ⟨st4, e, d4, hx⟩
  · exact Or.inr ⟨hp, w, text, S, e, q1, q2⟩

/-- How far a call of `arg_set_module_version` gets. -/
theorem version_upto {a b c : Int} {tag : CStr} (hs : (ModEvent.version a b c tag).Sane) (objSize : Nat) (sup : Supply)
    (h : HInv base m.heap (m.tag.toList ++ R) []) :
    ∃ heap, heapFreeOpt m.tag m.heap = .ok heap ∧ HInv base heap R [] ∧ (∀ x ∈ R, heap[x]? = m.heap[x]?) ∧
      heap = m.tag.elim m.heap (fun a => m.heap.set a none) ∧
      ((¬ Plenty sup ∧ setModuleVersionOom sup objSize a b c tag m = .error (.panic { m with heap := heap })) ∨
       (¬ Plenty sup ∧ ∃ heap' lost, setModuleVersionOom sup objSize a b c tag m =
          .error (.panic { m with tag := some heap.length, heap := heap' }) ∧
          HInv base heap' (heap.length :: R ++ lost) [] ∧ lost.length ≤ 2 ∧ ∀ x < heap.length, heap'[x]? = heap[x]?) ∨
       (∃ st, DInv heap st (verText a b c tag) [(heap.length, strBytes tag)] [] ∧
          (∃ x, heap.length ≤ x ∧ st.ds.data = ⟨.blk x, 0⟩) ∧
          setModuleVersionOom sup objSize a b c tag m = (do
            let m := { m with tag := some heap.length }
            let heap ← up (heapFreeOpt m.ver st.heap)
            let st := { st with heap := heap }
            let s ← up (st.cstr (dstrCstr st))
            let (v, heap) ← within (fun heap => { m with heap := heap }) (heapCopyStrOom sup s st.heap)
            let (heap, _) ← up (dstrDestroy { st with heap := heap })
            .ok { m with heap := heap, ver := some v }))) := by
  obtain ⟨heap, e1, h1, h2, h3⟩ := freeOpt_ok h
  refine ⟨heap, e1, h1, h2, h3, ?_⟩
  unfold setModuleVersionOom
  rw [e1, up_ok', obind_ok]
  rcases heapCopyStrOom_cases sup tag heap with e2 | ⟨hp, e2⟩
  · right
    rw [e2, within_ok, obind_ok]
    dsimp only
    by_cases hm : sup.malloc (heap ++ [some (strBytes tag)]) objSize = true
    · have hcr : dstrCreateOom sup objSize (heap ++ [some (strBytes tag)]) =
          .ok (dstrCreate (heap ++ [some (strBytes tag)])) := by
        unfold dstrCreateOom
        rw [if_pos hm]
      rw [hcr, within_ok, obind_ok]
      rcases versionBuild hs sup heap with ⟨st, e3, hd, hx⟩ | ⟨hp, w, text, S, e3, hd, hS⟩
      · right
        refine ⟨st, hd, hx, ?_⟩
        rw [e3]
        rfl
      · left
        obtain ⟨O, hO, hh⟩ := hd.blocks
        refine ⟨hp, w.heap, S.tail.map (·.1) ++ O, by rw [e3]; rfl, ?_, ?_, hh.frame⟩
        · refine (h1.comp hh).perm ?_
          have hS' : S = (heap.length, strBytes tag) :: S.tail := by rcases hS with rfl | ⟨e, rfl⟩ <;> rfl
          rw [hS']
          simp only [List.map_cons, List.tail_cons, List.cons_append]
          refine (List.perm_middle).trans (.cons _ ?_)
          rw [← List.append_assoc]
          exact (List.perm_append_comm.append_right R).trans List.perm_append_comm
        · rcases hS with rfl | ⟨e, rfl⟩ <;> simp <;> omega
    · left
      refine ⟨fun hp => hm (hp.1 _ _), heap ++ [some (strBytes tag)], [], ?_, ?_, by simp, ?_⟩
      · have hcr : dstrCreateOom sup objSize (heap ++ [some (strBytes tag)]) = .error (.panic (heap ++ [some (strBytes tag)])) := by
          unfold dstrCreateOom
          rw [if_neg hm]
        rw [hcr]
        rfl
      · rw [List.append_nil]
        exact (h1.malloc (strBytes tag))
      · intro x hx
        rw [get_snoc, if_neg (by omega)]
  · left
    rw [e2]
    exact ⟨hp, rfl⟩

theorem live_of_set {heap : Heap} {v : Nat} (hv : v < heap.length) : (heap.set v none)[v]? = some none := by
  rw [List.getElem?_set, if_pos rfl, if_pos hv]

theorem heapFree_dead {heap : Heap} {v : Nat} (h : heap[v]? = some none) : ∃ what, heapFree v heap = .error (.ub what) := by
  unfold heapFree
  rw [h]
  exact ⟨_, rfl⟩

/-- What is left of the name and version when the other blocks change. -/
theorem ModInv.carry (h : ModInv base m i L) {m' : ModMem} {L' : List Nat} (hn : m'.name = m.name) (hv : m'.ver = m.ver)
    (hh : HInv base m'.heap (m'.name.toList ++ m'.tag.toList ++ m'.ver.toList ++ L') [])
    (hx : ∀ x ∈ m.name.toList ++ m.ver.toList, m'.heap[x]? = m.heap[x]?) : ModInv base m' i L' where
  inv := hh
  name := by
    rw [hn, ← h.name]
    cases hm : m.name with
    | none => rfl
    | some y => rw [Option.map_some, Option.map_some, hx y (by simp [hm])]
  ver := by
    rw [hv, ← h.ver]
    cases hm : m.ver with
    | none => rfl
    | some y => rw [Option.map_some, Option.map_some, hx y (by simp [hm])]
  nulName := h.nulName
  nulVer := h.nulVer

/-- Running out of memory while setting the name. -/
theorem ModInv.name_panics (h : ModInv base m i L) {n : CStr} {m' : ModMem}
    (hp : setModuleNameOom sup n m = .error (.panic m')) :
    (m.name = none ∧ m' = m) ∨
    ∃ a, m.name = some a ∧ m' = { m with heap := m.heap.set a none } ∧ m'.heap[a]? = some none ∧
      ModInv base { m' with name := none } { i with name := none } L := by
  have hi : HInv base m.heap (m.name.toList ++ (m.tag.toList ++ m.ver.toList ++ L)) [] := by
    simpa [List.append_assoc] using h.inv
  obtain ⟨heap, e1, h1, h2, h3⟩ := freeOpt_ok hi
  unfold setModuleNameOom at hp
  rw [e1, up_ok', obind_ok] at hp
  rcases heapCopyStrOom_cases sup n heap with e2 | ⟨-, e2⟩
  · rw [e2, within_ok, obind_ok] at hp
    cases hp
  · rw [e2] at hp
    have hp : (Except.error (Halt.panic { m with heap := heap }) : OM ModMem ModMem) = .error (.panic m') := hp
    injection hp with hp
    injection hp with hp
    cases hm : m.name with
    | none =>
      left
      rw [hm] at h3
      have h3 : heap = m.heap := h3
      exact ⟨rfl, by rw [← hp, h3]⟩
    | some a =>
      right
      have hi' := hi
      rw [hm] at h3 hi'
      have h3 : heap = m.heap.set a none := h3
      obtain ⟨_, b, hb⟩ := hi'.own a (by simp)
      refine ⟨a, rfl, by rw [← hp, h3, hm], by rw [← hp, h3]; exact live_of_set (lt_of_live hb), ?_⟩
      subst hp
      refine ⟨by simpa [List.append_assoc] using h1, rfl, ?_, by simp, h.nulVer⟩
      show m.ver.map (fun x => heap[x]?) = i.ver.map _
      rw [← h.ver]
      cases hv : m.ver with
      | none => rfl
      | some v => rw [Option.map_some, Option.map_some, h2 v (by simp [hv])]

theorem perm_lost (t : Nat) (N V L lost : List Nat) : (t :: (N ++ V ++ L) ++ lost).Perm (N ++ [t] ++ V ++ (L ++ lost)) := by
  simp only [List.append_assoc, List.cons_append, List.nil_append]
  exact List.perm_middle.symm

/-- Running out of memory while setting the version. -/
theorem ModInv.version_panics (h : ModInv base m i L) {a b c : Int} {tag : CStr} (hs : (ModEvent.version a b c tag).Sane)
    {objSize : Nat} {m' : ModMem} (hp : setModuleVersionOom sup objSize a b c tag m = .error (.panic m')) :
    (∃ lost, lost.length ≤ 2 ∧ ModInv base m' i (L ++ lost)) ∨
    (∃ t, m.tag = some t ∧ m' = { m with heap := m.heap.set t none } ∧ m'.heap[t]? = some none ∧
      ModInv base { m' with tag := none } i L) ∨
    (∃ v lost, m.ver = some v ∧ m'.ver = some v ∧ lost.length ≤ 1 ∧ m'.heap[v]? = some none ∧
      ModInv base { m' with ver := none } { i with ver := none } (L ++ lost)) := by
  have hi : HInv base m.heap (m.tag.toList ++ (m.name.toList ++ m.ver.toList ++ L)) [] := h.inv.perm (perm_tag _ _ _ _)
  have hnv : ∀ x ∈ m.name.toList ++ m.ver.toList, x ∈ m.name.toList ++ m.ver.toList ++ L :=
    fun x hx => List.mem_append_left _ hx
  obtain ⟨heap, e1, h1, h2, h3, hcases⟩ := version_upto (sup := sup) hs objSize hi
  have hlow : ∀ x ∈ m.name.toList ++ m.ver.toList ++ L, x < heap.length := by
    intro x hx
    obtain ⟨_, y, hy⟩ := h1.own x hx
    exact lt_of_live hy
  rcases hcases with ⟨-, e⟩ | ⟨-, heap', lost, e, hh, hlost, hfr⟩ | ⟨st, hd, hx, e⟩
  · rw [e] at hp
    injection hp with hp
    injection hp with hp
    cases hm : m.tag with
    | none =>
      left
      rw [hm] at h3
      have h3 : heap = m.heap := h3
      refine ⟨[], by simp, ?_⟩
      have : m' = m := by rw [← hp, h3]
      rw [this]
      simpa using h
    | some t =>
      right; left
      have hi' := hi
      rw [hm] at h3 hi'
      have h3 : heap = m.heap.set t none := h3
      obtain ⟨_, y, hy⟩ := hi'.own t (by simp)
      refine ⟨t, rfl, by rw [← hp, h3, hm], by rw [← hp, h3]; exact live_of_set (lt_of_live hy), ?_⟩
      subst hp
      refine h.carry rfl rfl (by simpa using h1) (fun x hx => h2 x (hnv x hx))
  · rw [e] at hp
    injection hp with hp
    injection hp with hp
    subst hp
    left
    refine ⟨lost, hlost, h.carry rfl rfl ?_ (fun x hx => ?_)⟩
    · exact hh.perm (perm_lost _ _ _ _ _)
    · rw [hfr x (hlow x (hnv x hx)), h2 x (hnv x hx)]
  · rw [e] at hp
    have hd' := hd
    obtain ⟨O, hO, hh⟩ := hd.blocks
    have hst : ∀ x ∈ m.name.toList ++ m.ver.toList ++ L, st.heap[x]? = m.heap[x]? := by
      intro x hx'
      rw [hh.frame x (hlow x hx'), h2 x hx']
    cases hm : m.ver with
    | none =>
      left
      dsimp only at hp
      rw [hm] at hp
      rw [show heapFreeOpt none st.heap = .ok st.heap from rfl, up_ok', obind_ok] at hp
      rw [hd.cstr, up_ok', obind_ok] at hp
      rcases heapCopyStrOom_cases sup (verText a b c tag) st.heap with e2 | ⟨-, e2⟩
      · rw [e2, within_ok, obind_ok] at hp
        dsimp only at hp
        obtain ⟨st7, r1, _, r2, r3⟩ := (hd.lend (strBytes (verText a b c tag))).reset
        unfold dstrDestroy at hp
        rw [r1, bind_ok, up_ok', obind_ok] at hp
        cases hp
      · rw [e2] at hp
        change (Except.error (Halt.panic { m with tag := some heap.length, heap := st.heap, ver := none }) : OM ModMem ModMem) =
          .error (.panic m') at hp
        injection hp with hp
        injection hp with hp
        subst hp
        refine ⟨O, by omega, h.carry rfl hm.symm ?_ (fun x hx => hst x (hnv x hx))⟩
        have := h1.comp hh
        refine this.perm ?_
        rw [hm]
        simp only [List.map_cons, List.map_nil, Option.toList_none, Option.toList_some, List.append_nil]
        refine List.perm_append_comm.trans ?_
        have := perm_lost heap.length m.name.toList [] L O
        simpa using this
    | some v =>
      right; right
      have hv : v ∈ m.name.toList ++ m.ver.toList ++ L := by simp [hm]
      rw [hm] at h1
      have h1' : HInv base heap (v :: (m.name.toList ++ L)) [] := h1.perm (by
        simpa [List.append_assoc] using (List.perm_append_comm (l₁ := m.name.toList) (l₂ := [v])).append_right L)
      obtain ⟨_, bb, hvb⟩ := h1'.own v (by simp)
      have hlt := lt_of_live hvb
      have hv4 : st.heap[v]? = some (some bb) := by rw [hh.frame v hlt]; exact hvb
      have hvl := lt_of_live hv4
      obtain ⟨x, hx1, hx2⟩ := hx
      have d5 := hd.unbase hlt (by rw [hx2]; intro he; cases he; omega)
      have hfree : heapFreeOpt (some v) st.heap = .ok (st.heap.set v none) := by
        show heapFree v st.heap = _
        unfold heapFree
        rw [hv4]
      dsimp only at hp
      rw [hm] at hp
      rw [hfree, up_ok', obind_ok] at hp
      rw [d5.cstr, up_ok', obind_ok] at hp
      rcases heapCopyStrOom_cases sup (verText a b c tag) (st.heap.set v none) with e2 | ⟨-, e2⟩
      · rw [e2, within_ok, obind_ok] at hp
        dsimp only at hp
        obtain ⟨st7, r1, _, r2, r3⟩ := (d5.lend (strBytes (verText a b c tag))).reset
        unfold dstrDestroy at hp
        dsimp only at r1
        rw [r1, bind_ok, up_ok', obind_ok] at hp
        cases hp
      · rw [e2] at hp
        change (Except.error (Halt.panic { m with tag := some heap.length, heap := st.heap.set v none, ver := some v }) :
          OM ModMem ModMem) = .error (.panic m') at hp
        injection hp with hp
        injection hp with hp
        subst hp
        obtain ⟨O, hO, hh⟩ := d5.blocks
        refine ⟨v, O, rfl, rfl, hO, live_of_set hvl, ?_⟩
        have h0 : ModInv base { m with ver := none } { i with ver := none } (v :: L) := by
          refine ⟨?_, h.name, rfl, h.nulName, by simp⟩
          have := h.inv
          rw [hm] at this
          simpa [List.append_assoc] using this
        refine h0.carry rfl rfl ?_ ?_
        · have := h1'.free.comp hh
          refine this.perm ?_
          simp only [List.map_cons, List.map_nil, Option.toList_none, Option.toList_some, List.append_nil]
          refine List.perm_append_comm.trans ?_
          have := perm_lost heap.length m.name.toList [] L O
          simpa using this
        · intro y hy
          have hy' : y ∈ m.name.toList := by simpa using hy
          show (st.heap.set v none)[y]? = m.heap[y]?
          rw [List.getElem?_set_ne]
          · exact hst y (by simp only [List.mem_append]; exact Or.inl (Or.inl hy'))
          · rintro rfl
            exact (List.nodup_cons.1 h1'.nodup).1 (List.mem_append_left _ hy')

/-- A tag that has been freed. -/
theorem ruined_tag {t : Nat} (ht : m.tag = some t) (hd : m.heap[t]? = some none) {a b c : Int} {tag : CStr} :
    Ruined m (.version a b c tag) := by
  have key : ∃ what, ∀ sup objSize, tryMod sup objSize m (.version a b c tag) = .error (.fault (.ub what)) := by
    obtain ⟨what, hw⟩ := heapFree_dead hd
    refine ⟨what, fun sup objSize => ?_⟩
    show setModuleVersionOom sup objSize a b c tag m = _
    unfold setModuleVersionOom
    rw [ht, show heapFreeOpt (some t) m.heap = heapFree t m.heap from rfl, hw]
    rfl
  obtain ⟨what, hw⟩ := key
  exact ⟨(fun sup objSize m' h => absurd ((hw sup objSize).symm.trans h) (by simp)), fun sup objSize _ => ⟨what, hw _ _⟩⟩

/-- A name that has been freed. -/
theorem ruined_name {t : Nat} (ht : m.name = some t) (hd : m.heap[t]? = some none) {n : CStr} : Ruined m (.name n) := by
  have key : ∃ what, ∀ sup objSize, tryMod sup objSize m (.name n) = .error (.fault (.ub what)) := by
    obtain ⟨what, hw⟩ := heapFree_dead hd
    refine ⟨what, fun sup objSize => ?_⟩
    show setModuleNameOom sup n m = _
    unfold setModuleNameOom
    rw [ht, show heapFreeOpt (some t) m.heap = heapFree t m.heap from rfl, hw]
    rfl
  obtain ⟨what, hw⟩ := key
  exact ⟨(fun sup objSize m' h => absurd ((hw sup objSize).symm.trans h) (by simp)), fun sup objSize _ => ⟨what, hw _ _⟩⟩

/-- A version that has been freed. -/
theorem ruined_ver {v : Nat} (hv : m.ver = some v) (hd : m.heap[v]? = some none)
    (h : HInv base m.heap (m.tag.toList ++ R) []) {a b c : Int} {tag : CStr} (hs : (ModEvent.version a b c tag).Sane) :
    Ruined m (.version a b c tag) := by
  have key : ∀ sup objSize, (¬ Plenty sup ∧ ∃ m', tryMod sup objSize m (.version a b c tag) = .error (.panic m')) ∨
      ∃ what, tryMod sup objSize m (.version a b c tag) = .error (.fault (.ub what)) := by
    intro sup objSize
    show (¬ Plenty sup ∧ ∃ m', setModuleVersionOom sup objSize a b c tag m = .error (.panic m')) ∨
      ∃ what, setModuleVersionOom sup objSize a b c tag m = .error (.fault (.ub what))
    obtain ⟨heap, e1, h1, h2, h3, hcases⟩ := version_upto (sup := sup) hs objSize h
    rcases hcases with ⟨hp, e⟩ | ⟨hp, heap', lost, e, -, -, -⟩ | ⟨st, hdi, -, e⟩
    · exact Or.inl ⟨hp, _, e⟩
    · exact Or.inl ⟨hp, _, e⟩
    · right
      have hvl := lt_of_live hd
      have hh1 : heap[v]? = some none := by
        rw [h3]
        cases m.tag with
        | none => exact hd
        | some t =>
          show (m.heap.set t none)[v]? = some none
          rw [List.getElem?_set]
          split
          · rw [if_pos (by omega)]
          · exact hd
      obtain ⟨O, -, hh⟩ := hdi.blocks
      have hh2 : st.heap[v]? = some none := by rw [hh.frame v (lt_of_live hh1), hh1]
      obtain ⟨what, hw⟩ := heapFree_dead hh2
      refine ⟨what, ?_⟩
      rw [e, hv]
      dsimp only
      rw [show heapFreeOpt (some v) st.heap = heapFree v st.heap from rfl, hw]
      rfl
  refine ⟨fun sup objSize m' he => ?_, fun sup objSize hp => ?_⟩
  · rcases key sup objSize with ⟨-, w, e⟩ | ⟨w, e⟩ <;> rw [e] at he <;> cases he
  · rcases key sup objSize with ⟨hn, -⟩ | h
    · exact absurd hp hn
    · exact h

theorem osim_copyStr (s : CStr) (heap : Heap) :
    OSim sup (fun _ => True) (heapCopyStr s heap) (heapCopyStrOom sup s heap) := by
  unfold heapCopyStrOom
  split
  · exact .up _
  · rename_i hc
    exact ⟨fun hp => hc (hp.1 _ _), trivial⟩

theorem osim_create {β : Type} {objSize : Nat} {heap : Heap} {x : DState → M β} {k : Heap → ModMem} {g : DState → OM ModMem β}
    (h : OSim sup (fun _ => True) (x (dstrCreate heap)) (g (dstrCreate heap))) :
    OSim sup (fun _ => True) (x (dstrCreate heap)) (within k (dstrCreateOom sup objSize heap) >>= g) := by
  unfold dstrCreateOom
  split
  · exact h
  · rename_i hc
    exact ⟨fun hp => hc (hp.1 _ _), trivial⟩

/-- A call that does not run out of memory is a call of Model/ModMem.lean. -/
theorem osim_tryMod (m : ModMem) (e : ModEvent) (objSize : Nat) :
    OSim sup (fun _ => True) (runModMem m e) (tryMod sup objSize m e) := by
  cases e with
  | name n =>
    show OSim sup _ (setModuleNameMem n m) (setModuleNameOom sup n m)
    unfold setModuleNameMem setModuleNameOom
    refine .pre fun heap _ => .bind (.within (osim_copyStr n heap) fun _ _ => trivial) fun v _ => ?_
    exact .ok
  | version a b c tag =>
    show OSim sup _ (setModuleVersionMem a b c tag m) (setModuleVersionOom sup objSize a b c tag m)
    unfold setModuleVersionMem setModuleVersionOom
    refine .pre fun heap _ => .bind (.within (osim_copyStr tag heap) fun _ _ => trivial) fun v _ => ?_
    obtain ⟨t, heap⟩ := v
    dsimp only
    let rest : DState → M ModMem := fun st => do
      let heap ← heapFreeOpt m.ver st.heap
      let st := { st with heap := heap }
      let s ← st.cstr (dstrCstr st)
      let (v, heap) ← heapCopyStr s st.heap
      let (heap, _) ← dstrDestroy { st with heap := heap }
      .ok { heap := heap, name := m.name, tag := some t, ver := some v }
    have hassoc : (do
        let st ← dsCatf 3 (decText a ++ cs ".") (dstrCreate heap)
        let st ← dsCatf 3 (decText b ++ cs ".") st
        let st ← dsCatf 3 (decText c ++ cs ".") st
        let st ← dstrCat st ⟨.blk t, 0⟩
        rest st) = ((do
        let st ← dstrCatf (dstrCreate heap) (some 3) (decText a ++ cs ".")
        let st ← dstrCatf st (some 3) (decText b ++ cs ".")
        let st ← dstrCatf st (some 3) (decText c ++ cs ".")
        dstrCat st ⟨.blk t, 0⟩) >>= rest) := by
      simp only [bind_assoc]
      rfl
    refine osim_create (x := fun st => do
        let st ← dsCatf 3 (decText a ++ cs ".") st
        let st ← dsCatf 3 (decText b ++ cs ".") st
        let st ← dsCatf 3 (decText c ++ cs ".") st
        let st ← dstrCat st ⟨.blk t, 0⟩
        rest st) ?_
    rw [hassoc]
    refine .bind (.within (P := fun _ => True) ?_ fun _ _ => trivial) fun st _ => ?_
    · have hc : ∀ st l text, OSim sup (fun _ => True) (dstrCatf st l text) (dstrCatfOom sup st l text) :=
        fun st l text => (osim_catf st l text).mono fun _ _ => trivial
      exact .bind (hc _ _ _) fun _ _ => .bind (hc _ _ _) fun _ _ => .bind (hc _ _ _) fun _ _ =>
        (osim_cat _ _).mono fun _ _ => trivial
    · refine .pre fun heap _ => ?_
      dsimp only
      refine .pre fun s _ => .bind (.within (osim_copyStr s heap) fun _ _ => trivial) fun v _ => ?_
      exact .pre fun _ _ => .ok

end

end Argtable
