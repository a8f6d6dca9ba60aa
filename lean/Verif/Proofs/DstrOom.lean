import Verif.Spec.DstrOom
import Verif.Proofs.Dstr
import Verif.Proofs.ParseOom
import Verif.Proofs.Stream
/-!
# Dynamic strings when memory runs out (C77)
-/

namespace Argtable

open Spec

variable {α β : Type} {sup : Supply} {P : DState → Prop}

theorem OSim.dmalloc {st : DState} {b : List Byte} {x : M β} {g : Nat × DState → OM DState β} (hP : P st)
    (h : OSim sup P x (g (st.malloc b))) : OSim sup P x (st.mallocOom sup b >>= g) := by
  unfold DState.mallocOom
  split
  · exact h
  · rename_i hc
    exact ⟨fun hp => hc (hp.1 _ _), hP⟩

theorem OSim.cases {ω : Type} {Q : ω → Prop} {x : M α} {y : OM ω α} {v : α} (h : OSim sup Q x y) (hx : x = .ok v) :
    y = .ok v ∨ ∃ w, y = .error (.panic w) ∧ Q w ∧ ¬ Plenty sup := by
  cases y with
  | ok v' =>
    have h : x = .ok v' := h
    rw [hx] at h
    exact Or.inl (congrArg _ (Except.ok.inj h).symm)
  | error e =>
    cases e with
    | fault f => have h : x = .error f := h; rw [hx] at h; cases h
    | panic w => exact Or.inr ⟨w, rfl, h.2, h.1⟩

/-! ### the functions -/

theorem osim_setData (st : DState) (str : Option Ptr) (f : FreeFn) :
    OSim sup (· = st) (dstrSetData st str f) (dstrSetDataOom sup st str f) := by
  unfold dstrSetData dstrSetDataOom
  cases str with
  | none => exact .up _
  | some p =>
    dsimp only
    by_cases hf : f = .volatile
    · rw [if_pos hf, if_pos hf]
      refine .pre fun s _ => .pre fun n _ => ?_
      by_cases hn : n > ARG_DSTR_SIZE
      · rw [if_pos hn, if_pos hn]
        exact .dmalloc rfl (.up _)
      · rw [if_neg hn, if_neg hn]
        exact .up _
    · rw [if_neg hf, if_neg hf]
      exact .ok

theorem osim_set (st : DState) (str : Option Ptr) (f : FreeFn) :
    OSim sup (· = st) (dstrSet st str f) (dstrSetOom sup st str f) := by
  unfold dstrSet dstrSetOom
  refine .bind (osim_setData st str f) fun s1 _ => ?_
  dsimp only
  by_cases hc : st.ds.freeProc ≠ .static ∧ st.ds.data ≠ s1.ds.data
  · rw [if_pos hc, if_pos hc]
    exact .pre fun s2 _ => .up _
  · rw [if_neg hc, if_neg hc]
    exact .pre fun s2 _ => .up _

theorem osim_grow (st : DState) (n : Int) : OSim sup (· = st) (dstrGrow st n) (dstrGrowOom sup st n) := by
  unfold dstrGrow dstrGrowOom
  refine .pre fun total _ => ?_
  by_cases ht : total ≥ st.ds.appendSize
  · rw [if_pos ht, if_pos ht]
    dsimp only
    have main : ∀ total' : Int, OSim sup (· = st) (do
        let (a, st) := st.malloc (List.replicate total'.toNat (some '\x00'))
        let st ← st.strcpy ⟨.blk a, 0⟩ st.ds.data
        let st ← match st.ds.appendData with
          | some o => st.free ⟨.blk o, 0⟩
          | none => .ok st
        .ok { st with ds := { st.ds with appendData := some a, appendSize := total' } }) (do
        let (a, st) ← st.mallocOom sup (List.replicate total'.toNat (some '\x00'))
        let st ← up (st.strcpy ⟨.blk a, 0⟩ st.ds.data)
        let st ← up (match st.ds.appendData with
          | some o => st.free ⟨.blk o, 0⟩
          | none => .ok st)
        .ok { st with ds := { st.ds with appendData := some a, appendSize := total' } }) := by
      intro total'
      refine .dmalloc rfl (.pre fun s1 _ => ?_)
      dsimp only
      cases s1.ds.appendData with
      | none => exact .ok
      | some o => exact .pre fun s2 _ => .ok
    by_cases hc : total < 100
    · rw [if_pos hc, if_pos hc]
      exact main 200
    · rw [if_neg hc, if_neg hc]
      exact .pre fun total' _ => main total'
  · rw [if_neg ht, if_neg ht]
    exact .up _

theorem osim_setup (st : DState) (n : Int) :
    OSim sup (fun w => dstrUsed st = .ok w) (dstrSetup st n) (dstrSetupOom sup st n) := by
  unfold dstrSetup dstrSetupOom
  refine .pre fun s1 h1 => .bind ((osim_grow s1 n).mono fun w hw => by rw [hw]; exact h1) fun s2 _ => .pre fun s3 _ => ?_
  cases s3.ds.appendData with
  | none => exact (rfl : _ = _)
  | some a => exact .ok

theorem osim_cat (st : DState) (p : Ptr) :
    OSim sup (fun w => dstrUsed st = .ok w) (dstrCat st p) (dstrCatOom sup st p) := by
  unfold dstrCat dstrCatOom
  refine .pre fun s _ => ?_
  generalize chkInt ((s.length : Int) + 1) = x
  refine .pre fun n _ => ?_
  refine .bind (osim_setup st n) fun s1 _ => ?_
  refine .pre fun d _ => ?_
  refine .pre fun s2 _ => ?_
  dsimp only
  exact .up _

theorem osim_catc (st : DState) (c : Char) :
    OSim sup (fun w => dstrUsed st = .ok w) (dstrCatc st c) (dstrCatcOom sup st c) := by
  unfold dstrCatc dstrCatcOom
  exact .bind (osim_setup st 2) fun s1 _ => .pre fun d _ => .up _

/-- `w` differs from `st` by blocks that have been released. -/
def Junk (st w : DState) : Prop := ∃ k, w = { st with heap := st.heap ++ List.replicate k none }

theorem Junk.refl (st : DState) : Junk st st := ⟨0, by simp⟩

theorem Junk.trans {a b c : DState} (h1 : Junk a b) (h2 : Junk b c) : Junk a c := by
  obtain ⟨k, rfl⟩ := h1
  obtain ⟨l, rfl⟩ := h2
  exact ⟨k + l, by simp [List.append_assoc]⟩

theorem junk_round {st st1 st2 : DState} {b : List Byte} {n : Nat} {text : CStr}
    (h1 : vsnprintf (st.malloc b).2 (st.malloc b).1 n text = .ok st1) (h2 : st1.free ⟨.blk (st.malloc b).1, 0⟩ = .ok st2) :
    Junk st st2 := by
  unfold vsnprintf DState.write DState.bytes DState.malloc at h1
  dsimp only at h1
  rw [get_snoc, if_pos rfl] at h1
  dsimp only at h1
  rw [bind_ok] at h1
  split at h1
  · have h1 := Except.ok.inj h1
    unfold DState.setBytes at h1
    dsimp only at h1
    rw [List.set_append_right _ _ (Nat.le_refl _), Nat.sub_self] at h1
    subst h1
    unfold DState.malloc at h2
    dsimp only at h2
    rw [free_blk (by dsimp only [List.set]; rw [get_snoc, if_pos rfl])] at h2
    have h2 := Except.ok.inj h2
    dsimp only [List.set] at h2
    rw [List.set_append_right _ _ (Nat.le_refl _), Nat.sub_self] at h2
    exact ⟨1, h2.symm⟩
  · cases h1

theorem osim_catfLoop (text : CStr) : ∀ (k : Nat) (st : DState) (n : Int),
    OSim sup (Junk st) (catfLoop text k st n) (catfLoopOom sup text k st n) := by
  intro k
  induction k with
  | zero => intro st n; exact (rfl : _ = _)
  | succ k ih =>
    intro st n
    rw [catfLoop, catfLoopOom]
    refine .pre fun m _ => .dmalloc (Junk.refl _) ?_
    refine .pre fun s1 h1 => .pre fun r _ => .pre fun b _ => ?_
    by_cases hb : (b.length : Int) < n
    · rw [if_pos hb, if_pos hb]
      exact .ok
    · rw [if_neg hb, if_neg hb]
      dsimp only
      have main : ∀ n' : Int, OSim sup (Junk st) (do
          let st ← s1.free ⟨.blk (st.malloc (List.replicate m.toNat (some '\x00'))).1, 0⟩
          catfLoop text k st n') (do
          let st ← up (s1.free ⟨.blk (st.malloc (List.replicate m.toNat (some '\x00'))).1, 0⟩)
          catfLoopOom sup text k st n') :=
        fun n' => .pre fun s2 h2 => (ih s2 n').mono fun w hw => (junk_round h1 h2).trans hw
      by_cases hc : r > n
      · rw [if_pos hc, if_pos hc]
        exact main r
      · rw [if_neg hc, if_neg hc]
        exact .pre fun n' _ => main n'

theorem osim_catf (st : DState) (l : Option Nat) (text : CStr) :
    OSim sup (fun w => Junk st w ∨ ∃ n buff s, catfLoop text (text.length + 2) st n = .ok (buff, s) ∧ dstrUsed s = .ok w)
      (dstrCatf st l text) (dstrCatfOom sup st l text) := by
  unfold dstrCatf dstrCatfOom
  cases l with
  | none => exact .ok
  | some l =>
    dsimp only
    refine .pre fun n _ => .bind ((osim_catfLoop text _ st _).mono fun w hw => Or.inl hw) ?_
    rintro ⟨buff, s⟩ h1
    exact .bind ((osim_cat s _).mono fun w hw => Or.inr ⟨_, _, _, h1, hw⟩) fun s2 _ => .up _

/-! ### the invariant -/

section
variable {base : Heap} {st : DState} {text : CStr} {S : List (Nat × List Byte)} {cus : List (Nat × CStr)}

theorem DInv.used (h : DInv base st text S cus) (hlen : text.length < 2147483647) {w : DState} (hw : dstrUsed st = .ok w) :
    DInv base w text S cus ∧ w.ds.data = st.ds.data := by
  obtain ⟨nn, sb, O, pend, hh, hm, hl⟩ := h
  rw [dstrUsed_eq nn hlen hm] at hw
  have hw := Except.ok.inj hw
  subst hw
  refine ⟨⟨nn, sb, O, pend, hh, ?_, hl⟩, rfl⟩
  cases hm with
  | inline k1 k2 k3 k4 k5 => exact .inline k1 k2 k3 k4 k5
  | const a k1 k2 k3 k4 k5 => exact .const a k1 k2 k3 k4 k5
  | dynamic a k1 k2 k3 k4 k5 => exact .dynamic a k1 k2 k3 k4 k5
  | custom a k k1 k2 k3 k4 k5 => exact .custom a k k1 k2 k3 k4 k5
  | append a m k1 k2 k3 k4 k5 k6 k7 => exact .append a m k1 k2 k3 k4 (by simp) (by simp) k7

theorem DInv.junk (h : DInv base st text S cus) {w : DState} (hw : Junk st w) : DInv base w text S cus := by
  obtain ⟨k, rfl⟩ := hw
  induction k with
  | zero => simpa using h
  | succ k ih =>
    have := ih.dead
    rw [List.replicate_succ', ← List.append_assoc]
    exact this

/-- A block that is not there yet does not hold the text. -/
theorem DInv.data_ne (h : DInv base st text S cus) : st.ds.data ≠ ⟨.blk st.heap.length, 0⟩ := by
  intro e
  have := h.cstr
  unfold dstrCstr at this
  rw [e] at this
  unfold DState.cstr DState.bytes at this
  dsimp only at this
  rw [List.getElem?_eq_none (by omega)] at this
  cases this

/-- If the call is broken off, then at most one more block is left behind. -/
theorem osim_catf_inv (h : DInv base st text S cus) {t : CStr} (ht : '\x00' ∉ t)
    (hb : text.length + t.length ≤ 500000000) {l : Nat} (hl : l ≤ 500000000) :
    OSim sup (fun w => ∃ S', DInv base w text S' cus ∧ (S' = S ∨ ∃ e, S' = S ++ [e]))
      (dstrCatf st (some l) t) (dstrCatfOom sup st (some l) t) := by
  unfold dstrCatf dstrCatfOom
  dsimp only
  refine .pre fun n hn => ?_
  rw [chkInt_ok (by omega) (by omega)] at hn
  have hn := Except.ok.inj hn
  subst hn
  refine .bind ((osim_catfLoop t _ st _).mono fun w hw => ⟨S, h.junk hw, Or.inl rfl⟩) ?_
  rintro ⟨buff, s⟩ h1
  obtain ⟨n, hn, hn1, hn2⟩ : ∃ n : Nat, (if (2 * (l : Int)) < 16 then (16 : Int) else 2 * l) = n ∧ n ≤ 1000000000 ∧ 0 < n := by
    split
    · exact ⟨16, rfl, by omega, by omega⟩
    · exact ⟨2 * l, by omega, by omega, by omega⟩
  rw [hn] at h1
  obtain ⟨st1, b, e1, h2, hb1⟩ := DInv.catfLoop t ht (by omega) h n hn1 hn2
  rw [e1] at h1
  have h1 := Except.ok.inj h1
  have e2 := congrArg Prod.fst h1
  have e3 := congrArg Prod.snd h1
  dsimp only at e2 e3
  subst e2 e3
  refine .bind ((osim_cat _ _).mono fun w hw => ?_) fun s2 _ => .up _
  exact ⟨_, ((h2.lend b).used (by omega) hw).1, Or.inr ⟨_, rfl⟩⟩

end

/-! ### histories -/

theorem recover_ret {x : M DState} {call : OM DState DState} {after : DState → M DState} {Q : DState → Prop} {v v' : DState}
    (h : OSim sup Q x call) (hx : x = .ok v) (hv : after v = .ok v') :
    recover call after = .ok (v', true) ∨ ¬ Plenty sup ∧ ∃ w, Q w ∧ recover call after = (do
      let st ← after w
      .ok (st, false)) := by
  rcases h.cases hx with e | ⟨w, e, hw, hp⟩
  · left
    rw [e]
    show (after v >>= fun st => .ok (st, true)) = _
    rw [hv, bind_ok]
  · right
    exact ⟨hp, w, hw, by rw [e]; rfl⟩

theorem setData_mild (st : DState) (str : Option Ptr) (f : FreeFn) (h : str = none ∨ f ≠ .volatile) :
    dstrSetDataOom sup st str f = up (dstrSetData st str f) := by
  unfold dstrSetData dstrSetDataOom
  cases str with
  | none => rfl
  | some p =>
    dsimp only
    have hf : f ≠ .volatile := by
      rcases h with h | h
      · cases h
      · exact h
    rw [if_neg hf, if_neg hf]
    rfl

theorem set_mild (st : DState) (str : Option Ptr) (f : FreeFn) (h : str = none ∨ f ≠ .volatile) :
    dstrSetOom sup st str f = up (dstrSet st str f) := by
  unfold dstrSet dstrSetOom
  rw [setData_mild st str f h]
  cases h1 : dstrSetData st str f with
  | error e => rfl
  | ok v =>
    rw [bind_ok, show (up (Except.ok v) : OM DState DState) = .ok v from rfl]
    show (up (if st.ds.freeProc ≠ .static ∧ st.ds.data ≠ v.ds.data then v.release st.ds.freeProc st.ds.data else .ok v) >>=
      fun st => up (dstrFreeAppend st)) = _
    dsimp only
    by_cases hc : st.ds.freeProc ≠ .static ∧ st.ds.data ≠ v.ds.data
    · rw [if_pos hc, if_pos hc]
      cases v.release st.ds.freeProc st.ds.data <;> rfl
    · rw [if_neg hc, if_neg hc]
      rfl

theorem recover_up {x : M DState} {v : DState} (hx : x = .ok v) : recover (up x) .ok = .ok (v, true) := by
  rw [hx]; rfl

theorem DInv.attempt_catf {base : Heap} {st : DState} {text : CStr} {S : List (Nat × List Byte)} {cus : List (Nat × CStr)}
    (h : DInv base st text S cus) (sup : Supply) {l : Nat} {t : CStr} (hc : '\x00' ∉ t)
    (hb : text.length + t.length ≤ 500000000) (hl : l ≤ 500000000) :
    (∃ st' S', (DCmd.catf (some l) t).attempt sup st = .ok (st', true) ∧ (DCmd.catf (some l) t).exec st = .ok st' ∧
      DInv base st' ((DCmd.catf (some l) t).after text) S' (cus ++ (DCmd.catf (some l) t).custom) ∧
      S'.map (·.2) = S.map (·.2) ++ (DCmd.catf (some l) t).static.map strBytes) ∨
    (∃ st' S' lost, ¬ Plenty sup ∧ (DCmd.catf (some l) t).attempt sup st = .ok (st', false) ∧ DInv base st' text S' cus ∧
      S'.map (·.2) = S.map (·.2) ++ lost ∧ lost.length ≤ 1 ∧
      ((∀ l' t', DCmd.catf (some l) t ≠ .catf l' t') → lost = [])) := by
  obtain ⟨st0, e0, h0⟩ := h.catf hc hb hl
  rcases recover_ret (sup := sup) (after := .ok) (osim_catf_inv h hc (by omega) (l := l) (by omega)) e0 rfl with
    r | ⟨hp, w, ⟨S', hw, hS⟩, r⟩
  · exact Or.inl ⟨st0, S, r, e0, by simpa [DCmd.custom, DCmd.after] using h0, by simp [DCmd.static]⟩
  · rw [bind_ok] at r
    rcases hS with rfl | ⟨e, rfl⟩
    · exact Or.inr ⟨w, S', [], hp, r, hw, by simp, by simp, fun _ => rfl⟩
    · exact Or.inr ⟨w, _, [e.2], hp, r, hw, by simp, by simp, fun hn => absurd rfl (hn _ _)⟩

/-- One call. -/
theorem DInv.attempt {base : Heap} {st : DState} {text : CStr} {S : List (Nat × List Byte)} {cus : List (Nat × CStr)}
    (h : DInv base st text S cus) (sup : Supply) (c : DCmd) (hc : c.Proper) (hb : text.length + c.size ≤ 500000000) :
    (∃ st' S', c.attempt sup st = .ok (st', true) ∧ c.exec st = .ok st' ∧ DInv base st' (c.after text) S' (cus ++ c.custom) ∧
      S'.map (·.2) = S.map (·.2) ++ c.static.map strBytes) ∨
    (∃ st' S' lost, ¬ Plenty sup ∧ c.attempt sup st = .ok (st', false) ∧ DInv base st' text S' cus ∧
      S'.map (·.2) = S.map (·.2) ++ lost ∧ lost.length ≤ 1 ∧ ((∀ l t, c ≠ .catf l t) → lost = [])) := by
  obtain ⟨st0, S0, e0, h0, hS0⟩ := h.exec c hc hb
  cases c with
  | setNull =>
    refine Or.inl ⟨st0, S0, ?_, e0, h0, hS0⟩
    show recover (dstrSetOom sup st none .static) .ok = _
    rw [set_mild _ _ _ (Or.inl rfl)]
    exact recover_up e0
  | setVolatile s =>
    simp only [DCmd.Proper, DCmd.size] at hc hb
    have h1 := h.lend (strBytes s)
    have hcs : (DState.mk (st.heap ++ [some (strBytes s)]) st.ds st.log).cstr ⟨.blk st.heap.length, 0⟩ = .ok s := by
      rw [cstr_blk (b := strBytes s) (by dsimp only; rw [get_snoc, if_pos rfl]), scanStr_strBytes hc]
    obtain ⟨st', e, h', hd⟩ := h1.setCopy hcs hc (by omega) (by simp)
    obtain ⟨st2, e2, h2, -⟩ := h'.unlend (hd (st.heap.length, strBytes s) (by simp))
    rcases recover_ret (sup := sup) (after := fun st1 => st1.free ⟨.blk st.heap.length, 0⟩) (osim_set _ _ _) e e2 with r | ⟨hp, w, hw, r⟩
    · refine Or.inl ⟨st0, S0, ?_, e0, h0, hS0⟩
      have : DCmd.exec st (.setVolatile s) = .ok st2 := by
        unfold DCmd.exec DState.malloc
        dsimp only
        rw [e, bind_ok]
        exact e2
      rw [this] at e0
      cases e0
      exact r
    · subst hw
      obtain ⟨st3, e3, h3, -⟩ := h1.unlend h.data_ne
      rw [e3, bind_ok] at r
      exact Or.inr ⟨st3, S, [], hp, r, h3, by simp, by simp, fun _ => rfl⟩
  | setStatic s =>
    refine Or.inl ⟨st0, S0, ?_, e0, h0, hS0⟩
    show recover (dstrSetOom sup _ _ .static) .ok = _
    rw [set_mild _ _ _ (Or.inr (by simp))]
    exact recover_up e0
  | setDynamic s =>
    refine Or.inl ⟨st0, S0, ?_, e0, h0, hS0⟩
    show recover (dstrSetOom sup _ _ .dynamic) .ok = _
    rw [set_mild _ _ _ (Or.inr (by simp))]
    exact recover_up e0
  | setCustom k s =>
    refine Or.inl ⟨st0, S0, ?_, e0, h0, hS0⟩
    show recover (dstrSetOom sup _ _ (.custom k)) .ok = _
    rw [set_mild _ _ _ (Or.inr (by simp))]
    exact recover_up e0
  | cat s =>
    simp only [DCmd.Proper, DCmd.size] at hc hb
    have h1 := h.lend (strBytes s)
    obtain ⟨st', e, h', hd⟩ := h1.cat (t := st.heap.length) (b := strBytes s) (by simp)
      (scanStr_strBytes hc) hc (by omega)
    obtain ⟨st2, e2, h2, -⟩ := h'.unlend (hd (st.heap.length, strBytes s) (by simp))
    rcases recover_ret (sup := sup) (after := fun st1 => st1.free ⟨.blk st.heap.length, 0⟩) (osim_cat _ _) e e2 with r | ⟨hp, w, hw, r⟩
    · refine Or.inl ⟨st0, S0, ?_, e0, h0, hS0⟩
      have : DCmd.exec st (.cat s) = .ok st2 := by
        unfold DCmd.exec DState.malloc
        dsimp only
        rw [e, bind_ok]
        exact e2
      rw [this] at e0
      cases e0
      exact r
    · obtain ⟨h3, hdat⟩ := h1.used (by omega) hw
      obtain ⟨st3, e3, h4, -⟩ := h3.unlend (by rw [hdat]; exact h.data_ne)
      rw [e3, bind_ok] at r
      exact Or.inr ⟨st3, S, [], hp, r, h4, by simp, by simp, fun _ => rfl⟩
  | catc c =>
    simp only [DCmd.Proper, DCmd.size] at hc hb
    rcases recover_ret (sup := sup) (after := .ok) (osim_catc st c) e0 rfl with r | ⟨hp, w, hw, r⟩
    · exact Or.inl ⟨st0, S0, r, e0, h0, hS0⟩
    · rw [bind_ok] at r
      exact Or.inr ⟨w, S, [], hp, r, (h.used (by omega) hw).1, by simp, by simp, fun _ => rfl⟩
  | catf l t =>
    simp only [DCmd.Proper, DCmd.size] at hc hb
    cases l with
    | none => exact Or.inl ⟨st0, S0, recover_up e0, e0, h0, hS0⟩
    | some l =>
      simp only [Option.getD] at hb
      exact h.attempt_catf sup hc (by omega) (by omega)
  | reset => exact Or.inl ⟨st0, S0, recover_up e0, e0, h0, hS0⟩

theorem DInv.attemptAll {base : Heap} : ∀ (hist : List (Supply × DCmd)) {st : DState} {text : CStr}
    {S : List (Nat × List Byte)} {cus : List (Nat × CStr)}, DInv base st text S cus → (∀ e ∈ hist, e.2.Proper) →
    text.length + (hist.map fun e => e.2.size).sum ≤ 500000000 →
    ∃ st' bs S' lost, Spec.attemptAll st hist = .ok (st', bs) ∧ bs.length = hist.length ∧
      (∀ (i : Nat) e, hist[i]? = some e → Plenty e.1 → bs[i]? = some true) ∧
      DInv base st' ((returned hist bs).foldl DCmd.after text) S' (cus ++ (returned hist bs).flatMap DCmd.custom) ∧
      (S'.map (·.2)).Perm (S.map (·.2) ++ ((returned hist bs).flatMap DCmd.static).map strBytes ++ lost) ∧
      lost.length ≤ brokenOff hist bs := by
  intro hist
  induction hist with
  | nil =>
    intro st text S cus h _ _
    exact ⟨st, [], S, [], rfl, rfl, by simp, by simpa [returned] using h, by simp [returned], by simp⟩
  | cons e hist ih =>
    obtain ⟨sup, c⟩ := e
    intro st text S cus h hp hb
    simp only [List.map_cons, List.sum_cons] at hb
    have hc := hp (sup, c) (by simp)
    rcases h.attempt sup c hc (by omega) with ⟨st1, S1, e1, -, h1, hs1⟩ | ⟨st1, S1, lost1, hpl, e1, h1, hs1, hl1, hl2⟩
    · have := after_length text c
      obtain ⟨st2, bs, S2, lost, e2, hlen, hpl, h2, hs2, hl⟩ := ih h1 (fun c hc => hp c (by simp [hc])) (by omega)
      refine ⟨st2, true :: bs, S2, lost, ?_, by simp [hlen], ?_, ?_, ?_, ?_⟩
      · unfold Spec.attemptAll
        rw [e1, bind_ok]
        dsimp only
        rw [e2, bind_ok]
      · intro i e he hpe
        cases i with
        | zero => rfl
        | succ i => exact hpl i e (by simpa using he) hpe
      · simpa [returned, List.flatMap_cons] using h2
      · refine hs2.trans ?_
        rw [hs1]
        simp [returned, List.flatMap_cons]
      · cases c <;> simpa [brokenOff] using hl
    · obtain ⟨st2, bs, S2, lost, e2, hlen, hpl', h2, hs2, hl⟩ := ih h1 (fun c hc => hp c (by simp [hc])) (by omega)
      refine ⟨st2, false :: bs, S2, lost1 ++ lost, ?_, by simp [hlen], ?_, ?_, ?_, ?_⟩
      · unfold Spec.attemptAll
        rw [e1, bind_ok]
        dsimp only
        rw [e2, bind_ok]
      · intro i e he hpe
        cases i with
        | zero => cases he; exact absurd hpe hpl
        | succ i => exact hpl' i e (by simpa using he) hpe
      · simpa [returned] using h2
      · refine hs2.trans ?_
        rw [hs1]
        simp only [returned, List.append_assoc]
        refine List.Perm.append_left _ ?_
        rw [← List.append_assoc, ← List.append_assoc]
        exact List.Perm.append_right _ List.perm_append_comm
      · cases c with
        | catf l t => simp only [brokenOff, List.length_append]; omega
        | _ =>
          have : lost1 = [] := hl2 (by simp)
          subst this
          simpa [brokenOff] using hl

/-! ### printing -/

theorem untilShort_of {base : Heap} {sup : Supply} {cmds : List DCmd} {text : CStr} (ha : Appending cmds text) :
    '\x00' ∉ text → ∀ {st : DState} {t : CStr} {S : List (Nat × List Byte)} {cus : List (Nat × CStr)},
    DInv base st t S cus → t.length + text.length ≤ 500000000 →
    (∃ st' S', untilShort sup st cmds = .ok (st', true) ∧ execAll st cmds = .ok st' ∧ DInv base st' (t ++ text) S' cus ∧
      S'.map (·.2) = S.map (·.2)) ∨
    (¬ Plenty sup ∧ ∃ st' S' lost part rest, untilShort sup st cmds = .ok (st', false) ∧ text = part ++ rest ∧
      DInv base st' (t ++ part) S' cus ∧ S'.map (·.2) = S.map (·.2) ++ lost ∧ lost.length ≤ 1) := by
  have step : ∀ (c : DCmd) (s : CStr) (cmds : List DCmd) (text t : CStr) (st : DState) (S : List (Nat × List Byte))
      (cus : List (Nat × CStr)), c.after t = t ++ s → c.custom = [] → c.static = [] →
      t.length + (s.length + text.length) ≤ 500000000 →
      ((∃ st' S', c.attempt sup st = .ok (st', true) ∧ c.exec st = .ok st' ∧ DInv base st' (c.after t) S' (cus ++ c.custom) ∧
        S'.map (·.2) = S.map (·.2) ++ c.static.map strBytes) ∨
      (∃ st' S' lost, ¬ Plenty sup ∧ c.attempt sup st = .ok (st', false) ∧ DInv base st' t S' cus ∧
        S'.map (·.2) = S.map (·.2) ++ lost ∧ lost.length ≤ 1 ∧ ((∀ l t, c ≠ .catf l t) → lost = []))) →
      (∀ {st : DState} {t : CStr} {S : List (Nat × List Byte)} {cus : List (Nat × CStr)},
        DInv base st t S cus → t.length + text.length ≤ 500000000 →
        (∃ st' S', untilShort sup st cmds = .ok (st', true) ∧ execAll st cmds = .ok st' ∧ DInv base st' (t ++ text) S' cus ∧
          S'.map (·.2) = S.map (·.2)) ∨
        (¬ Plenty sup ∧ ∃ st' S' lost part rest, untilShort sup st cmds = .ok (st', false) ∧ text = part ++ rest ∧
          DInv base st' (t ++ part) S' cus ∧ S'.map (·.2) = S.map (·.2) ++ lost ∧ lost.length ≤ 1)) →
      (∃ st' S', untilShort sup st (c :: cmds) = .ok (st', true) ∧ execAll st (c :: cmds) = .ok st' ∧
        DInv base st' (t ++ (s ++ text)) S' cus ∧ S'.map (·.2) = S.map (·.2)) ∨
      (¬ Plenty sup ∧ ∃ st' S' lost part rest, untilShort sup st (c :: cmds) = .ok (st', false) ∧
        s ++ text = part ++ rest ∧ DInv base st' (t ++ part) S' cus ∧ S'.map (·.2) = S.map (·.2) ++ lost ∧
        lost.length ≤ 1) := by
    intro c s cmds text t st S cus h1 h2 h3 hl hstep ih
    rcases hstep with ⟨st1, S1, e1, x1, g1, hs1⟩ | ⟨st1, S1, lost1, hpl, e1, g1, hs1, hl1, -⟩
    · rw [h1, h2, List.append_nil] at g1
      rw [h3, List.map_nil, List.append_nil] at hs1
      rcases ih g1 (by simp only [List.length_append]; omega) with ⟨st2, S2, e2, x2, g2, hs2⟩ | ⟨hpl, st2, S2, lost, part, rest, e2, he, g2, hs2, hl2⟩
      · refine Or.inl ⟨st2, S2, ?_, ?_, by simpa using g2, by rw [hs2, hs1]⟩
        · unfold untilShort
          rw [e1, bind_ok]
          dsimp only
          rw [if_pos rfl]
          exact e2
        · unfold execAll
          rw [x1, bind_ok]
          exact x2
      · refine Or.inr ⟨hpl, st2, S2, lost, s ++ part, rest, ?_, by rw [he]; simp, by simpa using g2, by rw [hs2, hs1], hl2⟩
        unfold untilShort
        rw [e1, bind_ok]
        dsimp only
        rw [if_pos rfl]
        exact e2
    · refine Or.inr ⟨hpl, st1, S1, lost1, [], s ++ text, ?_, by simp, by simpa using g1, hs1, hl1⟩
      unfold untilShort
      rw [e1, bind_ok]
      rfl
  induction ha with
  | nil =>
    intro _ st t S cus h _
    exact Or.inl ⟨st, S, rfl, rfl, by simpa using h, rfl⟩
  | @cat s cmds text _ ih =>
    intro hn st t S cus h hl
    simp only [List.mem_append, not_or, List.length_append] at hn hl
    exact step (.cat s) s cmds text t st S cus rfl rfl rfl hl
      (h.attempt sup (.cat s) hn.1 (by simp only [DCmd.size]; omega)) (ih hn.2)
  | @catc c cmds text _ ih =>
    intro hn st t S cus h hl
    simp only [List.mem_cons, not_or, List.length_cons] at hn hl
    exact step (.catc c) [c] cmds text t st S cus rfl rfl rfl (by simp only [List.length_cons, List.length_nil]; omega)
      (h.attempt sup (.catc c) (fun e => hn.1 e.symm) (by simp only [DCmd.size]; omega)) (ih hn.2)
  | @catf l s cmds text hf _ ih =>
    intro hn st t S cus h hl
    simp only [List.mem_append, not_or, List.length_append] at hn hl
    exact step (.catf (some l) s) s cmds text t st S cus rfl rfl rfl hl
      (h.attempt_catf sup hn.1 (by omega) hf) (ih hn.2)

theorem liveBlocks_set (heap : Heap) (a : Nat) : (liveBlocks heap).length ≤ (liveBlocks (heap.set a none)).length + 1 := by
  unfold liveBlocks
  induction heap generalizing a with
  | nil => simp
  | cons x heap ih =>
    cases a with
    | zero =>
      rw [List.set_cons_zero]
      cases x <;> simp
    | succ a =>
      rw [List.set_cons_succ]
      have := ih a
      cases x with
      | none => simpa using this
      | some b => simp at this ⊢; omega

theorem liveBlocks_kill : ∀ (O : List Nat) (heap : Heap),
    (liveBlocks heap).length ≤ (liveBlocks (kill heap O)).length + O.length := by
  intro O
  induction O with
  | nil => intro heap; simp [kill]
  | cons a O ih =>
    intro heap
    have h1 := liveBlocks_set heap a
    have h2 := ih (heap.set a none)
    simp only [kill, List.length_cons]
    omega

theorem DInv.live_le {base : Heap} {st : DState} {text : CStr} {S : List (Nat × List Byte)} {cus : List (Nat × CStr)}
    (h : DInv base st text S cus) : (liveBlocks st.heap).length ≤ (liveBlocks base).length + S.length + 1 := by
  obtain ⟨-, -, O, pend, hh, hm, -⟩ := h
  have h1 := hh
  rw [← List.append_nil O] at h1
  have h2 := congrArg List.length h1.kill.liveBlocks
  rw [List.length_append, List.length_map] at h2
  have h3 := liveBlocks_kill O st.heap
  have h4 : O.length ≤ 1 := by cases hm <;> simp
  omega

theorem DInv.live_frame {base : Heap} {st : DState} {text : CStr} {S : List (Nat × List Byte)} {cus : List (Nat × CStr)}
    (h : DInv base st text S cus) : ∀ a, a < base.length → st.heap[a]? = base[a]? := by
  obtain ⟨-, -, O, pend, hh, -, -⟩ := h
  exact hh.frame

end Argtable
