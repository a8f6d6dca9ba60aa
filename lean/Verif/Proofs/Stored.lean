import Verif.Spec.Stored
import Verif.Proofs.Operands
import Verif.Proofs.Scan
import Verif.Proofs.DateRange
import Verif.Proofs.RegexMatch
/-!
# What entries hold after a command line (C56)
-/

namespace Argtable

open Spec

variable {δ : Type} {lc : Libc δ} {R : CStr → Prop}

/-! ### arrays -/

section
variable {β : Type} {Val : β → CStr → β → Prop} {args : List (Option CStr)} {c0 c : List β}

theorem Spec.Cells.nil : Cells Val [] c0 c0 where
  room := Nat.zero_le _
  length := rfl
  text := fun j a h => by simp at h
  other := fun j _ => rfl

theorem Spec.Cells.next (hc : Cells Val args c0 c) : c[args.length]? = c0[args.length]? :=
  hc.other _ fun a => by simp

theorem Spec.Cells.pad (hc : Cells Val args c0 c) (hr : args.length < c0.length) : Cells Val (args ++ [none]) c0 c where
  room := by rw [List.length_append]; exact hr
  length := hc.length
  text := fun j a h => by
    rw [List.getElem?_append] at h
    split at h
    · exact hc.text j a h
    · rename_i hj
      cases hk : j - args.length with
      | zero => rw [hk] at h; cases h
      | succ k => rw [hk] at h; cases h
  other := fun j hj => by
    refine hc.other j fun a h => hj a ?_
    have hlt : j < args.length := (List.getElem?_eq_some_iff.1 h).1
    rw [List.getElem?_append_left hlt, h]

theorem Spec.Cells.put (hc : Cells Val args c0 c) {v0 v : β} {a : CStr} (h0 : c[args.length]? = some v0) (hv : Val v0 a v) :
    Cells Val (args ++ [some a]) c0 (c.set args.length v) where
  room := by
    have := (List.getElem?_eq_some_iff.1 h0).1
    have := hc.length
    simp; omega
  length := by simpa using hc.length
  text := fun j b h => by
    rw [List.getElem?_append] at h
    split at h
    · rename_i hj
      obtain ⟨w0, w, h1, h2, h3⟩ := hc.text j b h
      exact ⟨w0, w, h1, by rw [List.getElem?_set_ne (by omega)]; exact h2, h3⟩
    · rename_i hj
      cases hk : j - args.length with
      | succ k => rw [hk] at h; cases h
      | zero =>
        rw [hk] at h
        cases h
        have hj : j = args.length := by omega
        subst hj
        have hlt := (List.getElem?_eq_some_iff.1 h0).1
        exact ⟨v0, v, by rw [← hc.next]; exact h0, by simp [hlt], hv⟩
  other := fun j hj => by
    have hne : args.length ≠ j := by
      rintro rfl
      exact hj a (by simp)
    rw [List.getElem?_set_ne hne]
    refine hc.other j fun b h => hj b ?_
    have hlt : j < args.length := (List.getElem?_eq_some_iff.1 h).1
    rw [List.getElem?_append_left hlt, h]
end

theorem strClear_emptied : ∀ (n : Nat) (l : List CStr), n ≤ l.length → strClear n l = .ok (emptied n l) := by
  intro n
  induction n with
  | zero => intro l _; simp [strClear, emptied]
  | succ n ih =>
    intro l h
    have hl : (emptied n l).length = l.length := by unfold emptied; simp; omega
    simp only [strClear, ih l (by omega), bind_ok]
    rw [storeAt_ok (by omega)]
    congr 1
    unfold emptied
    rw [List.set_append_right _ _ (by simp), List.length_replicate, Nat.sub_self, List.drop_eq_getElem_cons (by omega : n < l.length)]
    rw [List.set_cons_zero, List.replicate_succ', List.append_assoc]
    rfl

/-! ### one accepted argument -/

section
variable {mx : Int} {args : List (Option CStr)} {a : Option CStr}

theorem intScan_cells {c0 : List (Option Int)} {o q : IntObj} (hm : (c0.length : Int) = mx) (hn : o.count = args.length)
    (hc : Cells IntVal args c0 o.ival) (h : intScan mx o a = .ok (q, 0)) :
    q.count = (args ++ [a]).length ∧ Cells IntVal (args ++ [a]) c0 q.ival := by
  have hr := hc.room
  have hlen := hc.length
  have hne : ¬ (o.count : Int) = mx := by
    intro e
    rw [intScan.eq_def, if_pos e] at h
    cases h
  have hroom : (o.count : Int) < mx := by omega
  cases a with
  | none =>
    rw [intScan.eq_def, if_neg hne] at h
    cases h
    exact ⟨by simp [hn], hc.pad (by omega)⟩
  | some s =>
    obtain ⟨h1, h2, h3⟩ := intScan_full hroom (by omega) s
    by_cases hd : DoubleMinus s
    · rw [h1 hd] at h; cases h
    by_cases hx : ∃ n, LooseText s n
    · obtain ⟨n, hx⟩ := hx
      obtain ⟨h4, h5⟩ := h2 hd n hx
      by_cases hf : FitsInt n
      · rw [h4 hf] at h
        cases h
        obtain ⟨v0, hv0⟩ : ∃ v0, o.ival[args.length]? = some v0 := ⟨_, List.getElem?_eq_getElem (by omega)⟩
        refine ⟨by simp [hn], ?_⟩
        have := hc.put (a := s) (v := some n) hv0 ⟨n, hx, hf, rfl⟩
        rw [hn]
        exact this
      · rw [h5 hf] at h
        exact absurd (congrArg Prod.snd (Except.ok.inj h)) (by change ¬ (4 : Int) = 0; decide)
    · rw [h3 hd fun n h => hx ⟨n, h⟩] at h
      exact absurd (congrArg Prod.snd (Except.ok.inj h)) (by change ¬ (3 : Int) = 0; decide)

theorem dblScan_cells {c0 : List (Option δ)} {o q : DblObj δ} (hm : (c0.length : Int) = mx) (hn : o.count = args.length)
    (hc : Cells (DblVal lc) args c0 o.dval) (h : dblScan lc.strtod mx o a = .ok (q, 0)) :
    q.count = (args ++ [a]).length ∧ Cells (DblVal lc) (args ++ [a]) c0 q.dval := by
  have hr := hc.room
  have hlen := hc.length
  unfold dblScan at h
  split at h
  · cases h
  cases a with
  | none =>
    cases h
    exact ⟨by simp [hn], hc.pad (by omega)⟩
  | some s =>
    dsimp only at h
    split at h
    · rename_i he
      rw [storeAt_ok (by omega), bind_ok] at h
      cases h
      obtain ⟨v0, hv0⟩ : ∃ v0, o.dval[args.length]? = some v0 := ⟨_, List.getElem?_eq_getElem (by omega)⟩
      refine ⟨by simp [hn], ?_⟩
      dsimp only
      rw [hn]
      exact hc.put hv0 ⟨he, rfl⟩
    · cases h

theorem strScan_cells {c0 : List CStr} {o q : StrObj} (hm : (c0.length : Int) = mx) (hn : o.count = args.length)
    (hc : Cells StrVal args c0 o.sval) (h : strScan mx o a = .ok (q, 0)) :
    q.count = (args ++ [a]).length ∧ Cells StrVal (args ++ [a]) c0 q.sval := by
  have hr := hc.room
  have hlen := hc.length
  unfold strScan at h
  split at h
  · cases h
  cases a with
  | none =>
    cases h
    exact ⟨by simp [hn], hc.pad (by omega)⟩
  | some s =>
    dsimp only at h
    rw [storeAt_ok (by omega), bind_ok] at h
    cases h
    obtain ⟨v0, hv0⟩ : ∃ v0, o.sval[args.length]? = some v0 := ⟨_, List.getElem?_eq_getElem (by omega)⟩
    refine ⟨by simp [hn], ?_⟩
    dsimp only
    rw [hn]
    exact hc.put hv0 rfl

theorem fileScan_cells {c0 c1 c2 : List CStr} {o q : FileObj} (hm : (c0.length : Int) = mx) (hm1 : (c1.length : Int) = mx)
    (hm2 : (c2.length : Int) = mx) (hn : o.count = args.length)
    (hc : Cells StrVal args c0 o.filename) (hc1 : Cells (fun _ a v => BaseName a v) args c1 o.basename)
    (hc2 : Cells (fun _ a v => ∃ b, BaseName a b ∧ ExtName b v) args c2 o.extension) (h : fileScan mx o a = .ok (q, 0)) :
    q.count = (args ++ [a]).length ∧ Cells StrVal (args ++ [a]) c0 q.filename ∧
    Cells (fun _ a v => BaseName a v) (args ++ [a]) c1 q.basename ∧
    Cells (fun _ a v => ∃ b, BaseName a b ∧ ExtName b v) (args ++ [a]) c2 q.extension := by
  have hr := hc.room
  have l0 := hc.length
  have l1 := hc1.length
  have l2 := hc2.length
  unfold fileScan at h
  split at h
  · cases h
  cases a with
  | none =>
    cases h
    exact ⟨by simp [hn], hc.pad (by omega), hc1.pad (by omega), hc2.pad (by omega)⟩
  | some s =>
    dsimp only at h
    rw [storeAt_ok (by omega), bind_ok, storeAt_ok (by omega), bind_ok, storeAt_ok (by omega), bind_ok] at h
    cases h
    obtain ⟨v0, hv0⟩ : ∃ v0, o.filename[args.length]? = some v0 := ⟨_, List.getElem?_eq_getElem (by omega)⟩
    obtain ⟨v1, hv1⟩ : ∃ v0, o.basename[args.length]? = some v0 := ⟨_, List.getElem?_eq_getElem (by omega)⟩
    obtain ⟨v2, hv2⟩ : ∃ v0, o.extension[args.length]? = some v0 := ⟨_, List.getElem?_eq_getElem (by omega)⟩
    refine ⟨by simp [hn], ?_⟩
    dsimp only
    rw [hn]
    exact ⟨hc.put hv0 rfl, hc1.put hv1 (argBasename_spec s), hc2.put hv2 ⟨_, argBasename_spec s, argExtension_spec _⟩⟩

theorem dateScan_cells {fmt : CStr} {c0 : List Tm} {o q : DateObj} (hm : (c0.length : Int) = mx) (hn : o.count = args.length)
    (hc : Cells (DateVal fmt) args c0 o.tmval) (h : dateScan fmt mx o a = .ok (q, 0)) :
    q.count = (args ++ [a]).length ∧ Cells (DateVal fmt) (args ++ [a]) c0 q.tmval := by
  have hr := hc.room
  have hlen := hc.length
  unfold dateScan at h
  split at h
  · cases h
  cases a with
  | none =>
    cases h
    exact ⟨by simp [hn], hc.pad (by omega)⟩
  | some s =>
    dsimp only at h
    obtain ⟨v0, hv0⟩ : ∃ v0, o.tmval[o.count]? = some v0 := ⟨_, List.getElem?_eq_getElem (by omega)⟩
    rw [hv0] at h
    dsimp only at h
    split at h
    · rename_i tm htm
      rw [storeAt_ok (by omega), bind_ok] at h
      cases h
      refine ⟨by simp [hn], ?_⟩
      dsimp only
      rw [hn] at hv0 ⊢
      exact hc.put hv0 ((strptime_iff fmt s [] v0 tm).1 htm)
    · cases h

theorem rexScan_cells {pat : CStr} {ic : Bool} {c0 : List CStr} {o q : StrObj} (hm : (c0.length : Int) = mx)
    (hn : o.count = args.length) (hc : Cells (RexVal pat ic) args c0 o.sval) (h : rexScan pat ic mx o a = .ok (q, 0)) :
    q.count = (args ++ [a]).length ∧ Cells (RexVal pat ic) (args ++ [a]) c0 q.sval := by
  have hr := hc.room
  have hlen := hc.length
  unfold rexScan at h
  split at h
  · cases h
  cases a with
  | none =>
    cases h
    exact ⟨by simp [hn], hc.pad (by omega)⟩
  | some s =>
    dsimp only at h
    obtain ⟨c, h3, h4⟩ := bind_some_ok h
    cases c with
    | none => cases h4
    | some nodes =>
      dsimp only at h4
      obtain ⟨b, h5, h6⟩ := bind_some_ok h4
      cases b with
      | false => cases h6
      | true =>
        rw [if_pos rfl, storeAt_ok (by omega), bind_ok] at h6
        cases h6
        obtain ⟨v0, hv0⟩ : ∃ v0, o.sval[args.length]? = some v0 := ⟨_, List.getElem?_eq_getElem (by omega)⟩
        refine ⟨by simp [hn], ?_⟩
        dsimp only
        rw [hn]
        refine hc.put hv0 ⟨rfl, ?_⟩
        rintro r rfl hok
        exact rexMatch_sound hok h3 h5
end

/-! ### entries -/

theorem scan_pair {α β : Type} {x : M (α × Int)} {g : α → β} {p : β}
    (h : (x >>= fun q => .ok (g q.1, q.2)) = (.ok (p, 0) : M (β × Int))) : ∃ q, x = .ok (q, 0) ∧ p = g q := by
  cases x with
  | error e => cases h
  | ok w =>
    have := Except.ok.inj h
    have h1 : g w.1 = p := congrArg Prod.fst this
    have h2 : w.2 = 0 := congrArg Prod.snd this
    exact ⟨w.1, by rw [← h2], h1.symm⟩

/-- Before the first argument: after the reset. -/
theorem stores_reset {h : Hdr (Obj δ)} (hl : Live lc R h) {p : Obj δ}
    (hp : (match h.resetfn with | none => .ok h.parent | some f => f h.parent) = (.ok p : M (Obj δ))) :
    Stores lc h [] p := by
  cases hl with
  | lit so lo mn mx gl ov c hc => cases hp; exact .lit rfl
  | int so lo dt mn mx gl h ov o hh hc hl =>
    obtain ⟨-, -, -, -, -, -, -, -, -, hr, -⟩ := argIntn_inv hh
    dsimp only at hp
    rw [hr] at hp
    cases hp
    exact .int rfl rfl .nil
  | dbl ad so lo dt mn mx gl h ov o hh hc hl =>
    obtain ⟨-, -, -, -, -, -, -, -, -, hr, -⟩ := argDbln_inv hh
    dsimp only at hp
    rw [hr] at hp
    cases hp
    exact .dbl rfl rfl .nil
  | str so lo dt mn mx gl h ov o hh hc hl =>
    obtain ⟨-, -, -, -, -, -, -, -, -, hr, -⟩ := argStrn_inv hh
    dsimp only at hp
    rw [hr] at hp
    dsimp only at hp
    rw [strReset, strClear_emptied _ _ (by omega), bind_ok, bind_ok] at hp
    cases hp
    exact .str rfl rfl .nil
  | file so lo dt mn mx gl h ov o hh hc h1 h2 h3 =>
    obtain ⟨-, -, -, -, -, -, -, -, -, hr, -⟩ := argFilen_inv hh
    dsimp only at hp
    rw [hr] at hp
    cases hp
    exact .file rfl rfl .nil .nil .nil
  | date so lo fm dt mn mx gl h ov o hh hc hl =>
    obtain ⟨-, -, -, -, -, -, -, -, -, hr, -⟩ := argDaten_inv hh
    dsimp only at hp
    rw [hr] at hp
    cases hp
    exact .date (.mk so lo fm dt mn mx gl h ov o hh hc hl) rfl .nil
  | rex so lo pat dt mn mx ic gl h ov o hh hp' hc hl =>
    obtain ⟨-, -, -, -, -, -, -, -, -, hr, -⟩ := argRexn_inv hh
    dsimp only at hp
    rw [hr] at hp
    cases hp
    exact .rex (.mk so lo pat dt mn mx ic gl h ov o hh hc hl) rfl .nil
  | rem dt gl => cases hp; exact .rem rfl

/-- One accepted argument. -/
theorem stores_step {h : Hdr (Obj δ)} (hl : Live lc R h) {f : Obj δ → Option CStr → M (Obj δ × Int)}
    (hf : h.scanfn = some f) {args : List (Option CStr)} {p q : Obj δ} (hs : Stores lc h args p) {a : Option CStr}
    (hq : f p a = .ok (q, 0)) : Stores lc h (args ++ [a]) q := by
  cases hl with
  | lit so lo mn mx gl ov c hc =>
    cases hf
    cases hs with
    | lit h0 =>
      dsimp only at hq
      unfold litScan at hq
      split at hq
      · cases hq
        have := Stores.lit (lc := lc) (args := args ++ [a]) h0
        rw [List.length_append] at this
        exact this
      · cases hq
    | int h0 => cases h0
    | dbl h0 => cases h0
    | str h0 => cases h0
    | file h0 => cases h0
    | date h0 => obtain ⟨-, -, h1, -⟩ := give_date h0; cases h1
    | rex h0 => obtain ⟨-, -, h1, -⟩ := give_rex h0; cases h1
    | rem h0 => cases h0
  | int so lo dt mn mx gl h ov o hh hc hl =>
    obtain ⟨hm, -, -, -, -, -, -, -, -, -, hsc⟩ := argIntn_inv hh
    cases hsc.symm.trans hf
    cases hs with
    | int h0 h1 h2 =>
      cases h0
      obtain ⟨w, h3, rfl⟩ := scan_pair hq
      obtain ⟨h4, h5⟩ := intScan_cells (by rw [hl, hm]) h1 h2 h3
      exact .int rfl h4 h5
    | lit h0 => cases h0
    | dbl h0 => cases h0
    | str h0 => cases h0
    | file h0 => cases h0
    | date h0 => obtain ⟨-, -, h1, -⟩ := give_date h0; cases h1
    | rex h0 => obtain ⟨-, -, h1, -⟩ := give_rex h0; cases h1
    | rem h0 => cases h0
  | dbl ad so lo dt mn mx gl h ov o hh hc hl =>
    obtain ⟨hm, -, -, -, -, -, -, -, -, -, hsc⟩ := argDbln_inv hh
    cases hsc.symm.trans hf
    cases hs with
    | dbl h0 h1 h2 =>
      cases h0
      obtain ⟨w, h3, rfl⟩ := scan_pair hq
      obtain ⟨h4, h5⟩ := dblScan_cells (by rw [hl, hm]) h1 h2 h3
      exact .dbl rfl h4 h5
    | lit h0 => cases h0
    | int h0 => cases h0
    | str h0 => cases h0
    | file h0 => cases h0
    | date h0 => obtain ⟨-, -, h1, -⟩ := give_date h0; cases h1
    | rex h0 => obtain ⟨-, -, h1, -⟩ := give_rex h0; cases h1
    | rem h0 => cases h0
  | str so lo dt mn mx gl h ov o hh hc hl =>
    obtain ⟨hm, -, -, -, -, -, -, -, -, -, hsc⟩ := argStrn_inv hh
    cases hsc.symm.trans hf
    cases hs with
    | str h0 h1 h2 =>
      cases h0
      obtain ⟨w, h3, rfl⟩ := scan_pair hq
      obtain ⟨h4, h5⟩ := strScan_cells (by rw [← hm, ← hl]; unfold emptied; simp; omega) h1 h2 h3
      exact .str rfl h4 h5
    | lit h0 => cases h0
    | int h0 => cases h0
    | dbl h0 => cases h0
    | file h0 => cases h0
    | date h0 => obtain ⟨-, -, h1, -⟩ := give_date h0; cases h1
    | rex h0 => obtain ⟨-, -, h1, -⟩ := give_rex h0; cases h1
    | rem h0 => cases h0
  | file so lo dt mn mx gl h ov o hh hc l1 l2 l3 =>
    obtain ⟨hm, -, -, -, -, -, -, -, -, -, hsc⟩ := argFilen_inv hh
    cases hsc.symm.trans hf
    cases hs with
    | file h0 h1 h2 h3 h4 =>
      cases h0
      obtain ⟨w, h5, rfl⟩ := scan_pair hq
      obtain ⟨h6, h7, h8, h9⟩ := fileScan_cells (by rw [l1, hm]) (by rw [l2, hm]) (by rw [l3, hm]) h1 h2 h3 h4 h5
      exact .file rfl h6 h7 h8 h9
    | lit h0 => cases h0
    | int h0 => cases h0
    | dbl h0 => cases h0
    | str h0 => cases h0
    | date h0 => obtain ⟨-, -, h1, -⟩ := give_date h0; cases h1
    | rex h0 => obtain ⟨-, -, h1, -⟩ := give_rex h0; cases h1
    | rem h0 => cases h0
  | date so lo fm dt mn mx gl h ov o hh hc hl =>
    cases hs with
    | @date fmt o0 o' h0 h1 h2 =>
      obtain ⟨l1, -, l3, l4⟩ := give_date h0
      have := l4 o' a
      unfold give at this
      dsimp only at this hf
      rw [hf] at this
      dsimp only at this
      rw [this] at hq
      obtain ⟨w, h3, rfl⟩ := scan_pair hq
      obtain ⟨h4, h5⟩ := dateScan_cells l1 h1 h2 h3
      exact .date h0 h4 h5
    | lit h0 => cases h0
    | int h0 => cases h0
    | dbl h0 => cases h0
    | str h0 => cases h0
    | file h0 => cases h0
    | rex h0 => obtain ⟨-, -, h1, -⟩ := give_rex h0; cases h1
    | rem h0 => cases h0
  | rex so lo pat dt mn mx ic gl h ov o hh hp hc hl =>
    cases hs with
    | @rex pat ic o0 o' h0 h1 h2 =>
      obtain ⟨l1, -, l3, l4⟩ := give_rex h0
      have := l4 o' a
      unfold give at this
      dsimp only at this hf
      rw [hf] at this
      dsimp only at this
      rw [this] at hq
      obtain ⟨w, h3, rfl⟩ := scan_pair hq
      obtain ⟨h4, h5⟩ := rexScan_cells l1 h1 h2 h3
      exact .rex h0 h4 h5
    | lit h0 => cases h0
    | int h0 => cases h0
    | dbl h0 => cases h0
    | str h0 => cases h0
    | file h0 => cases h0
    | date h0 => obtain ⟨-, -, h1, -⟩ := give_date h0; cases h1
    | rem h0 => cases h0
  | rem dt gl => cases hf

theorem stores_free {h : Hdr (Obj δ)} (hl : Live lc R h) (hf : h.scanfn = none) {args : List (Option CStr)}
    {p : Obj δ} (a : Option CStr) (hs : Stores lc h args p) : Stores lc h (args ++ [a]) p := by
  cases hl with
  | rem dt gl =>
    cases hs with
    | rem h0 => exact .rem h0
    | lit h0 => cases h0
    | int h0 => cases h0
    | dbl h0 => cases h0
    | str h0 => cases h0
    | file h0 => cases h0
    | date h0 => obtain ⟨-, -, h1, -⟩ := give_date h0; cases h1
    | rex h0 => obtain ⟨-, -, h1, -⟩ := give_rex h0; cases h1
  | lit so lo mn mx gl ov c hc => cases hf
  | int so lo dt mn mx gl h ov o hh hc hl =>
    obtain ⟨-, -, -, -, -, -, -, -, -, -, hsc⟩ := argIntn_inv hh; cases hsc.symm.trans hf
  | dbl ad so lo dt mn mx gl h ov o hh hc hl =>
    obtain ⟨-, -, -, -, -, -, -, -, -, -, hsc⟩ := argDbln_inv hh; cases hsc.symm.trans hf
  | str so lo dt mn mx gl h ov o hh hc hl =>
    obtain ⟨-, -, -, -, -, -, -, -, -, -, hsc⟩ := argStrn_inv hh; cases hsc.symm.trans hf
  | file so lo dt mn mx gl h ov o hh hc l1 l2 l3 =>
    obtain ⟨-, -, -, -, -, -, -, -, -, -, hsc⟩ := argFilen_inv hh; cases hsc.symm.trans hf
  | date so lo fm dt mn mx gl h ov o hh hc hl =>
    obtain ⟨-, -, -, -, -, -, -, -, -, -, hsc⟩ := argDaten_inv hh; cases hsc.symm.trans hf
  | rex so lo pat dt mn mx ic gl h ov o hh hp hc hl =>
    obtain ⟨-, -, -, -, -, -, -, -, -, -, hsc, -⟩ := argRexn_inv hh; cases hsc.symm.trans hf

/-! ### tables -/

section
variable {σ : Type} {S : Hdr σ → List (Option CStr) → σ → Prop}

/-- Entry `k` is the entry `h` with a new object, after the arguments `args`. -/
def Holding (S : Hdr σ → List (Option CStr) → σ → Prop) (h : Hdr σ) (args : List (Option CStr)) (k : Hdr σ) : Prop :=
  ∃ q, k = { h with parent := q } ∧ S h args q

/-- `S` describes the effect of accepted arguments on the entries `es`; rejected ones have none. -/
structure ScanSteps (S : Hdr σ → List (Option CStr) → σ → Prop) (es : List (Hdr σ)) : Prop where
  step : ∀ h ∈ es, ∀ f, h.scanfn = some f → ∀ args p q a, S h args p → f p a = .ok (q, 0) → S h (args ++ [a]) q
  stay : ∀ h ∈ es, ∀ f, h.scanfn = some f → ∀ p q a c, f p a = .ok (q, c) → c ≠ 0 → q = p
  free : ∀ h ∈ es, h.scanfn = none → ∀ args p a, S h args p → S h (args ++ [a]) p

theorem delivered_append (e1 e2 : List Ev) (i : Nat) : delivered (e1 ++ e2) i = delivered e1 i ++ delivered e2 i := by
  induction e1 with
  | nil => rfl
  | cons e e1 ih =>
    cases e with
    | fail c v => exact ih
    | deliver j a =>
      simp only [List.cons_append, delivered]
      split
      · rw [ih]; rfl
      · exact ih

/-- The state during the deliveries: `dn` are the events so far. -/
structure Delivering (S : Hdr σ → List (Option CStr) → σ → Prop) (es : List (Hdr σ)) (dn : List Ev)
    (s : List (Hdr σ) × List ErrRec) : Prop where
  length : s.1.length = es.length
  entry : ∀ (i : Nat) (h : Hdr σ), es[i]? = some h → ∃ args k, s.1[i]? = some k ∧ Holding S h args k ∧
    args.Sublist (delivered dn i) ∧ (s.2 = [] → args = delivered dn i)
  clean : s.2 = [] → ∀ c v, Ev.fail c v ∉ dn

theorem delivering_step {es : List (Hdr σ)} (hS : ScanSteps S es) {dn : List Ev} {s s' : List (Hdr σ) × List ErrRec}
    (hd : Delivering S es dn s) {ev : Ev} (h : deliver s ev = .ok s') : Delivering S es (dn ++ [ev]) s' := by
  cases ev with
  | fail c v =>
    cases h
    refine ⟨hd.length, fun i h hi => ?_, fun h => by simp at h⟩
    obtain ⟨args, k, h1, h2, h3, -⟩ := hd.entry i h hi
    refine ⟨args, k, h1, h2, ?_, fun h => by simp at h⟩
    rw [delivered_append]
    exact h3.trans (List.sublist_append_left _ _)
  | deliver i a =>
    unfold deliver at h
    dsimp only at h
    cases hk : s.1[i]? with
    | none => rw [hk] at h; cases h
    | some k =>
      rw [hk] at h
      dsimp only at h
      have hlt := (List.getElem?_eq_some_iff.1 hk).1
      obtain ⟨hd0, hi0⟩ : ∃ h, es[i]? = some h := ⟨_, List.getElem?_eq_getElem (by rw [← hd.length]; exact hlt)⟩
      have hmem : hd0 ∈ es := List.mem_of_getElem? hi0
      have one : ∀ j : Nat, delivered [Ev.deliver i a] j = if i = j then [a] else [] := fun j => by
        simp only [delivered]
      obtain ⟨args, k', h1, ⟨p, rfl, h2⟩, h3, h4⟩ := hd.entry i hd0 hi0
      rw [hk] at h1
      cases h1
      dsimp only at h
      cases hs : hd0.scanfn with
      | none =>
        rw [hs] at h
        cases h
        refine ⟨hd.length, fun j h hj => ?_, fun h0 c v hm => ?_⟩
        · by_cases hij : i = j
          · subst hij
            rw [hi0] at hj
            cases hj
            refine ⟨args ++ [a], _, hk, ⟨p, rfl, hS.free _ hmem hs _ _ _ h2⟩, ?_, fun h0 => ?_⟩
            · rw [delivered_append, one, if_pos rfl]; exact h3.append (List.Sublist.refl _)
            · rw [delivered_append, one, if_pos rfl, h4 h0]
          · obtain ⟨args', k', g1, g2, g3, g4⟩ := hd.entry j h hj
            exact ⟨args', k', g1, g2, by rw [delivered_append, one, if_neg hij, List.append_nil]; exact g3,
              by rw [delivered_append, one, if_neg hij, List.append_nil]; exact g4⟩
        · rcases List.mem_append.1 hm with hm | hm
          · exact hd.clean h0 c v hm
          · simp at hm
      | some f =>
        rw [hs] at h
        dsimp only at h
        obtain ⟨⟨q, err⟩, h5, h6⟩ := bind_some_ok h
        cases h6
        dsimp only
        refine ⟨by simpa using hd.length, fun j h hj => ?_, fun h0 c v hm => ?_⟩
        · by_cases hij : i = j
          · subst hij
            rw [hi0] at hj
            cases hj
            by_cases herr : err = 0
            · subst herr
              refine ⟨args ++ [a], _, List.getElem?_set_self hlt, ⟨q, by rw [hs], hS.step _ hmem f hs _ _ _ _ h2 h5⟩, ?_, fun h0 => ?_⟩
              · rw [delivered_append, one, if_pos rfl]; exact h3.append (List.Sublist.refl _)
              · rw [delivered_append, one, if_pos rfl, h4 h0]
            · have := hS.stay _ hmem f hs _ _ _ _ h5 herr
              subst this
              refine ⟨args, _, List.getElem?_set_self hlt, ⟨q, by rw [hs], h2⟩, ?_, fun h0 => ?_⟩
              · rw [delivered_append]; exact h3.trans (List.sublist_append_left _ _)
              · dsimp only at h0
                rw [if_pos herr] at h0
                simp at h0
          · obtain ⟨args', k', g1, g2, g3, g4⟩ := hd.entry j h hj
            refine ⟨args', k', by dsimp only; rw [List.getElem?_set_ne hij]; exact g1, g2,
              by rw [delivered_append, one, if_neg hij, List.append_nil]; exact g3, ?_⟩
            rw [delivered_append, one, if_neg hij, List.append_nil]
            intro h0
            dsimp only at h0
            split at h0
            · simp at h0
            · exact g4 h0
        · rcases List.mem_append.1 hm with hm | hm
          · refine hd.clean ?_ c v hm
            dsimp only at h0
            split at h0
            · simp at h0
            · exact h0
          · simp at hm

theorem delivering_all {es : List (Hdr σ)} (hS : ScanSteps S es) : ∀ (evs : List Ev) {dn : List Ev}
    {s s' : List (Hdr σ) × List ErrRec}, Delivering S es dn s → deliverAll evs s = .ok s' →
    Delivering S es (dn ++ evs) s' := by
  intro evs
  induction evs with
  | nil => intro dn s s' hd h; cases h; rw [List.append_nil]; exact hd
  | cons ev evs ih =>
    intro dn s s' hd h
    unfold deliverAll at h
    obtain ⟨w, h1, h2⟩ := bind_some_ok h
    have := ih (delivering_step hS hd h1) h2
    rw [List.append_assoc] at this
    exact this

theorem accepts_holding {h : Hdr σ} {f : σ → Option CStr → M (σ × Int)}
    (hst : ∀ args p q a, S h args p → f p a = .ok (q, 0) → S h (args ++ [a]) q) {p q : σ} {seg : List CStr}
    (ha : Accepts f p seg q) : ∀ args, S h args p → S h (args ++ seg.map some) q := by
  induction ha with
  | nil p => intro args hs; simpa using hs
  | cons h1 _ ih =>
    intro args hs
    have := ih _ (hst _ _ _ _ hs h1)
    simpa using this

/-- The operands, segment by segment. -/
theorem handout_segs {es es' : List (Hdr σ)} {ops left : List CStr} (hh : Handout es ops es' left) :
    ∃ segs : List (List CStr), segs.length = es.length ∧ segs.flatten ++ left = ops ∧ es'.length = es.length ∧
      ∀ (i : Nat) (k : Hdr σ) (seg : List CStr), es[i]? = some k → segs[i]? = some seg →
        (k.shortopts.isSome ∨ k.longopts.isSome → seg = []) ∧
        ∃ k', es'[i]? = some k' ∧ ((seg = [] ∧ k' = k ∧ ∀ f, ¬ TakesOperands k f) ∨
          ∃ f q, k.scanfn = some f ∧ Accepts f k.parent seg q ∧ k' = { k with parent := q } ∧
            ∀ a, ((segs.drop (i + 1)).flatten ++ left).head? = some a → ∃ c, c ≠ 0 ∧ f q (some a) = .ok (q, c)) := by
  induction hh with
  | done ops => exact ⟨[], rfl, rfl, rfl, fun i k seg h => by simp at h⟩
  | @skip h t t' ops left hn _ ih =>
    obtain ⟨segs, h1, h2, h3, h4⟩ := ih
    refine ⟨[] :: segs, by simp [h1], by simpa using h2, by simp [h3], fun i k seg hi hsg => ?_⟩
    cases i with
    | zero => cases hi; cases hsg; exact ⟨fun _ => rfl, _, rfl, Or.inl ⟨rfl, rfl, hn⟩⟩
    | succ i => exact h4 i k seg hi hsg
  | @take h t t' seg rest left f q ho ha hno _ ih =>
    obtain ⟨segs, h1, h2, h3, h4⟩ := ih
    refine ⟨seg :: segs, by simp [h1], by simp [← h2], by simp [h3], fun i k sg hi hsg => ?_⟩
    cases i with
    | zero =>
      cases hi; cases hsg
      refine ⟨fun h => ?_, _, rfl, Or.inr ⟨f, q, ho.2.2, ha, rfl, fun a ha => hno a ?_⟩⟩
      · rw [ho.1, ho.2.1] at h
        simp at h
      · rw [← h2]; exact ha
    | succ i => exact h4 i k sg hi hsg
end

/-- Entries after the reset. -/
theorem resetAll_entry {σ : Type} : ∀ (es es' : List (Hdr σ)), resetAll es = .ok es' → es'.length = es.length ∧
    ∀ (i : Nat) (h : Hdr σ), es[i]? = some h → ∃ p, es'[i]? = some { h with parent := p } ∧
      (match h.resetfn with | none => .ok h.parent | some f => f h.parent) = (.ok p : M σ) := by
  intro es
  induction es with
  | nil => intro es' h; cases h; exact ⟨rfl, fun i h hi => by simp at hi⟩
  | cons k t ih =>
    intro es' h
    unfold resetAll at h
    obtain ⟨p, h1, h2⟩ : ∃ p, (match k.resetfn with | none => .ok k.parent | some f => f k.parent) = (.ok p : M σ) ∧
        (do let t ← resetAll t; .ok ({ k with parent := p } :: t)) = (.ok es' : M (List (Hdr σ))) := by
      cases hr : k.resetfn with
      | none =>
        rw [hr] at h
        exact ⟨_, rfl, h⟩
      | some f =>
        rw [hr] at h
        obtain ⟨p, h1, h2⟩ := bind_some_ok h
        exact ⟨p, h1, h2⟩
    obtain ⟨t', h3, h4⟩ := bind_some_ok h2
    cases h4
    obtain ⟨h5, h6⟩ := ih _ h3
    refine ⟨by simp [h5], fun i h hi => ?_⟩
    cases i with
    | zero => cases hi; exact ⟨p, rfl, h1⟩
    | succ i => exact h6 i h hi

end Argtable
