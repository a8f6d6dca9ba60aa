import Verif.Proofs.History
/-!
# Entries made by the constructors, with different histories (C12)
-/

namespace Argtable

open Spec

variable {δ : Type}

/-- The members that a date format does not set agree in all cells. -/
def CellsAgree (fmt : CStr) (l l' : List Tm) : Prop :=
  List.Forall₂ (AgreeOff fun f => f ∈ writesFmt fmt) l l'

/-- Two entries made by the same constructor call.  `post` says that both have been reset and since then
treated in the same way. -/
inductive Twin (lc : Libc δ) (post : Prop) : Hdr (Obj δ) → Hdr (Obj δ) → Prop
  | lit (so lo : Option CStr) (mn mx : Int) (gl : Option CStr) (ov : Bool) (c c' : Nat) :
      (post → c = c') →
      Twin lc post { argLitn so lo mn mx gl with hasOptValue := ov, parent := .lit c }
        { argLitn so lo mn mx gl with hasOptValue := ov, parent := .lit c' }
  | int (so lo dt : Option CStr) (mn mx : Int) (gl : Option CStr) (h : Hdr (Obj δ)) (ov : Bool)
      (o o' : IntObj) : argIntn so lo dt mn mx gl = .ok h → o.ival.length = o'.ival.length →
      (post → o.count = o'.count ∧ (ov = false → o.ival.take o.count = o'.ival.take o'.count)) →
      Twin lc post { h with hasOptValue := ov, parent := .int o } { h with hasOptValue := ov, parent := .int o' }
  | dbl (addr : Nat) (so lo dt : Option CStr) (mn mx : Int) (gl : Option CStr) (h : Hdr (Obj δ))
      (ov : Bool) (o o' : DblObj δ) : argDbln lc addr so lo dt mn mx gl = .ok h →
      o.dval.length = o'.dval.length →
      (post → o.count = o'.count ∧ (ov = false → o.dval.take o.count = o'.dval.take o'.count)) →
      Twin lc post { h with hasOptValue := ov, parent := .dbl o } { h with hasOptValue := ov, parent := .dbl o' }
  | str (so lo dt : Option CStr) (mn mx : Int) (gl : Option CStr) (h : Hdr (Obj δ)) (ov : Bool)
      (o o' : StrObj) : argStrn so lo dt mn mx gl = .ok h → o.sval.length = o'.sval.length →
      (o.sval.length : Int) = h.maxcount → (o.count : Int) ≤ h.maxcount → (o'.count : Int) ≤ h.maxcount →
      (post → o.count = o'.count ∧ (ov = false → o.sval.take o.count = o'.sval.take o'.count)) →
      Twin lc post { h with hasOptValue := ov, parent := .str o } { h with hasOptValue := ov, parent := .str o' }
  | file (so lo dt : Option CStr) (mn mx : Int) (gl : Option CStr) (h : Hdr (Obj δ)) (ov : Bool)
      (o o' : FileObj) : argFilen so lo dt mn mx gl = .ok h → o.filename.length = o'.filename.length →
      o.basename.length = o'.basename.length → o.extension.length = o'.extension.length →
      (post → o.count = o'.count ∧ (ov = false → o.filename.take o.count = o'.filename.take o'.count ∧
        o.basename.take o.count = o'.basename.take o'.count ∧
        o.extension.take o.count = o'.extension.take o'.count)) →
      Twin lc post { h with hasOptValue := ov, parent := .file o } { h with hasOptValue := ov, parent := .file o' }
  | date (so lo fm dt : Option CStr) (mn mx : Int) (gl : Option CStr) (h : Hdr (Obj δ)) (ov : Bool)
      (o o' : DateObj) : argDaten lc so lo fm dt mn mx gl = .ok h →
      steadyFmt (fm.getD (cs "%x")) false = true → CellsAgree (fm.getD (cs "%x")) o.tmval o'.tmval →
      (post → o.count = o'.count ∧ (ov = false → o.tmval.take o.count = o'.tmval.take o'.count)) →
      Twin lc post { h with hasOptValue := ov, parent := .date o } { h with hasOptValue := ov, parent := .date o' }
  | rex (so lo : Option CStr) (pat : CStr) (dt : Option CStr) (mn mx : Int) (ic : Bool)
      (gl : Option CStr) (h : Hdr (Obj δ)) (ov : Bool) (o o' : StrObj) :
      argRexn so lo pat dt mn mx ic gl = .ok h → o.sval.length = o'.sval.length →
      (post → o.count = o'.count ∧ (ov = false → o.sval.take o.count = o'.sval.take o'.count)) →
      Twin lc post { h with hasOptValue := ov, parent := .rex o } { h with hasOptValue := ov, parent := .rex o' }
  | rem (dt gl : Option CStr) : Twin lc post (argRem dt gl) (argRem dt gl)

theorem Twin.same {lc : Libc δ} {post : Prop} {h h' : Hdr (Obj δ)} (ht : Twin lc post h h') : SameHdr h h' := by
  cases ht <;> rfl

/-! ### the scan functions -/

theorem take_set_succ {α : Type} {l l' : List α} {c : Nat} (v : α) (hlen : l.length = l'.length)
    (hc : c < l.length) (h : l.take c = l'.take c) : (l.set c v).take (c + 1) = (l'.set c v).take (c + 1) := by
  have e : ∀ {k : List α}, c < k.length → (k.set c v).take (c + 1) = k.take c ++ [v] := by
    intro k hk
    rw [List.take_add_one, List.take_set_of_le (Nat.le_refl _), List.getElem?_set_self hk]
    rfl
  rw [e hc, e (by omega), h]

theorem storeAt_twin {α : Type} {l l' : List α} {c : Nat} (v : α) (hlen : l.length = l'.length) :
    RelM (fun k k' => k.length = l.length ∧ k'.length = l.length ∧
      (l.take c = l'.take c → k.take (c + 1) = k'.take (c + 1)))
      (storeAt l c v) (storeAt l' c v) := by
  unfold storeAt
  rw [← hlen]
  split
  · rename_i hc
    exact ⟨by simp, by simp [hlen], fun h => take_set_succ v hlen hc h⟩
  · rfl

theorem intScan_twin (mx : Int) (o o' : IntObj) (hlen : o.ival.length = o'.ival.length)
    (hcnt : o.count = o'.count) (a : Option CStr) :
    RelM (fun q q' => q.2 = q'.2 ∧ q.1.ival.length = o.ival.length ∧ q'.1.ival.length = o.ival.length ∧
      q.1.count = q'.1.count ∧ (a ≠ none → o.ival.take o.count = o'.ival.take o'.count →
        q.1.ival.take q.1.count = q'.1.ival.take q'.1.count))
      (intScan mx o a) (intScan mx o' a) := by
  unfold intScan
  rw [← hcnt]
  split
  · exact ⟨rfl, rfl, hlen.symm, hcnt, fun _ h => hcnt ▸ h⟩
  cases a with
  | none => exact ⟨rfl, rfl, hlen.symm, rfl, fun h => absurd rfl h⟩
  | some a =>
    dsimp only
    refine RelM.bind (RelM.refl (P := Eq) (fun _ => rfl) _) ?_
    rintro r _ rfl
    cases r with
    | none => exact ⟨rfl, rfl, hlen.symm, hcnt, fun _ h => hcnt ▸ h⟩
    | some p =>
      dsimp only
      refine RelM.bind (RelM.refl (P := Eq) (fun _ => rfl) _) ?_
      rintro v _ rfl
      split
      · refine RelM.bind (storeAt_twin _ hlen) ?_
        rintro k k' ⟨h1, h2, h3⟩
        exact ⟨rfl, h1, h2, rfl, fun _ h => h3 h⟩
      · exact ⟨rfl, rfl, hlen.symm, hcnt, fun _ h => hcnt ▸ h⟩

theorem dblScan_twin (f : CStr → δ × CStr) (mx : Int) (o o' : DblObj δ) (hlen : o.dval.length = o'.dval.length)
    (hcnt : o.count = o'.count) (a : Option CStr) :
    RelM (fun q q' => q.2 = q'.2 ∧ q.1.dval.length = o.dval.length ∧ q'.1.dval.length = o.dval.length ∧
      q.1.count = q'.1.count ∧ (a ≠ none → o.dval.take o.count = o'.dval.take o'.count →
        q.1.dval.take q.1.count = q'.1.dval.take q'.1.count))
      (dblScan f mx o a) (dblScan f mx o' a) := by
  unfold dblScan
  rw [← hcnt]
  split
  · exact ⟨rfl, rfl, hlen.symm, hcnt, fun _ h => hcnt ▸ h⟩
  cases a with
  | none => exact ⟨rfl, rfl, hlen.symm, rfl, fun h => absurd rfl h⟩
  | some a =>
    dsimp only
    split
    · refine RelM.bind (storeAt_twin _ hlen) ?_
      rintro k k' ⟨h1, h2, h3⟩
      exact ⟨rfl, h1, h2, rfl, fun _ h => h3 h⟩
    · exact ⟨rfl, rfl, hlen.symm, hcnt, fun _ h => hcnt ▸ h⟩

theorem strScan_twin (mx : Int) (o o' : StrObj) (hlen : o.sval.length = o'.sval.length)
    (hcnt : o.count = o'.count) (a : Option CStr) :
    RelM (fun q q' => q.2 = q'.2 ∧ q.1.sval.length = o.sval.length ∧ q'.1.sval.length = o.sval.length ∧
      q.1.count = q'.1.count ∧ (a ≠ none → o.sval.take o.count = o'.sval.take o'.count →
        q.1.sval.take q.1.count = q'.1.sval.take q'.1.count))
      (strScan mx o a) (strScan mx o' a) := by
  unfold strScan
  rw [← hcnt]
  split
  · exact ⟨rfl, rfl, hlen.symm, hcnt, fun _ h => hcnt ▸ h⟩
  cases a with
  | none => exact ⟨rfl, rfl, hlen.symm, rfl, fun h => absurd rfl h⟩
  | some a =>
    refine RelM.bind (storeAt_twin _ hlen) ?_
    rintro k k' ⟨h1, h2, h3⟩
    exact ⟨rfl, h1, h2, rfl, fun _ h => h3 h⟩

theorem rexScan_twin (pat : CStr) (ic : Bool) (mx : Int) (o o' : StrObj) (hlen : o.sval.length = o'.sval.length)
    (hcnt : o.count = o'.count) (a : Option CStr) :
    RelM (fun q q' => q.2 = q'.2 ∧ q.1.sval.length = o.sval.length ∧ q'.1.sval.length = o.sval.length ∧
      q.1.count = q'.1.count ∧ (a ≠ none → o.sval.take o.count = o'.sval.take o'.count →
        q.1.sval.take q.1.count = q'.1.sval.take q'.1.count))
      (rexScan pat ic mx o a) (rexScan pat ic mx o' a) := by
  unfold rexScan
  rw [← hcnt]
  split
  · exact ⟨rfl, rfl, hlen.symm, hcnt, fun _ h => hcnt ▸ h⟩
  cases a with
  | none => exact ⟨rfl, rfl, hlen.symm, rfl, fun h => absurd rfl h⟩
  | some a =>
    dsimp only
    refine RelM.bind (RelM.refl (P := Eq) (fun _ => rfl) _) ?_
    rintro r _ rfl
    cases r with
    | none => rfl
    | some p =>
      dsimp only
      refine RelM.bind (RelM.refl (P := Eq) (fun _ => rfl) _) ?_
      rintro b _ rfl
      split
      · refine RelM.bind (storeAt_twin _ hlen) ?_
        rintro k k' ⟨h1, h2, h3⟩
        exact ⟨rfl, h1, h2, rfl, fun _ h => h3 h⟩
      · exact ⟨rfl, rfl, hlen.symm, hcnt, fun _ h => hcnt ▸ h⟩

theorem fileScan_twin (mx : Int) (o o' : FileObj) (hl1 : o.filename.length = o'.filename.length)
    (hl2 : o.basename.length = o'.basename.length) (hl3 : o.extension.length = o'.extension.length)
    (hcnt : o.count = o'.count) (a : Option CStr) :
    RelM (fun q q' => q.2 = q'.2 ∧
      (q.1.filename.length = o.filename.length ∧ q'.1.filename.length = o.filename.length) ∧
      (q.1.basename.length = o.basename.length ∧ q'.1.basename.length = o.basename.length) ∧
      (q.1.extension.length = o.extension.length ∧ q'.1.extension.length = o.extension.length) ∧
      q.1.count = q'.1.count ∧ (a ≠ none →
        (o.filename.take o.count = o'.filename.take o'.count → q.1.filename.take q.1.count = q'.1.filename.take q'.1.count) ∧
        (o.basename.take o.count = o'.basename.take o'.count → q.1.basename.take q.1.count = q'.1.basename.take q'.1.count) ∧
        (o.extension.take o.count = o'.extension.take o'.count → q.1.extension.take q.1.count = q'.1.extension.take q'.1.count)))
      (fileScan mx o a) (fileScan mx o' a) := by
  unfold fileScan
  rw [← hcnt]
  split
  · exact ⟨rfl, ⟨rfl, hl1.symm⟩, ⟨rfl, hl2.symm⟩, ⟨rfl, hl3.symm⟩, hcnt,
      fun _ => ⟨fun h => hcnt ▸ h, fun h => hcnt ▸ h, fun h => hcnt ▸ h⟩⟩
  cases a with
  | none => exact ⟨rfl, ⟨rfl, hl1.symm⟩, ⟨rfl, hl2.symm⟩, ⟨rfl, hl3.symm⟩, rfl, fun h => absurd rfl h⟩
  | some a =>
    refine RelM.bind (storeAt_twin _ hl1) ?_
    rintro k k' ⟨h1, h2, h3⟩
    refine RelM.bind (storeAt_twin _ hl2) ?_
    rintro l l' ⟨h4, h5, h6⟩
    refine RelM.bind (storeAt_twin _ hl3) ?_
    rintro m m' ⟨h7, h8, h9⟩
    exact ⟨rfl, ⟨h1, h2⟩, ⟨h4, h5⟩, ⟨h7, h8⟩, rfl, fun _ => ⟨h3, h6, h9⟩⟩

theorem cells_set {fmt : CStr} {l l' : List Tm} (h : CellsAgree fmt l l') (c : Nat) (tm : Tm) :
    CellsAgree fmt (l.set c tm) (l'.set c tm) := by
  induction h generalizing c with
  | nil => exact .nil
  | cons h1 h2 ih =>
    cases c with
    | zero => exact .cons (agree_refl _ _) h2
    | succ c => exact .cons h1 (ih c)

theorem dateScan_twin (fmt : CStr) (hst : steadyFmt fmt false = true) (mx : Int) (o o' : DateObj)
    (hcell : CellsAgree fmt o.tmval o'.tmval) (hcnt : o.count = o'.count) (a : Option CStr) :
    RelM (fun q q' => q.2 = q'.2 ∧ CellsAgree fmt q.1.tmval q'.1.tmval ∧
      q.1.count = q'.1.count ∧ (a ≠ none → o.tmval.take o.count = o'.tmval.take o'.count →
        q.1.tmval.take q.1.count = q'.1.tmval.take q'.1.count))
      (dateScan fmt mx o a) (dateScan fmt mx o' a) := by
  unfold dateScan
  rw [← hcnt]
  split
  · exact ⟨rfl, hcell, hcnt, fun _ h => hcnt ▸ h⟩
  cases a with
  | none => exact ⟨rfl, hcell, rfl, fun h => absurd rfl h⟩
  | some a =>
    dsimp only
    have hlen : o.tmval.length = o'.tmval.length := hcell.length_eq
    cases h1 : o.tmval[o.count]? with
    | none =>
      have : o'.tmval[o.count]? = none := by
        rw [List.getElem?_eq_none_iff] at h1 ⊢; omega
      rw [this]; rfl
    | some tm =>
      have hlt : o.count < o.tmval.length := (List.getElem?_eq_some_iff.1 h1).1
      have h2 : o'.tmval[o.count]? = some o'.tmval[o.count] := List.getElem?_eq_getElem (by omega)
      rw [h2]
      dsimp only
      have hag : AgreeOff (fun f => f ∈ writesFmt fmt) tm o'.tmval[o.count] := by
        have := hcell.get hlt (by omega)
        have e : o.tmval.get ⟨o.count, hlt⟩ = tm := by
          rw [List.get_eq_getElem]; exact (List.getElem?_eq_some_iff.1 h1).2
        rw [e] at this
        exact this
      rw [strptime_agree hst a hag]
      split
      · rename_i tm' _
        unfold storeAt
        rw [← hlen, if_pos hlt, if_pos hlt]
        exact ⟨rfl, cells_set hcell _ _, rfl, fun _ h => take_set_succ _ hlen hlt (by rw [hcnt] at h ⊢; exact h)⟩
      · exact ⟨rfl, hcell, hcnt, fun _ h => hcnt ▸ h⟩

/-! ### the two relations -/

theorem strReset_twin {mx : Int} (o o' : StrObj) (hlen : o.sval.length = o'.sval.length)
    (hm : (o.sval.length : Int) = mx) (h : (o.count : Int) ≤ mx) (h' : (o'.count : Int) ≤ mx) :
    ∃ q q', strReset o = .ok q ∧ strReset o' = .ok q' ∧ q.count = 0 ∧ q'.count = 0 ∧
      (q.sval.length : Int) = mx ∧ (q'.sval.length : Int) = mx := by
  obtain ⟨l, h1, h2⟩ := strClear_ok o.count o.sval (by omega)
  obtain ⟨l', h1', h2'⟩ := strClear_ok o'.count o'.sval (by omega)
  exact ⟨⟨0, l⟩, ⟨0, l'⟩, by simp [strReset, h1, bind_ok], by simp [strReset, h1', bind_ok], rfl, rfl,
    by dsimp only; omega, by dsimp only; omega⟩

theorem twin_bisim (lc : Libc δ) : Bisim (Twin lc False) (Twin lc True) where
  same _ _ h := h.same
  same0 _ _ h := h.same
  noreset h h' ht hr := by
    cases ht with
    | lit => cases hr
    | int so lo dt mn mx gl h ov o o' hh =>
      obtain ⟨-, -, -, -, -, -, -, -, -, hr', -⟩ := argIntn_inv hh
      cases hr'.symm.trans hr
    | dbl ad so lo dt mn mx gl h ov o o' hh =>
      obtain ⟨-, -, -, -, -, -, -, -, -, hr', -⟩ := argDbln_inv hh
      cases hr'.symm.trans hr
    | str so lo dt mn mx gl h ov o o' hh =>
      obtain ⟨-, -, -, -, -, -, -, -, -, hr', -⟩ := argStrn_inv hh
      cases hr'.symm.trans hr
    | file so lo dt mn mx gl h ov o o' hh =>
      obtain ⟨-, -, -, -, -, -, -, -, -, hr', -⟩ := argFilen_inv hh
      cases hr'.symm.trans hr
    | date so lo fm dt mn mx gl h ov o o' hh =>
      obtain ⟨-, -, -, -, -, -, -, -, -, hr', -⟩ := argDaten_inv hh
      cases hr'.symm.trans hr
    | rex so lo pat dt mn mx ic gl h ov o o' hh =>
      obtain ⟨-, -, -, -, -, -, -, -, -, hr', -⟩ := argRexn_inv hh
      cases hr'.symm.trans hr
    | rem dt gl => exact .rem dt gl
  reset h h' f ht hr := by
    cases ht with
    | lit so lo mn mx gl ov c c' _ => cases hr; exact .lit so lo mn mx gl ov 0 0 fun _ => rfl
    | int so lo dt mn mx gl h ov o o' hh hl _ =>
      obtain ⟨-, -, -, -, -, -, -, -, -, hr', -⟩ := argIntn_inv hh
      cases hr'.symm.trans hr
      exact .int so lo dt mn mx gl h ov _ _ hh hl fun _ => ⟨rfl, fun _ => rfl⟩
    | dbl ad so lo dt mn mx gl h ov o o' hh hl _ =>
      obtain ⟨-, -, -, -, -, -, -, -, -, hr', -⟩ := argDbln_inv hh
      cases hr'.symm.trans hr
      exact .dbl ad so lo dt mn mx gl h ov _ _ hh hl fun _ => ⟨rfl, fun _ => rfl⟩
    | str so lo dt mn mx gl h ov o o' hh hl hm hc hc' _ =>
      obtain ⟨-, -, -, -, -, -, -, -, -, hr', -⟩ := argStrn_inv hh
      cases hr'.symm.trans hr
      obtain ⟨q, q', h1, h2, h3, h4, h5, h6⟩ := strReset_twin o o' hl hm hc hc'
      simp only [h1, h2, bind_ok]
      refine .str so lo dt mn mx gl h ov q q' hh (by omega) h5 (by omega) (by omega) fun _ => ⟨by omega, fun _ => ?_⟩
      rw [h3, h4]; rfl
    | file so lo dt mn mx gl h ov o o' hh hl1 hl2 hl3 _ =>
      obtain ⟨-, -, -, -, -, -, -, -, -, hr', -⟩ := argFilen_inv hh
      cases hr'.symm.trans hr
      exact .file so lo dt mn mx gl h ov _ _ hh hl1 hl2 hl3 fun _ => ⟨rfl, fun _ => ⟨rfl, rfl, rfl⟩⟩
    | date so lo fm dt mn mx gl h ov o o' hh hst hl _ =>
      obtain ⟨-, -, -, -, -, -, -, -, -, hr', -⟩ := argDaten_inv hh
      cases hr'.symm.trans hr
      exact .date so lo fm dt mn mx gl h ov _ _ hh hst hl fun _ => ⟨rfl, fun _ => rfl⟩
    | rex so lo pat dt mn mx ic gl h ov o o' hh hl _ =>
      obtain ⟨-, -, -, -, -, -, -, -, -, hr', -⟩ := argRexn_inv hh
      cases hr'.symm.trans hr
      exact .rex so lo pat dt mn mx ic gl h ov _ _ hh hl fun _ => ⟨rfl, fun _ => rfl⟩
    | rem dt gl => cases hr
  scan h h' f a ht harg hf := by
    cases ht with
    | lit so lo mn mx gl ov c c' hc =>
      cases hf
      cases hc trivial
      exact ⟨rfl, .lit so lo mn mx gl ov _ _ fun _ => rfl⟩
    | int so lo dt mn mx gl h ov o o' hh hl hp =>
      obtain ⟨-, -, -, hv, -, -, -, -, -, -, hs⟩ := argIntn_inv hh
      cases hs.symm.trans hf
      obtain ⟨hc, hvals⟩ := hp trivial
      refine RelM.bind (intScan_twin _ o o' hl hc a) ?_
      rintro q q' ⟨he, h1, h2, h3, h4⟩
      refine ⟨he, .int so lo dt mn mx gl h ov _ _ hh (by omega) fun _ => ⟨h3, fun hov => ?_⟩⟩
      refine h4 ?_ (hvals hov)
      rintro rfl
      rcases harg rfl with h | h
      · exact absurd (hv.symm.trans h) (by simp)
      · exact absurd (hov.symm.trans h) (by simp)
    | dbl ad so lo dt mn mx gl h ov o o' hh hl hp =>
      obtain ⟨-, -, -, hv, -, -, -, -, -, -, hs⟩ := argDbln_inv hh
      cases hs.symm.trans hf
      obtain ⟨hc, hvals⟩ := hp trivial
      refine RelM.bind (dblScan_twin _ _ o o' hl hc a) ?_
      rintro q q' ⟨he, h1, h2, h3, h4⟩
      refine ⟨he, .dbl ad so lo dt mn mx gl h ov _ _ hh (by omega) fun _ => ⟨h3, fun hov => ?_⟩⟩
      refine h4 ?_ (hvals hov)
      rintro rfl
      rcases harg rfl with h | h
      · exact absurd (hv.symm.trans h) (by simp)
      · exact absurd (hov.symm.trans h) (by simp)
    | str so lo dt mn mx gl h ov o o' hh hl hm hb hb' hp =>
      obtain ⟨hmx, -, -, hv, -, -, -, -, -, -, hs⟩ := argStrn_inv hh
      cases hs.symm.trans hf
      obtain ⟨hc, hvals⟩ := hp trivial
      have ht := strScan_twin (foolproof mn mx) o o' hl hc a
      obtain ⟨w, hw1, hw2, hw3⟩ := strScan_ok (foolproof mn mx) o a (hmx ▸ hb) (hmx ▸ hm)
      obtain ⟨w', hw1', hw2', hw3'⟩ := strScan_ok (foolproof mn mx) o' a (hmx ▸ hb') (by omega)
      simp only [hw1, hw1', bind_ok] at ht ⊢
      obtain ⟨he, h1, h2, h3, h4⟩ := ht
      refine ⟨he, .str so lo dt mn mx gl h ov _ _ hh (by omega) (by omega) (by omega) (by omega)
        fun _ => ⟨h3, fun hov => ?_⟩⟩
      refine h4 ?_ (hvals hov)
      rintro rfl
      rcases harg rfl with h | h
      · exact absurd (hv.symm.trans h) (by simp)
      · exact absurd (hov.symm.trans h) (by simp)
    | file so lo dt mn mx gl h ov o o' hh hl1 hl2 hl3 hp =>
      obtain ⟨-, -, -, hv, -, -, -, -, -, -, hs⟩ := argFilen_inv hh
      cases hs.symm.trans hf
      obtain ⟨hc, hvals⟩ := hp trivial
      refine RelM.bind (fileScan_twin _ o o' hl1 hl2 hl3 hc a) ?_
      rintro q q' ⟨he, h1, h2, h3, h4, h5⟩
      refine ⟨he, .file so lo dt mn mx gl h ov _ _ hh (by omega) (by omega) (by omega)
        fun _ => ⟨h4, fun hov => ?_⟩⟩
      have ha : a ≠ none := by
        rintro rfl
        rcases harg rfl with h | h
        · exact absurd (hv.symm.trans h) (by simp)
        · exact absurd (hov.symm.trans h) (by simp)
      obtain ⟨v1, v2, v3⟩ := hvals hov
      obtain ⟨w1, w2, w3⟩ := h5 ha
      exact ⟨w1 v1, w2 v2, w3 v3⟩
    | date so lo fm dt mn mx gl h ov o o' hh hst hl hp =>
      obtain ⟨-, -, -, hv, -, -, -, -, -, -, hs⟩ := argDaten_inv hh
      cases hs.symm.trans hf
      obtain ⟨hc, hvals⟩ := hp trivial
      refine RelM.bind (dateScan_twin _ hst _ o o' hl hc a) ?_
      rintro q q' ⟨he, h1, h3, h4⟩
      refine ⟨he, .date so lo fm dt mn mx gl h ov _ _ hh hst h1 fun _ => ⟨h3, fun hov => ?_⟩⟩
      refine h4 ?_ (hvals hov)
      rintro rfl
      rcases harg rfl with h | h
      · exact absurd (hv.symm.trans h) (by simp)
      · exact absurd (hov.symm.trans h) (by simp)
    | rex so lo pat dt mn mx ic gl h ov o o' hh hl hp =>
      obtain ⟨-, -, -, hv, -, -, -, -, -, -, hs, -⟩ := argRexn_inv hh
      cases hs.symm.trans hf
      obtain ⟨hc, hvals⟩ := hp trivial
      refine RelM.bind (rexScan_twin pat ic _ o o' hl hc a) ?_
      rintro q q' ⟨he, h1, h2, h3, h4⟩
      refine ⟨he, .rex so lo pat dt mn mx ic gl h ov _ _ hh (by omega) fun _ => ⟨h3, fun hov => ?_⟩⟩
      refine h4 ?_ (hvals hov)
      rintro rfl
      rcases harg rfl with h | h
      · exact absurd (hv.symm.trans h) (by simp)
      · exact absurd (hov.symm.trans h) (by simp)
    | rem dt gl => cases hf
  check h h' f ht hf := by
    cases ht with
    | lit so lo mn mx gl ov c c' hc =>
      cases hf
      cases hc trivial
      rfl
    | int so lo dt mn mx gl h ov o o' hh _ hp =>
      obtain ⟨-, -, -, -, -, -, -, -, hk, -⟩ := argIntn_inv hh
      cases hk.symm.trans hf
      exact congrArg (countCheck mn) (hp trivial).1
    | dbl ad so lo dt mn mx gl h ov o o' hh _ hp =>
      obtain ⟨-, -, -, -, -, -, -, -, hk, -⟩ := argDbln_inv hh
      cases hk.symm.trans hf
      exact congrArg (countCheck mn) (hp trivial).1
    | str so lo dt mn mx gl h ov o o' hh _ _ _ _ hp =>
      obtain ⟨-, -, -, -, -, -, -, -, hk, -⟩ := argStrn_inv hh
      cases hk.symm.trans hf
      exact congrArg (countCheck mn) (hp trivial).1
    | file so lo dt mn mx gl h ov o o' hh _ _ _ hp =>
      obtain ⟨-, -, -, -, -, -, -, -, hk, -⟩ := argFilen_inv hh
      cases hk.symm.trans hf
      exact congrArg (countCheck mn) (hp trivial).1
    | date so lo fm dt mn mx gl h ov o o' hh _ _ hp =>
      obtain ⟨-, -, -, -, -, -, -, -, hk, -⟩ := argDaten_inv hh
      cases hk.symm.trans hf
      exact congrArg (countCheck mn) (hp trivial).1
    | rex so lo pat dt mn mx ic gl h ov o o' hh _ hp =>
      obtain ⟨-, -, -, -, -, -, -, -, hk, -⟩ := argRexn_inv hh
      cases hk.symm.trans hf
      exact congrArg (countCheck mn) (hp trivial).1
    | rem dt gl => cases hf

theorem RelM.self {α : Type} {P : α → α → Prop} {x : M α} {a : α} (h : RelM P x x) (hx : x = .ok a) : P a a := by
  rw [hx] at h; exact h

theorem cells_trans {fmt : CStr} {a b c : List Tm} (h : CellsAgree fmt a b) (h' : CellsAgree fmt b c) :
    CellsAgree fmt a c := by
  induction h generalizing c with
  | nil => exact h'
  | cons h1 h2 ih =>
    cases h' with
    | cons k1 k2 => exact .cons (agree_trans h1 k1) (ih k2)

theorem cells_refl (fmt : CStr) (a : List Tm) : CellsAgree fmt a a := by
  induction a with
  | nil => exact .nil
  | cons x a ih => exact .cons (agree_refl _ _) ih

theorem cells_set_right {fmt : CStr} {l : List Tm} {c : Nat} {x tm : Tm} (hx : l[c]? = some x)
    (h : AgreeOff (fun f => f ∈ writesFmt fmt) x tm) : CellsAgree fmt l (l.set c tm) := by
  induction l generalizing c with
  | nil => cases hx
  | cons y l ih =>
    cases c with
    | zero => cases hx; exact .cons h (cells_refl _ _)
    | succ c => exact .cons (agree_refl _ _) (ih (by simpa using hx))

theorem dateScan_keep {fmt : CStr} {mx : Int} {o : DateObj} {a : Option CStr} {q : DateObj × Int}
    (h : dateScan fmt mx o a = .ok q) : CellsAgree fmt o.tmval q.1.tmval := by
  unfold dateScan at h
  split at h
  · cases h; exact cells_refl _ _
  · cases a with
    | none => cases h; exact cells_refl _ _
    | some a =>
      dsimp only at h
      split at h
      · cases h
      · rename_i tm htm
        split at h
        · rename_i tm' hp
          unfold storeAt at h
          split at h
          · cases h
            exact cells_set_right htm (strptime_keep hp)
          · cases h
        · cases h; exact cells_refl _ _

theorem twin_keeps (lc : Libc δ) : Keeps (Twin lc False) where
  reset h0 h f p ht hr hp := by
    cases ht with
    | lit so lo mn mx gl ov c c' _ => cases hr; cases hp; exact .lit so lo mn mx gl ov _ _ False.elim
    | int so lo dt mn mx gl h ov o o' hh hl _ =>
      obtain ⟨-, -, -, -, -, -, -, -, -, hr', -⟩ := argIntn_inv hh
      cases hr'.symm.trans hr
      cases hp
      exact .int so lo dt mn mx gl h ov _ _ hh hl False.elim
    | dbl ad so lo dt mn mx gl h ov o o' hh hl _ =>
      obtain ⟨-, -, -, -, -, -, -, -, -, hr', -⟩ := argDbln_inv hh
      cases hr'.symm.trans hr
      cases hp
      exact .dbl ad so lo dt mn mx gl h ov _ _ hh hl False.elim
    | str so lo dt mn mx gl h ov o o' hh hl hm hc hc' _ =>
      obtain ⟨-, -, -, -, -, -, -, -, -, hr', -⟩ := argStrn_inv hh
      cases hr'.symm.trans hr
      obtain ⟨q, q', h1, h2, h3, h4, h5, h6⟩ := strReset_twin o o' hl hm hc hc'
      simp only [h2, bind_ok] at hp
      cases hp
      exact .str so lo dt mn mx gl h ov o q' hh (by omega) hm hc (by omega) False.elim
    | file so lo dt mn mx gl h ov o o' hh hl1 hl2 hl3 _ =>
      obtain ⟨-, -, -, -, -, -, -, -, -, hr', -⟩ := argFilen_inv hh
      cases hr'.symm.trans hr
      cases hp
      exact .file so lo dt mn mx gl h ov _ _ hh hl1 hl2 hl3 False.elim
    | date so lo fm dt mn mx gl h ov o o' hh hst hl _ =>
      obtain ⟨-, -, -, -, -, -, -, -, -, hr', -⟩ := argDaten_inv hh
      cases hr'.symm.trans hr
      cases hp
      exact .date so lo fm dt mn mx gl h ov _ _ hh hst hl False.elim
    | rex so lo pat dt mn mx ic gl h ov o o' hh hl _ =>
      obtain ⟨-, -, -, -, -, -, -, -, -, hr', -⟩ := argRexn_inv hh
      cases hr'.symm.trans hr
      cases hp
      exact .rex so lo pat dt mn mx ic gl h ov _ _ hh hl False.elim
    | rem dt gl => cases hr
  scan h0 h f a q ht hf hq := by
    cases ht with
    | lit so lo mn mx gl ov c c' hc => cases hf; cases hq; exact .lit so lo mn mx gl ov _ _ False.elim
    | int so lo dt mn mx gl h ov o o' hh hl hp =>
      obtain ⟨-, -, -, hv, -, -, -, -, -, -, hs⟩ := argIntn_inv hh
      cases hs.symm.trans hf
      dsimp only at hq
      cases hx : intScan (foolproof mn mx) o' a with
      | error e => rw [hx] at hq; cases hq
      | ok w =>
        rw [hx] at hq; cases hq
        have := (intScan_twin _ o' o' rfl rfl a).self hx
        exact .int so lo dt mn mx gl h ov _ _ hh (by omega) False.elim
    | dbl ad so lo dt mn mx gl h ov o o' hh hl hp =>
      obtain ⟨-, -, -, hv, -, -, -, -, -, -, hs⟩ := argDbln_inv hh
      cases hs.symm.trans hf
      dsimp only at hq
      cases hx : dblScan lc.strtod (foolproof mn mx) o' a with
      | error e => rw [hx] at hq; cases hq
      | ok w =>
        rw [hx] at hq; cases hq
        have := (dblScan_twin _ _ o' o' rfl rfl a).self hx
        exact .dbl ad so lo dt mn mx gl h ov _ _ hh (by omega) False.elim
    | str so lo dt mn mx gl h ov o o' hh hl hm hb hb' hp =>
      obtain ⟨hmx, -, -, hv, -, -, -, -, -, -, hs⟩ := argStrn_inv hh
      cases hs.symm.trans hf
      dsimp only at hq
      obtain ⟨w', hw1', hw2', hw3'⟩ := strScan_ok (foolproof mn mx) o' a (hmx ▸ hb') (by omega)
      rw [hw1'] at hq; cases hq
      exact .str so lo dt mn mx gl h ov _ _ hh (by omega) hm hb (by omega) False.elim
    | file so lo dt mn mx gl h ov o o' hh hl1 hl2 hl3 hp =>
      obtain ⟨-, -, -, hv, -, -, -, -, -, -, hs⟩ := argFilen_inv hh
      cases hs.symm.trans hf
      dsimp only at hq
      cases hx : fileScan (foolproof mn mx) o' a with
      | error e => rw [hx] at hq; cases hq
      | ok w =>
        rw [hx] at hq; cases hq
        have := (fileScan_twin _ o' o' rfl rfl rfl rfl a).self hx
        exact .file so lo dt mn mx gl h ov _ _ hh (by omega) (by omega) (by omega) False.elim
    | date so lo fm dt mn mx gl h ov o o' hh hst hl hp =>
      obtain ⟨-, -, -, hv, -, -, -, -, -, -, hs⟩ := argDaten_inv hh
      cases hs.symm.trans hf
      dsimp only at hq
      cases hx : dateScan (fm.getD (cs "%x")) (foolproof mn mx) o' a with
      | error e => rw [hx] at hq; cases hq
      | ok w =>
        rw [hx] at hq; cases hq
        exact .date so lo fm dt mn mx gl h ov _ _ hh hst (cells_trans hl (dateScan_keep hx)) False.elim
    | rex so lo pat dt mn mx ic gl h ov o o' hh hl hp =>
      obtain ⟨-, -, -, hv, -, -, -, -, -, -, hs, -⟩ := argRexn_inv hh
      cases hs.symm.trans hf
      dsimp only at hq
      cases hx : rexScan pat ic (foolproof mn mx) o' a with
      | error e => rw [hx] at hq; cases hq
      | ok w =>
        rw [hx] at hq; cases hq
        have := (rexScan_twin pat ic _ o' o' rfl rfl a).self hx
        exact .rex so lo pat dt mn mx ic gl h ov _ _ hh (by omega) False.elim
    | rem dt gl => cases hf

theorem twin_refl {lc : Libc δ} {h : Hdr (Obj δ)} (hs : Steady lc h) : Twin lc False h h := by
  cases hs with
  | other h hl hd =>
    cases hl with
    | lit so lo mn mx gl ov c hc => exact .lit so lo mn mx gl ov c c False.elim
    | int so lo dt mn mx gl h ov o hh hc hl => exact .int so lo dt mn mx gl h ov o o hh rfl False.elim
    | dbl ad so lo dt mn mx gl h ov o hh hc hl => exact .dbl ad so lo dt mn mx gl h ov o o hh rfl False.elim
    | str so lo dt mn mx gl h ov o hh hc hl =>
      exact .str so lo dt mn mx gl h ov o o hh rfl hl hc hc False.elim
    | file so lo dt mn mx gl h ov o hh hc h1 h2 h3 =>
      exact .file so lo dt mn mx gl h ov o o hh rfl rfl rfl False.elim
    | date so lo fm dt mn mx gl h ov o hh hc hl => cases hd
    | rex so lo pat dt mn mx ic gl h ov o hh hp hc hl =>
      exact .rex so lo pat dt mn mx ic gl h ov o o hh rfl False.elim
    | rem dt gl => exact .rem dt gl
  | date so lo fm dt mn mx gl h ov o hh hc hl hst =>
    exact .date so lo fm dt mn mx gl h ov o o hh hst (cells_refl _ _) False.elim

theorem twin_sameEntry {lc : Libc δ} {h h' : Hdr (Obj δ)} (ht : Twin lc True h h') : SameEntry h h' := by
  refine ⟨ht.same, ?_⟩
  cases ht with
  | lit so lo mn mx gl ov c c' hc => exact ⟨(hc trivial).symm, fun _ => hc trivial⟩
  | int so lo dt mn mx gl h ov o o' hh hl hp =>
    exact ⟨(hp trivial).1.symm, fun hov => ⟨(hp trivial).1, (hp trivial).2 hov⟩⟩
  | dbl ad so lo dt mn mx gl h ov o o' hh hl hp =>
    exact ⟨(hp trivial).1.symm, fun hov => ⟨(hp trivial).1, (hp trivial).2 hov⟩⟩
  | str so lo dt mn mx gl h ov o o' hh hl hm hb hb' hp =>
    exact ⟨(hp trivial).1.symm, fun hov => ⟨(hp trivial).1, (hp trivial).2 hov⟩⟩
  | file so lo dt mn mx gl h ov o o' hh hl1 hl2 hl3 hp =>
    exact ⟨(hp trivial).1.symm, fun hov => ⟨(hp trivial).1, (hp trivial).2 hov⟩⟩
  | date so lo fm dt mn mx gl h ov o o' hh hst hl hp =>
    exact ⟨(hp trivial).1.symm, fun hov => ⟨(hp trivial).1, (hp trivial).2 hov⟩⟩
  | rex so lo pat dt mn mx ic gl h ov o o' hh hl hp =>
    exact ⟨(hp trivial).1.symm, fun hov => ⟨(hp trivial).1, (hp trivial).2 hov⟩⟩
  | rem dt gl => exact ⟨rfl, fun _ => trivial⟩

end Argtable
