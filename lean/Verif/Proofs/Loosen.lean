import Verif.Spec.Loosen
import Verif.Proofs.Extend
import Verif.Proofs.Reorder
import Verif.Proofs.Entered
import Verif.Props.Stored
import Verif.Proofs.Checks
/-!
# The same entries with other bounds: the two tables read the same
-/

namespace Argtable

open Spec

variable {δ : Type} {lc : Libc δ}

theorem storeAt_longer {α : Type} {a b a' : List α} {i : Nat} {v : α} (hp : a <+: b) (h : storeAt a i v = .ok a') :
    ∃ b', storeAt b i v = .ok b' ∧ a' <+: b' ∧ i < a.length := by
  unfold storeAt at h ⊢
  split at h
  · rename_i hi
    cases h
    obtain ⟨s, rfl⟩ := hp
    refine ⟨_, if_pos (by simp; omega), ⟨s, ?_⟩, hi⟩
    rw [List.set_append, if_pos hi]
  · cases h

/-- With the bound `m'` in place of `m`, the scan function gives the same answer. -/
def Mimic (m m' : Int) (f f' : Obj δ → Option CStr → M (Obj δ × Int)) : Prop :=
  ∀ (p p' : Obj δ) (a : Option CStr) (q : Obj δ) (c : Int), Begins p p' → p.count ≤ m.toNat → f p a = .ok (q, c) →
    (c = 0 ∧ m ≤ m' ∨ m' = m) → q.count ≤ m.toNat ∧ ∃ q', f' p' a = .ok (q', c) ∧ Begins q q' ∧ isRem q = isRem p

theorem mimic_room {m m' c : Int} {n : Nat} (h0 : (n : Int) ≠ m) (hn : n ≤ m.toNat) (hpos : (m.toNat : Int) = m)
    (h : c = 0 ∧ m ≤ m' ∨ m' = m) : (n : Int) ≠ m' ∧ n + 1 ≤ m.toNat := by
  rcases h with ⟨-, h⟩ | h <;> omega

theorem mimic_lit (m m' : Int) : Mimic (δ := δ) m m'
    (fun | .lit c, _ => .ok (.lit (litScan m c).1, (litScan m c).2) | _, _ => confused)
    (fun | .lit c, _ => .ok (.lit (litScan m' c).1, (litScan m' c).2) | _, _ => confused) := by
  intro p p' a q c hb hn h hm
  cases hb with
  | lit n =>
    change Except.ok _ = _ at h
    change n ≤ _ at hn
    show _ ∧ ∃ q', Except.ok _ = _ ∧ _
    unfold litScan at h ⊢
    split at h
    · rename_i hlt
      cases h
      have : (n : Int) < m' := by rcases hm with ⟨-, h⟩ | h <;> omega
      rw [if_pos this]
      exact ⟨by show n + 1 ≤ _; omega, _, rfl, .lit _, rfl⟩
    · cases h
      have : m' = m := by
        rcases hm with ⟨h, -⟩ | h
        · cases h
        · exact h
      subst this
      rw [if_neg (by assumption)]
      exact ⟨hn, _, rfl, .lit _, rfl⟩
  | _ => cases h

theorem mimic_int (m m' : Int) (hpos : (m.toNat : Int) = m) : Mimic (δ := δ) m m'
    (fun | .int o, a => (do let (o, e) ← intScan m o a; .ok (.int o, e)) | _, _ => confused)
    (fun | .int o, a => (do let (o, e) ← intScan m' o a; .ok (.int o, e)) | _, _ => confused) := by
  intro p p' a q c hb hn h hm
  cases hb with
  | @int n x y hxy =>
    change (do let (o, e) ← intScan m ⟨n, x⟩ a; .ok (Obj.int o, e)) = (Except.ok (q, c) : M (Obj δ × Int)) at h
    change n ≤ _ at hn
    show _ ∧ ∃ q', (do let (o, e) ← intScan m' ⟨n, y⟩ a; .ok (Obj.int o, e)) = (Except.ok (q', c) : M (Obj δ × Int)) ∧ _
    obtain ⟨⟨o, e⟩, h1, h2⟩ := bind_some_ok h
    cases h2
    unfold intScan at h1 ⊢
    dsimp only at h1 ⊢
    by_cases h0 : (n : Int) = m
    · rw [if_pos h0] at h1
      cases h1
      have : m' = m := by
        rcases hm with ⟨h, -⟩ | h
        · cases h
        · exact h
      rw [if_pos (by omega)]
      exact ⟨hn, _, rfl, .int _ hxy, rfl⟩
    · obtain ⟨h3, h4⟩ := mimic_room h0 hn hpos hm
      rw [if_neg h0] at h1
      rw [if_neg h3]
      cases a with
      | none => cases h1; exact ⟨h4, _, rfl, .int _ hxy, rfl⟩
      | some s =>
        dsimp only at h1 ⊢
        obtain ⟨v, k1, k2⟩ := bind_some_ok h1
        rw [k1]
        cases v with
        | none => cases k2; exact ⟨hn, _, rfl, .int _ hxy, rfl⟩
        | some w =>
          obtain ⟨val, e'⟩ := w
          dsimp only at k2
          obtain ⟨⟨val', err⟩, k3, k4⟩ := bind_some_ok k2
          rw [bind_ok]
          dsimp only at k4 ⊢
          rw [k3, bind_ok]
          dsimp only
          by_cases he : err = 0
          · rw [if_pos he] at k4 ⊢
            obtain ⟨z, k5, k6⟩ := bind_some_ok k4
            cases k6
            obtain ⟨z', k7, k8, -⟩ := storeAt_longer hxy k5
            rw [k7]
            exact ⟨h4, _, rfl, .int _ k8, rfl⟩
          · rw [if_neg he] at k4 ⊢
            cases k4
            exact ⟨hn, _, rfl, .int _ hxy, rfl⟩
  | _ => cases h

theorem mimic_dbl (m m' : Int) (hpos : (m.toNat : Int) = m) : Mimic (δ := δ) m m'
    (fun | .dbl o, a => (do let (o, e) ← dblScan lc.strtod m o a; .ok (.dbl o, e)) | _, _ => confused)
    (fun | .dbl o, a => (do let (o, e) ← dblScan lc.strtod m' o a; .ok (.dbl o, e)) | _, _ => confused) := by
  intro p p' a q c hb hn h hm
  cases hb with
  | @dbl n x y hxy =>
    change (do let (o, e) ← dblScan lc.strtod m ⟨n, x⟩ a; .ok (Obj.dbl o, e)) = (Except.ok (q, c) : M (Obj δ × Int)) at h
    change n ≤ _ at hn
    show _ ∧ ∃ q', (do let (o, e) ← dblScan lc.strtod m' ⟨n, y⟩ a; .ok (Obj.dbl o, e)) = (Except.ok (q', c) : M (Obj δ × Int)) ∧ _
    obtain ⟨⟨o, e⟩, h1, h2⟩ := bind_some_ok h
    cases h2
    unfold dblScan at h1 ⊢
    dsimp only at h1 ⊢
    by_cases h0 : (n : Int) = m
    · rw [if_pos h0] at h1
      cases h1
      have : m' = m := by
        rcases hm with ⟨h, -⟩ | h
        · cases h
        · exact h
      rw [if_pos (by omega)]
      exact ⟨hn, _, rfl, .dbl _ hxy, rfl⟩
    · obtain ⟨h3, h4⟩ := mimic_room h0 hn hpos hm
      rw [if_neg h0] at h1
      rw [if_neg h3]
      cases a with
      | none => cases h1; exact ⟨h4, _, rfl, .dbl _ hxy, rfl⟩
      | some s =>
        dsimp only at h1 ⊢
        by_cases he : (lc.strtod s).2 = []
        · rw [if_pos he] at h1 ⊢
          obtain ⟨z, k5, k6⟩ := bind_some_ok h1
          cases k6
          obtain ⟨z', k7, k8, -⟩ := storeAt_longer hxy k5
          rw [k7]
          exact ⟨h4, _, rfl, .dbl _ k8, rfl⟩
        · rw [if_neg he] at h1 ⊢
          cases h1
          exact ⟨hn, _, rfl, .dbl _ hxy, rfl⟩
  | _ => cases h

theorem mimic_str (m m' : Int) (hpos : (m.toNat : Int) = m) : Mimic (δ := δ) m m'
    (fun | .str o, a => (do let (o, e) ← strScan m o a; .ok (.str o, e)) | _, _ => confused)
    (fun | .str o, a => (do let (o, e) ← strScan m' o a; .ok (.str o, e)) | _, _ => confused) := by
  intro p p' a q c hb hn h hm
  cases hb with
  | @str n x y hxy =>
    change (do let (o, e) ← strScan m ⟨n, x⟩ a; .ok (Obj.str o, e)) = (Except.ok (q, c) : M (Obj δ × Int)) at h
    change n ≤ _ at hn
    show _ ∧ ∃ q', (do let (o, e) ← strScan m' ⟨n, y⟩ a; .ok (Obj.str o, e)) = (Except.ok (q', c) : M (Obj δ × Int)) ∧ _
    obtain ⟨⟨o, e⟩, h1, h2⟩ := bind_some_ok h
    cases h2
    unfold strScan at h1 ⊢
    dsimp only at h1 ⊢
    by_cases h0 : (n : Int) = m
    · rw [if_pos h0] at h1
      cases h1
      have : m' = m := by
        rcases hm with ⟨h, -⟩ | h
        · cases h
        · exact h
      rw [if_pos (by omega)]
      exact ⟨hn, _, rfl, .str _ hxy, rfl⟩
    · obtain ⟨h3, h4⟩ := mimic_room h0 hn hpos hm
      rw [if_neg h0] at h1
      rw [if_neg h3]
      cases a with
      | none => cases h1; exact ⟨h4, _, rfl, .str _ hxy, rfl⟩
      | some s =>
        dsimp only at h1 ⊢
        obtain ⟨z, k5, k6⟩ := bind_some_ok h1
        cases k6
        obtain ⟨z', k7, k8, -⟩ := storeAt_longer hxy k5
        rw [k7]
        exact ⟨h4, _, rfl, .str _ k8, rfl⟩
  | _ => cases h

theorem mimic_file (m m' : Int) (hpos : (m.toNat : Int) = m) : Mimic (δ := δ) m m'
    (fun | .file o, a => (do let (o, e) ← fileScan m o a; .ok (.file o, e)) | _, _ => confused)
    (fun | .file o, a => (do let (o, e) ← fileScan m' o a; .ok (.file o, e)) | _, _ => confused) := by
  intro p p' a q c hb hn h hm
  cases hb with
  | @file n x1 x2 x3 y1 y2 y3 g1 g2 g3 =>
    change (do let (o, e) ← fileScan m ⟨n, x1, x2, x3⟩ a; .ok (Obj.file o, e)) = (Except.ok (q, c) : M (Obj δ × Int)) at h
    change n ≤ _ at hn
    show _ ∧ ∃ q', (do let (o, e) ← fileScan m' ⟨n, y1, y2, y3⟩ a; .ok (Obj.file o, e)) = (Except.ok (q', c) : M (Obj δ × Int)) ∧ _
    obtain ⟨⟨o, e⟩, h1, h2⟩ := bind_some_ok h
    cases h2
    unfold fileScan at h1 ⊢
    dsimp only at h1 ⊢
    by_cases h0 : (n : Int) = m
    · rw [if_pos h0] at h1
      cases h1
      have : m' = m := by
        rcases hm with ⟨h, -⟩ | h
        · cases h
        · exact h
      rw [if_pos (by omega)]
      exact ⟨hn, _, rfl, .file _ g1 g2 g3, rfl⟩
    · obtain ⟨h3, h4⟩ := mimic_room h0 hn hpos hm
      rw [if_neg h0] at h1
      rw [if_neg h3]
      cases a with
      | none => cases h1; exact ⟨h4, _, rfl, .file _ g1 g2 g3, rfl⟩
      | some s =>
        dsimp only at h1 ⊢
        obtain ⟨z1, k1, h1⟩ := bind_some_ok h1
        obtain ⟨z2, k2, h1⟩ := bind_some_ok h1
        obtain ⟨z3, k3, h1⟩ := bind_some_ok h1
        cases h1
        obtain ⟨w1, l1, j1, -⟩ := storeAt_longer g1 k1
        obtain ⟨w2, l2, j2, -⟩ := storeAt_longer g2 k2
        obtain ⟨w3, l3, j3, -⟩ := storeAt_longer g3 k3
        rw [l1, bind_ok, l2, bind_ok, l3]
        exact ⟨h4, _, rfl, .file _ j1 j2 j3, rfl⟩
  | _ => cases h

theorem mimic_date (fmt : CStr) (m m' : Int) (hpos : (m.toNat : Int) = m) : Mimic (δ := δ) m m'
    (fun | .date o, a => (do let (o, e) ← dateScan fmt m o a; .ok (.date o, e)) | _, _ => confused)
    (fun | .date o, a => (do let (o, e) ← dateScan fmt m' o a; .ok (.date o, e)) | _, _ => confused) := by
  intro p p' a q c hb hn h hm
  cases hb with
  | @date n x y hxy =>
    change (do let (o, e) ← dateScan fmt m ⟨n, x⟩ a; .ok (Obj.date o, e)) = (Except.ok (q, c) : M (Obj δ × Int)) at h
    change n ≤ _ at hn
    show _ ∧ ∃ q', (do let (o, e) ← dateScan fmt m' ⟨n, y⟩ a; .ok (Obj.date o, e)) = (Except.ok (q', c) : M (Obj δ × Int)) ∧ _
    obtain ⟨⟨o, e⟩, h1, h2⟩ := bind_some_ok h
    cases h2
    unfold dateScan at h1 ⊢
    dsimp only at h1 ⊢
    by_cases h0 : (n : Int) = m
    · rw [if_pos h0] at h1
      cases h1
      have : m' = m := by
        rcases hm with ⟨h, -⟩ | h
        · cases h
        · exact h
      rw [if_pos (by omega)]
      exact ⟨hn, _, rfl, .date _ hxy, rfl⟩
    · obtain ⟨h3, h4⟩ := mimic_room h0 hn hpos hm
      rw [if_neg h0] at h1
      rw [if_neg h3]
      cases a with
      | none => cases h1; exact ⟨h4, _, rfl, .date _ hxy, rfl⟩
      | some s =>
        dsimp only at h1 ⊢
        cases hx : x[n]? with
        | none => rw [hx] at h1; cases h1
        | some tm =>
          have hy : y[n]? = some tm := by
            obtain ⟨t, rfl⟩ := hxy
            rw [List.getElem?_append_left (List.getElem?_eq_some_iff.1 hx).1]
            exact hx
          rw [hx] at h1
          rw [hy]
          dsimp only at h1 ⊢
          split at h1
          · rename_i hs
            obtain ⟨z, k5, k6⟩ := bind_some_ok h1
            cases k6
            obtain ⟨z', k7, k8, -⟩ := storeAt_longer hxy k5
            rw [k7]
            exact ⟨h4, _, rfl, .date _ k8, rfl⟩
          · cases h1
            exact ⟨hn, _, rfl, .date _ hxy, rfl⟩
  | _ => cases h

theorem mimic_rex (pat : CStr) (ic : Bool) (m m' : Int) (hpos : (m.toNat : Int) = m) : Mimic (δ := δ) m m'
    (fun | .rex o, a => (do let (o, e) ← rexScan pat ic m o a; .ok (.rex o, e)) | _, _ => confused)
    (fun | .rex o, a => (do let (o, e) ← rexScan pat ic m' o a; .ok (.rex o, e)) | _, _ => confused) := by
  intro p p' a q c hb hn h hm
  cases hb with
  | @rex n x y hxy =>
    change (do let (o, e) ← rexScan pat ic m ⟨n, x⟩ a; .ok (Obj.rex o, e)) = (Except.ok (q, c) : M (Obj δ × Int)) at h
    change n ≤ _ at hn
    show _ ∧ ∃ q', (do let (o, e) ← rexScan pat ic m' ⟨n, y⟩ a; .ok (Obj.rex o, e)) = (Except.ok (q', c) : M (Obj δ × Int)) ∧ _
    obtain ⟨⟨o, e⟩, h1, h2⟩ := bind_some_ok h
    cases h2
    unfold rexScan at h1 ⊢
    dsimp only at h1 ⊢
    by_cases h0 : (n : Int) = m
    · rw [if_pos h0] at h1
      cases h1
      have : m' = m := by
        rcases hm with ⟨h, -⟩ | h
        · cases h
        · exact h
      rw [if_pos (by omega)]
      exact ⟨hn, _, rfl, .rex _ hxy, rfl⟩
    · obtain ⟨h3, h4⟩ := mimic_room h0 hn hpos hm
      rw [if_neg h0] at h1
      rw [if_neg h3]
      cases a with
      | none => cases h1; exact ⟨h4, _, rfl, .rex _ hxy, rfl⟩
      | some s =>
        dsimp only at h1 ⊢
        obtain ⟨v, k1, k2⟩ := bind_some_ok h1
        rw [k1, bind_ok]
        cases v with
        | none => cases k2
        | some nodes =>
          dsimp only at k2 ⊢
          obtain ⟨b, k3, k4⟩ := bind_some_ok k2
          rw [k3, bind_ok]
          cases b with
          | true =>
            rw [if_pos rfl] at k4 ⊢
            obtain ⟨z, k5, k6⟩ := bind_some_ok k4
            cases k6
            obtain ⟨z', k7, k8, -⟩ := storeAt_longer hxy k5
            rw [k7]
            exact ⟨h4, _, rfl, .rex _ k8, rfl⟩
          | false =>
            rw [if_neg (by decide)] at k4 ⊢
            cases k4
            exact ⟨hn, _, rfl, .rex _ hxy, rfl⟩
  | _ => cases h

/-- The two entries now: they have the same names and scan functions that mimic each other, and the arrays of the first are
the beginnings of those of the second. -/
structure Tracks (h h' : Hdr (Obj δ)) : Prop where
  decl : declOf h' = declOf h
  scan : (h.scanfn = none ∧ h'.scanfn = none ∧ isRem h.parent = true) ∨
    ∃ f f', h.scanfn = some f ∧ h'.scanfn = some f' ∧ Mimic h.maxcount h'.maxcount f f'
  check : (isRem h.parent = true ∧ h.checkfn = none ∧ h'.checkfn = none) ∨
    (isRem h.parent = false ∧ h.checkfn = some (fun o => countCheck h.mincount o.count) ∧
      h'.checkfn = some (fun o => countCheck h'.mincount o.count))
  most : h.maxcount ≤ h'.maxcount
  begins : Begins h.parent h'.parent
  room : h.parent.count ≤ h.maxcount.toNat

theorem Spec.Begins.count {p q : Obj δ} (h : Begins p q) : q.count = p.count := by cases h <;> rfl

theorem Spec.Begins.isRem {p q : Obj δ} (h : Begins p q) : Spec.isRem q = Spec.isRem p := by cases h <;> rfl

theorem rebound_live {h h' : Hdr (Obj δ)} (hr : Rebound lc h h') : Live lc AnyPat h ∧ Live lc AnyPat h' := by
  cases hr with
  | lit so lo gl gl' mn mx mn' mx' ov c c' h1 h2 => exact ⟨.lit _ _ _ _ _ _ _ h1, .lit _ _ _ _ _ _ _ h2⟩
  | int so lo dt dt' gl gl' mn mx mn' mx' k k' ov o o' h1 h2 a b c d =>
    exact ⟨.int _ _ _ _ _ _ _ _ _ h1 a b, .int _ _ _ _ _ _ _ _ _ h2 c d⟩
  | dbl ad ad' so lo dt dt' gl gl' mn mx mn' mx' k k' ov o o' h1 h2 a b c d =>
    exact ⟨.dbl _ _ _ _ _ _ _ _ _ _ h1 a b, .dbl _ _ _ _ _ _ _ _ _ _ h2 c d⟩
  | str so lo dt dt' gl gl' mn mx mn' mx' k k' ov o o' h1 h2 a b c d =>
    exact ⟨.str _ _ _ _ _ _ _ _ _ h1 a b, .str _ _ _ _ _ _ _ _ _ h2 c d⟩
  | file so lo dt dt' gl gl' mn mx mn' mx' k k' ov o o' h1 h2 a b c d a' b' c' d' =>
    exact ⟨.file _ _ _ _ _ _ _ _ _ h1 a b c d, .file _ _ _ _ _ _ _ _ _ h2 a' b' c' d'⟩
  | date so lo fm dt dt' gl gl' mn mx mn' mx' k k' ov o o' h1 h2 a b c d =>
    exact ⟨.date _ _ _ _ _ _ _ _ _ _ h1 a b, .date _ _ _ _ _ _ _ _ _ _ h2 c d⟩
  | rex so lo pat ic dt dt' gl gl' mn mx mn' mx' k k' ov o o' h1 h2 a b c d =>
    exact ⟨.rex _ _ _ _ _ _ _ _ _ _ _ h1 trivial a b, .rex _ _ _ _ _ _ _ _ _ _ _ h2 trivial c d⟩
  | rem dt gl dt' gl' => exact ⟨.rem _ _, .rem _ _⟩

theorem rebound_decl {h h' : Hdr (Obj δ)} (hr : Rebound lc h h') : declOf h' = declOf h := by
  cases hr with
  | lit => rfl
  | int so lo dt dt' gl gl' mn mx mn' mx' k k' ov o o' h1 h2 a b c d =>
    obtain ⟨-, -, -, e1, -, e3, e4, -⟩ := argIntn_inv h1
    obtain ⟨-, -, -, e1', -, e3', e4', -⟩ := argIntn_inv h2
    unfold declOf; dsimp only; rw [e1, e3, e4, e1', e3', e4']
  | dbl ad ad' so lo dt dt' gl gl' mn mx mn' mx' k k' ov o o' h1 h2 a b c d =>
    obtain ⟨-, -, -, e1, -, e3, e4, -⟩ := argDbln_inv h1
    obtain ⟨-, -, -, e1', -, e3', e4', -⟩ := argDbln_inv h2
    unfold declOf; dsimp only; rw [e1, e3, e4, e1', e3', e4']
  | str so lo dt dt' gl gl' mn mx mn' mx' k k' ov o o' h1 h2 a b c d =>
    obtain ⟨-, -, -, e1, -, e3, e4, -⟩ := argStrn_inv h1
    obtain ⟨-, -, -, e1', -, e3', e4', -⟩ := argStrn_inv h2
    unfold declOf; dsimp only; rw [e1, e3, e4, e1', e3', e4']
  | file so lo dt dt' gl gl' mn mx mn' mx' k k' ov o o' h1 h2 a b c d a' b' c' d' =>
    obtain ⟨-, -, -, e1, -, e3, e4, -⟩ := argFilen_inv h1
    obtain ⟨-, -, -, e1', -, e3', e4', -⟩ := argFilen_inv h2
    unfold declOf; dsimp only; rw [e1, e3, e4, e1', e3', e4']
  | date so lo fm dt dt' gl gl' mn mx mn' mx' k k' ov o o' h1 h2 a b c d =>
    obtain ⟨-, -, -, e1, -, e3, e4, -⟩ := argDaten_inv h1
    obtain ⟨-, -, -, e1', -, e3', e4', -⟩ := argDaten_inv h2
    unfold declOf; dsimp only; rw [e1, e3, e4, e1', e3', e4']
  | rex so lo pat ic dt dt' gl gl' mn mx mn' mx' k k' ov o o' h1 h2 a b c d =>
    obtain ⟨-, -, -, e1, -, e3, e4, -⟩ := argRexn_inv h1
    obtain ⟨-, -, -, e1', -, e3', e4', -⟩ := argRexn_inv h2
    unfold declOf; dsimp only; rw [e1, e3, e4, e1', e3', e4']
  | rem => rfl

theorem rebound_scan {h h' : Hdr (Obj δ)} (hr : Rebound lc h h') :
    (h.scanfn = none ∧ h'.scanfn = none ∧ isRem h.parent = true) ∨
    ∃ f f', h.scanfn = some f ∧ h'.scanfn = some f' ∧ Mimic h.maxcount h'.maxcount f f' := by
  cases hr with
  | lit => exact Or.inr ⟨_, _, rfl, rfl, mimic_lit _ _⟩
  | int so lo dt dt' gl gl' mn mx mn' mx' k k' ov o o' h1 h2 a b c d =>
    obtain ⟨e1, e2, -, -, -, -, -, -, -, -, e3⟩ := argIntn_inv h1
    obtain ⟨e1', -, -, -, -, -, -, -, -, -, e3'⟩ := argIntn_inv h2
    refine Or.inr ⟨_, _, e3, e3', ?_⟩
    dsimp only
    rw [← e1, ← e1']
    exact mimic_int _ _ e2
  | dbl ad ad' so lo dt dt' gl gl' mn mx mn' mx' k k' ov o o' h1 h2 a b c d =>
    obtain ⟨e1, e2, -, -, -, -, -, -, -, -, e3⟩ := argDbln_inv h1
    obtain ⟨e1', -, -, -, -, -, -, -, -, -, e3'⟩ := argDbln_inv h2
    refine Or.inr ⟨_, _, e3, e3', ?_⟩
    dsimp only
    rw [← e1, ← e1']
    exact mimic_dbl _ _ e2
  | str so lo dt dt' gl gl' mn mx mn' mx' k k' ov o o' h1 h2 a b c d =>
    obtain ⟨e1, e2, -, -, -, -, -, -, -, -, e3⟩ := argStrn_inv h1
    obtain ⟨e1', -, -, -, -, -, -, -, -, -, e3'⟩ := argStrn_inv h2
    refine Or.inr ⟨_, _, e3, e3', ?_⟩
    dsimp only
    rw [← e1, ← e1']
    exact mimic_str _ _ e2
  | file so lo dt dt' gl gl' mn mx mn' mx' k k' ov o o' h1 h2 a b c d a' b' c' d' =>
    obtain ⟨e1, e2, -, -, -, -, -, -, -, -, e3⟩ := argFilen_inv h1
    obtain ⟨e1', -, -, -, -, -, -, -, -, -, e3'⟩ := argFilen_inv h2
    refine Or.inr ⟨_, _, e3, e3', ?_⟩
    dsimp only
    rw [← e1, ← e1']
    exact mimic_file _ _ e2
  | date so lo fm dt dt' gl gl' mn mx mn' mx' k k' ov o o' h1 h2 a b c d =>
    obtain ⟨e1, e2, -, -, -, -, -, -, -, -, e3⟩ := argDaten_inv h1
    obtain ⟨e1', -, -, -, -, -, -, -, -, -, e3'⟩ := argDaten_inv h2
    refine Or.inr ⟨_, _, e3, e3', ?_⟩
    dsimp only
    rw [← e1, ← e1']
    exact mimic_date _ _ _ e2
  | rex so lo pat ic dt dt' gl gl' mn mx mn' mx' k k' ov o o' h1 h2 a b c d =>
    obtain ⟨e1, e2, -, -, -, -, -, -, -, -, e3, -⟩ := argRexn_inv h1
    obtain ⟨e1', -, -, -, -, -, -, -, -, -, e3', -⟩ := argRexn_inv h2
    refine Or.inr ⟨_, _, e3, e3', ?_⟩
    dsimp only
    rw [← e1, ← e1']
    exact mimic_rex _ _ _ _ e2
  | rem => exact Or.inl ⟨rfl, rfl, rfl⟩

theorem live_presets {x : Hdr (Obj δ)} {R : CStr → Prop} (hl : Live lc R x) {p : Obj δ}
    (hp : (match x.resetfn with | none => .ok x.parent | some f => f x.parent) = (.ok p : M (Obj δ))) : p = presets x.parent :=
  stores_nil (stores_reset hl hp)

theorem presets_isRem (p : Obj δ) : isRem (presets p) = isRem p := by cases p <;> rfl

theorem presets_count (p : Obj δ) : (presets p).count = 0 := by cases p <;> rfl

theorem roomier_tracks {h h' : Hdr (Obj δ)} (hl : Roomier lc h h') :
    Tracks { h with parent := presets h.parent } { h' with parent := presets h'.parent } := by
  obtain ⟨l1, l2⟩ := rebound_live hl.same
  have hrem : isRem h'.parent = isRem h.parent := by
    rw [← presets_isRem h'.parent, ← presets_isRem h.parent]; exact hl.start.isRem
  refine ⟨?_, ?_, ?_, hl.most, hl.start, ?_⟩
  · exact (show declOf h' = declOf h from rebound_decl hl.same)
  · dsimp only; rw [presets_isRem]; exact rebound_scan hl.same
  · dsimp only
    rw [presets_isRem]
    rcases live_checkfn l1 with ⟨a, b⟩ | ⟨a, b⟩
    · rcases live_checkfn l2 with ⟨a', b'⟩ | ⟨a', b'⟩
      · exact Or.inl ⟨a, b, b'⟩
      · rw [hrem, a] at a'; cases a'
    · rcases live_checkfn l2 with ⟨a', b'⟩ | ⟨a', b'⟩
      · rw [hrem, a] at a'; cases a'
      · exact Or.inr ⟨a, b, b'⟩
  · dsimp only; rw [presets_count]; exact Nat.zero_le _

theorem resetAll_tracks : ∀ {es es' : List (Hdr (Obj δ))}, List.Forall₂ (Roomier lc) es es' → ∃ s s', resetAll es = .ok s ∧
    resetAll es' = .ok s' ∧ List.Forall₂ Tracks s s' ∧
    s = es.map (fun h => { h with parent := presets h.parent }) ∧ s' = es'.map (fun h => { h with parent := presets h.parent }) := by
  intro es es' h
  induction h with
  | nil => exact ⟨_, _, rfl, rfl, .nil, rfl, rfl⟩
  | @cons h h' t t' hl ht ih =>
    obtain ⟨s, s', h1, h2, h3, h4, h5⟩ := ih
    obtain ⟨l1, l2⟩ := rebound_live hl.same
    obtain ⟨p, hp⟩ := live_reset l1
    obtain ⟨p', hp'⟩ := live_reset l2
    have e := live_presets l1 hp
    have e' := live_presets l2 hp'
    subst e
    subst e'
    refine ⟨_ :: s, _ :: s', ?_, ?_, .cons (roomier_tracks hl) h3, by rw [h4]; rfl, by rw [h5]; rfl⟩
    · unfold resetAll
      cases hf : h.resetfn with
      | none => rw [hf] at hp; rw [h1]; exact congrArg Except.ok (by rw [← Except.ok.inj hp])
      | some f => rw [hf] at hp; dsimp only at hp ⊢; rw [hp, h1]; rfl
    · unfold resetAll
      cases hf : h'.resetfn with
      | none => rw [hf] at hp'; rw [h2]; exact congrArg Except.ok (by rw [← Except.ok.inj hp'])
      | some f => rw [hf] at hp'; dsimp only at hp' ⊢; rw [hp', h2]; rfl

theorem tracks_next {h h' : Hdr (Obj δ)} (ht : Tracks h h') {q q' : Obj δ} (hb : Begins q q') (hq : isRem q = isRem h.parent)
    (hr : q.count ≤ h.maxcount.toNat) : Tracks { h with parent := q } { h' with parent := q' } :=
  ⟨ht.decl, by dsimp only; rw [hq]; exact ht.scan, by dsimp only; rw [hq]; exact ht.check, ht.most, hb, hr⟩

theorem pairs_get {α β : Type} {R : α → β → Prop} {l : List α} {l' : List β} (h : List.Forall₂ R l l') :
    ∀ (i : Nat) (a : α), l[i]? = some a → ∃ b, l'[i]? = some b ∧ R a b := by
  induction h with
  | nil => intro i a h; simp at h
  | cons h1 h2 ih =>
    intro i a h
    cases i with
    | zero => cases h; exact ⟨_, rfl, h1⟩
    | succ i => exact ih i a h

theorem pairs_set {α β : Type} {R : α → β → Prop} {l : List α} {l' : List β} (h : List.Forall₂ R l l') {a : α} {b : β} (hab : R a b) :
    ∀ (i : Nat), List.Forall₂ R (l.set i a) (l'.set i b) := by
  induction h with
  | nil => intro i; exact .nil
  | cons h1 h2 ih =>
    intro i
    cases i with
    | zero => exact .cons hab h2
    | succ i => exact .cons h1 (ih i)

theorem deliver_tracks {s s' : List (Hdr (Obj δ))} (hs : List.Forall₂ Tracks s s') {ev : Ev} {w : List (Hdr (Obj δ))}
    (h : deliver (s, []) ev = .ok (w, [])) : ∃ w', deliver (s', []) ev = .ok (w', []) ∧ List.Forall₂ Tracks w w' := by
  cases ev with
  | fail c v => cases h
  | deliver i a =>
    unfold deliver at h ⊢
    dsimp only at h ⊢
    cases hi : s[i]? with
    | none => rw [hi] at h; cases h
    | some k =>
      obtain ⟨k', hi', ht⟩ := pairs_get hs i k hi
      rw [hi] at h
      rw [hi']
      dsimp only at h ⊢
      rcases ht.scan with ⟨g1, g2, -⟩ | ⟨f, f', g1, g2, g3⟩
      · rw [g1] at h
        rw [g2]
        cases h
        exact ⟨_, rfl, hs⟩
      · rw [g1] at h
        rw [g2]
        dsimp only at h ⊢
        obtain ⟨⟨q, c⟩, k1, k2⟩ := bind_some_ok h
        dsimp only at k2
        obtain ⟨k3, k4⟩ := Prod.mk.inj (Except.ok.inj k2)
        have hc : c = 0 := by
          by_cases hc : c = 0
          · exact hc
          · rw [if_pos hc] at k4; simp at k4
        subst hc
        obtain ⟨l1, q', l2, l3, l4⟩ := g3 _ _ a q 0 ht.begins ht.room k1 (Or.inl ⟨rfl, ht.most⟩)
        rw [l2]
        have hn := tracks_next ht l3 l4 l1
        rw [g1, g2] at hn
        refine ⟨_, rfl, ?_⟩
        rw [← k3]
        exact pairs_set hs hn i

theorem deliverAll_tracks : ∀ (evs : List Ev) {s s' w : List (Hdr (Obj δ))}, List.Forall₂ Tracks s s' →
    deliverAll evs (s, []) = .ok (w, []) → ∃ w', deliverAll evs (s', []) = .ok (w', []) ∧ List.Forall₂ Tracks w w' := by
  intro evs
  induction evs with
  | nil => intro s s' w hs h; cases h; exact ⟨_, rfl, hs⟩
  | cons ev evs ih =>
    intro s s' w hs h
    rw [deliverAll] at h
    obtain ⟨⟨w1, e1⟩, h1, h2⟩ := bind_some_ok h
    obtain ⟨e, h3, -⟩ := deliverAll_grows _ _ _ h2
    dsimp only at h3
    have : e1 = [] := (List.append_eq_nil_iff.1 h3.symm).1
    subst this
    obtain ⟨w1', k1, k2⟩ := deliver_tracks hs h1
    obtain ⟨w', k3, k4⟩ := ih k2 h2
    exact ⟨w', by rw [deliverAll, k1, bind_ok]; exact k3, k4⟩

theorem feed_tracks {m m' : Int} {f f' : Obj δ → Option CStr → M (Obj δ × Int)} (hm : Mimic m m' f f') (hle : m ≤ m') :
    ∀ (ops : List CStr) {p p' q : Obj δ} {rest : List CStr} {c : Int}, Begins p p' → p.count ≤ m.toNat →
      feed f p ops = .ok (q, rest, c) → (rest = [] ∨ m' = m) →
      q.count ≤ m.toNat ∧ ∃ q', feed f' p' ops = .ok (q', rest, c) ∧ Begins q q' ∧ isRem q = isRem p := by
  intro ops
  induction ops with
  | nil => intro p p' q rest c hb hn h _; cases h; exact ⟨hn, _, rfl, hb, rfl⟩
  | cons a ops ih =>
    intro p p' q rest c hb hn h hr
    rw [feed] at h
    obtain ⟨⟨p1, c1⟩, h1, h2⟩ := bind_some_ok h
    dsimp only at h2
    have hc : c1 = 0 ∧ m ≤ m' ∨ m' = m := by
      rcases hr with hr | hr
      · by_cases hc : c1 = 0
        · exact Or.inl ⟨hc, hle⟩
        · rw [if_neg hc] at h2
          have := (Prod.mk.inj (Prod.mk.inj (Except.ok.inj h2)).2).1
          rw [hr] at this
          cases this
      · exact Or.inr hr
    obtain ⟨l1, q1, l2, l3, l4⟩ := hm _ _ (some a) p1 c1 hb hn h1 hc
    rw [feed, l2, bind_ok]
    dsimp only
    by_cases h0 : c1 = 0
    · rw [if_pos h0] at h2 ⊢
      obtain ⟨k1, q', k2, k3, k4⟩ := ih l3 l1 h2 hr
      exact ⟨k1, q', k2, k3, by rw [k4, l4]⟩
    · rw [if_neg h0] at h2 ⊢
      cases h2
      exact ⟨l1, q1, rfl, l3, l4⟩

theorem tracks_tagged {h h' : Hdr (Obj δ)} (ht : Tracks h h') : h'.longopts = h.longopts ∧ h'.shortopts = h.shortopts :=
  ⟨congrArg Decl.long ht.decl, congrArg Decl.short ht.decl⟩

/-- Entries with names, and remarks, take no operands. -/
theorem operands_untaken : ∀ (es : List (Hdr (Obj δ))) (i : Nat) (last : Option (Int × Nat)) (ops : List CStr)
    (w : List (Hdr (Obj δ))), (∀ k ∈ es, tagged k = true ∨ k.scanfn = none) → operands es i last ops = .ok (w, []) → ops = [] := by
  intro es
  induction es with
  | nil =>
    intro i last ops w _ h
    have h := (Prod.mk.inj (Except.ok.inj h)).2
    unfold leftover at h
    split at h
    · rfl
    · cases h
    · cases h
  | cons k t ih =>
    intro i last ops w hk h
    rw [operands] at h
    split at h
    · assumption
    · split at h
      · obtain ⟨⟨t', e⟩, h1, h2⟩ := bind_some_ok h
        have := (Prod.mk.inj (Except.ok.inj h2)).2
        subst this
        exact ih _ _ _ _ (fun k hk' => hk k (by simp [hk'])) h1
      · rename_i hn
        rcases hk k (by simp) with hk' | hk'
        · unfold tagged at hk'
          simp at hk' hn
          rcases hk' with h | h
          · rw [hn.2] at h; cases h
          · rw [hn.1] at h; cases h
        · rw [hk'] at h
          obtain ⟨⟨t', e⟩, h1, h2⟩ := bind_some_ok h
          have := (Prod.mk.inj (Except.ok.inj h2)).2
          subst this
          exact ih _ _ _ _ (fun k hk' => hk k (by simp [hk'])) h1

/-- The upper bound of an entry for operands is raised only if no other one comes behind it. -/
def LastFor (s s' : List (Hdr (Obj δ))) : Prop :=
  ∀ (i : Nat) (h h' : Hdr (Obj δ)), s[i]? = some h → s'[i]? = some h' → tagged h = true ∨ h'.maxcount = h.maxcount ∨
    ∀ k ∈ s.drop (i + 1), tagged k = true ∨ k.scanfn = none

theorem LastFor.tail {h h' : Hdr (Obj δ)} {s s' : List (Hdr (Obj δ))} (hl : LastFor (h :: s) (h' :: s')) : LastFor s s' :=
  fun i k k' hk hk' => hl (i + 1) k k' hk hk'

theorem operands_tracks : ∀ {s s' : List (Hdr (Obj δ))}, List.Forall₂ Tracks s s' → LastFor s s' →
    ∀ (i : Nat) (last : Option (Int × Nat)) (ops : List CStr) (w : List (Hdr (Obj δ))), operands s i last ops = .ok (w, []) →
      ∃ w', operands s' i last ops = .ok (w', []) ∧ List.Forall₂ Tracks w w' := by
  intro s s' hs
  induction hs with
  | nil =>
    intro _ i last ops w h
    obtain ⟨h1, h2⟩ := Prod.mk.inj (Except.ok.inj h)
    subst h1
    exact ⟨[], by rw [operands, h2], .nil⟩
  | @cons k k' t t' hk ht ih =>
    intro hl i last ops w h
    obtain ⟨n1, n2⟩ := tracks_tagged hk
    rw [operands] at h ⊢
    by_cases h0 : ops = []
    · rw [if_pos h0] at h ⊢
      cases h
      exact ⟨_, rfl, .cons hk ht⟩
    · rw [if_neg h0] at h ⊢
      rw [n1, n2]
      by_cases hn : k.longopts.isSome ∨ k.shortopts.isSome
      · rw [if_pos hn] at h ⊢
        obtain ⟨⟨w1, e⟩, h1, h2⟩ := bind_some_ok h
        dsimp only at h2
        obtain ⟨g1, g2⟩ := Prod.mk.inj (Except.ok.inj h2)
        subst g2
        obtain ⟨w', k1, k2⟩ := ih hl.tail _ _ _ _ h1
        exact ⟨k' :: w', by rw [k1]; rfl, by rw [← g1]; exact .cons hk k2⟩
      · rw [if_neg hn] at h ⊢
        rcases hk.scan with ⟨g1, g2, -⟩ | ⟨f, f', g1, g2, g3⟩
        · rw [g1] at h
          rw [g2]
          dsimp only at h ⊢
          obtain ⟨⟨w1, e⟩, h1, h2⟩ := bind_some_ok h
          dsimp only at h2
          obtain ⟨g1, g2⟩ := Prod.mk.inj (Except.ok.inj h2)
          subst g2
          obtain ⟨w', k1, k2⟩ := ih hl.tail _ _ _ _ h1
          exact ⟨k' :: w', by rw [k1]; rfl, by rw [← g1]; exact .cons hk k2⟩
        · rw [g1] at h
          rw [g2]
          dsimp only at h ⊢
          obtain ⟨⟨q, rest, c⟩, h1, h2⟩ := bind_some_ok h
          dsimp only at h2
          obtain ⟨⟨w1, e⟩, h3, h4⟩ := bind_some_ok h2
          dsimp only at h4
          obtain ⟨j1, j2⟩ := Prod.mk.inj (Except.ok.inj h4)
          subst j2
          have hr : rest = [] ∨ k'.maxcount = k.maxcount := by
            rcases hl 0 k k' rfl rfl with h | h | h
            · exfalso
              unfold tagged at h
              simp at h hn
              rcases h with h | h
              · rw [hn.2] at h; cases h
              · rw [hn.1] at h; cases h
            · exact Or.inr h
            · exact Or.inl (operands_untaken t _ _ _ _ (fun x hx => h x (by simpa using hx)) h3)
          obtain ⟨l1, q', l2, l3, l4⟩ := feed_tracks g3 hk.most ops hk.begins hk.room h1 hr
          obtain ⟨w', k1, k2⟩ := ih hl.tail _ _ _ _ h3
          rw [l2, bind_ok]
          dsimp only
          rw [k1]
          have hn' := tracks_next hk l3 l4 l1
          rw [g1, g2, n1, n2] at hn'
          exact ⟨_, rfl, by rw [← j1]; exact .cons hn' k2⟩

theorem checks_none : ∀ {s s' : List (Hdr (Obj δ))} (i : Nat), List.Forall₂ Tracks s s' → checks s i = [] →
    List.Forall₂ (fun h h' : Hdr (Obj δ) => h'.mincount ≤ h.mincount) s s' → checks s' i = [] := by
  intro s s' i hs
  induction hs generalizing i with
  | nil => intro _ _; rfl
  | @cons k k' t t' hk ht ih =>
    intro h hm
    cases hm with
    | cons hm1 hm2 =>
      rw [checks] at h ⊢
      rcases hk.check with ⟨-, a, b⟩ | ⟨-, a, b⟩
      · rw [a] at h
        rw [b]
        exact ih _ h hm2
      · rw [a] at h
        rw [b]
        dsimp only at h ⊢
        split at h
        · cases h
        · rename_i h0
          rw [if_neg ?_]
          · exact ih _ h hm2
          · rw [hk.begins.count]
            unfold countCheck at h0 ⊢
            split at h0
            · exact absurd (by decide) h0
            · rw [if_neg (by omega)]; decide

theorem checks_length : ∀ {s s' : List (Hdr (Obj δ))} (i : Nat), List.Forall₂ Tracks s s' → (checks s' i).length = tooFew s' := by
  intro s s' i hs
  induction hs generalizing i with
  | nil => rfl
  | @cons k k' t t' hk ht ih =>
    unfold tooFew at ih ⊢
    rw [checks, List.countP_cons]
    rcases hk.check with ⟨r, a, b⟩ | ⟨r, a, b⟩
    · rw [b]
      dsimp only
      rw [ih, hk.begins.isRem, r]
      simp
    · rw [b, hk.begins.isRem, r]
      dsimp only
      split
      · rename_i h0
        have hlt : (k'.parent.count : Int) < k'.mincount := by
          by_contra hlt
          unfold countCheck at h0
          rw [if_neg hlt] at h0
          exact h0 rfl
        simp [hlt, ih]
      · rename_i h0
        have hlt : ¬ (k'.parent.count : Int) < k'.mincount := by
          intro hlt
          unfold countCheck at h0
          rw [if_pos hlt] at h0
          exact h0 (by decide)
        simp [hlt, ih]

theorem live_rem_scan {R : CStr → Prop} {h : Hdr (Obj δ)} (hl : Live lc R h) (hr : isRem h.parent = true) : h.scanfn = none := by
  cases hl with
  | rem => rfl
  | _ => cases hr

theorem frame_back {σ : Type} {es es' : List (Hdr σ)} (h : Frame es es') {i : Nat} {a : Hdr σ} (ha : es'[i]? = some a) :
    ∃ b, es[i]? = some b ∧ SameHdr b a := by
  have hi : i < es'.length := (List.getElem?_eq_some_iff.1 ha).1
  have hi' : i < es.length := by rw [h.length_eq]; exact hi
  obtain ⟨a', h1, h2⟩ := frame_get h (List.getElem?_eq_getElem hi')
  rw [ha] at h1
  cases h1
  exact ⟨_, List.getElem?_eq_getElem hi', h2⟩

theorem sameHdr_tagged {σ : Type} {a b : Hdr σ} (h : SameHdr a b) : tagged b = tagged a := by
  unfold SameHdr at h; rw [h]; rfl

theorem sameHdr_max {σ : Type} {a b : Hdr σ} (h : SameHdr a b) : b.maxcount = a.maxcount := by
  unfold SameHdr at h; rw [h]

theorem sameHdr_min {σ : Type} {a b : Hdr σ} (h : SameHdr a b) : b.mincount = a.mincount := by
  unfold SameHdr at h; rw [h]

theorem sameHdr_scan {σ : Type} {a b : Hdr σ} (h : SameHdr a b) : b.scanfn = a.scanfn := by
  unfold SameHdr at h; rw [h]

theorem roomier_last {es es' s s' : List (Hdr (Obj δ))} (hl : RoomierTable lc es es') (hf : Frame es s) (hf' : Frame es' s') :
    LastFor s s' := by
  intro i h h' hi hi'
  obtain ⟨b, h1, h2⟩ := frame_back hf hi
  obtain ⟨b', h1', h2'⟩ := frame_back hf' hi'
  rw [sameHdr_tagged h2, sameHdr_max h2, sameHdr_max h2']
  rcases hl.last i b b' h1 h1' with h | h | h
  · exact Or.inl h
  · exact Or.inr (Or.inl h)
  · refine Or.inr (Or.inr fun k hk => ?_)
    obtain ⟨j, hj⟩ := List.mem_iff_getElem?.1 hk
    rw [List.getElem?_drop] at hj
    obtain ⟨c, h3, h4⟩ := frame_back hf hj
    rw [sameHdr_tagged h4, sameHdr_scan h4]
    rcases h c (List.mem_iff_getElem?.2 ⟨j, by rw [List.getElem?_drop]; exact h3⟩) with h | h
    · exact Or.inl h
    · obtain ⟨c', -, h6⟩ := pairs_get hl.each _ _ h3
      exact Or.inr (live_rem_scan (rebound_live h6.same).1 h)

end Argtable
