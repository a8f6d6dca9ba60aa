import Verif.Proofs.Loosen
/-!
# The same entries with tighter upper bounds: the two tables read the same as long as the counts fit
-/

namespace Argtable

open Spec

variable {δ : Type} {lc : Libc δ}

theorem storeAt_shorter {α : Type} {a b b' : List α} {i : Nat} {v : α} (hp : a <+: b) (h : storeAt b i v = .ok b')
    (hi : i < a.length) : ∃ a', storeAt a i v = .ok a' ∧ a' <+: b' ∧ a'.length = a.length := by
  unfold storeAt at h ⊢
  split at h
  · cases h
    obtain ⟨s, rfl⟩ := hp
    refine ⟨_, if_pos hi, ⟨s, ?_⟩, by simp⟩
    rw [List.set_append, if_pos hi]
  · cases h

/-- The arrays of the object have `n` elements. -/
def HasRoom (n : Nat) : Obj δ → Prop
  | .lit _ => True
  | .int o => o.ival.length = n
  | .dbl o => o.dval.length = n
  | .str o => o.sval.length = n
  | .file o => o.filename.length = n ∧ o.basename.length = n ∧ o.extension.length = n
  | .date o => o.tmval.length = n
  | .rex o => o.sval.length = n
  | .rem => True

/-- A scan function takes one value more, or refuses and leaves everything as it is. -/
def OneOrNone (f : Obj δ → Option CStr → M (Obj δ × Int)) : Prop :=
  ∀ (p : Obj δ) (a : Option CStr) (q : Obj δ) (c : Int), f p a = .ok (q, c) →
    c = 0 ∧ q.count = p.count + 1 ∨ c ≠ 0 ∧ q = p

/-- As long as the count stays within `m`, the scan function with the bound `m` takes what the one with the bound `m'` takes,
and refuses what it refuses. -/
def Narrow (m m' : Int) (f f' : Obj δ → Option CStr → M (Obj δ × Int)) : Prop :=
  ∀ (p p' : Obj δ) (a : Option CStr) (q' : Obj δ) (c' : Int), Begins p p' → HasRoom m.toNat p → p.count ≤ m.toNat →
    m ≤ m' → f' p' a = .ok (q', c') → q'.count ≤ m.toNat →
    ∃ q c, f p a = .ok (q, c) ∧ (c = 0 ↔ c' = 0) ∧ Begins q q' ∧ HasRoom m.toNat q ∧ isRem q = isRem p

theorem narrow_lit (m m' : Int) : Narrow (δ := δ) m m'
    (fun | .lit c, _ => .ok (.lit (litScan m c).1, (litScan m c).2) | _, _ => confused)
    (fun | .lit c, _ => .ok (.lit (litScan m' c).1, (litScan m' c).2) | _, _ => confused) := by
  intro p p' a q' c' hb hs hn hle h hq
  cases hb with
  | lit n =>
    change Except.ok _ = _ at h
    change n ≤ _ at hn
    show ∃ q c, Except.ok _ = _ ∧ _
    unfold litScan at h ⊢
    split at h
    · cases h
      change n + 1 ≤ _ at hq
      have : (n : Int) < m := by omega
      rw [if_pos this]
      exact ⟨_, _, rfl, Iff.rfl, .lit _, trivial, rfl⟩
    · cases h
      rw [if_neg (by omega)]
      exact ⟨_, _, rfl, Iff.rfl, .lit _, trivial, rfl⟩
  | _ => cases h

theorem one_lit (m : Int) : OneOrNone (δ := δ)
    (fun | .lit c, _ => .ok (.lit (litScan m c).1, (litScan m c).2) | _, _ => confused) := by
  intro p a q c h
  cases p with
  | lit n =>
    change Except.ok _ = _ at h
    unfold litScan at h
    split at h <;> cases h
    · exact Or.inl ⟨rfl, rfl⟩
    · exact Or.inr ⟨(show ARG_ERR_MAXCOUNT ≠ 0 by decide), rfl⟩
  | _ => cases h

theorem one_int (m : Int) : OneOrNone (δ := δ)
    (fun | .int o, a => (do let (o, e) ← intScan m o a; .ok (.int o, e)) | _, _ => confused) := by
  intro p a q c h
  cases p with
  | int o0 =>
    change (do let (o, e) ← intScan m o0 a; .ok (Obj.int o, e)) = (Except.ok (q, c) : M (Obj δ × Int)) at h
    obtain ⟨⟨o, e⟩, h1, h2⟩ := bind_some_ok h
    cases h2
    show _ ∧ o.count = o0.count + 1 ∨ _
    unfold intScan at h1
    split at h1
    · cases h1; exact Or.inr ⟨by decide, rfl⟩
    · cases a with
      | none => cases h1; exact Or.inl ⟨rfl, rfl⟩
      | some s =>
        dsimp only at h1
        obtain ⟨v, k1, k2⟩ := bind_some_ok h1
        cases v with
        | none => cases k2; exact Or.inr ⟨by decide, rfl⟩
        | some w =>
          obtain ⟨val, e'⟩ := w
          dsimp only at k2
          obtain ⟨⟨val', err⟩, k3, k4⟩ := bind_some_ok k2
          dsimp only at k4
          by_cases he : err = 0
          · rw [if_pos he] at k4
            obtain ⟨z, k5, k6⟩ := bind_some_ok k4
            cases k6
            exact Or.inl ⟨rfl, rfl⟩
          · rw [if_neg he] at k4
            cases k4
            exact Or.inr ⟨he, rfl⟩
  | _ => cases h

theorem narrow_int (m m' : Int) (hpos : (m.toNat : Int) = m) : Narrow (δ := δ) m m'
    (fun | .int o, a => (do let (o, e) ← intScan m o a; .ok (.int o, e)) | _, _ => confused)
    (fun | .int o, a => (do let (o, e) ← intScan m' o a; .ok (.int o, e)) | _, _ => confused) := by
  intro p p' a q' c' hb hs hn hle h hq
  have hone := one_int m' _ _ _ _ h
  cases hb with
  | @int n x y hxy =>
    change (do let (o, e) ← intScan m' ⟨n, y⟩ a; .ok (Obj.int o, e)) = (Except.ok (q', c') : M (Obj δ × Int)) at h
    change n ≤ _ at hn
    show ∃ q c, (do let (o, e) ← intScan m ⟨n, x⟩ a; .ok (Obj.int o, e)) = (Except.ok (q, c) : M (Obj δ × Int)) ∧ _
    by_cases h0 : (n : Int) = m
    · rcases hone with ⟨-, h3⟩ | ⟨h3, h4⟩
      · change q'.count = n + 1 at h3
        omega
      · subst h4
        unfold intScan
        dsimp only
        rw [if_pos h0]
        exact ⟨_, _, rfl, ⟨fun h => (by cases h), fun h => absurd h h3⟩, .int _ hxy, hs, rfl⟩
    · have hlt : n < m.toNat := by omega
      obtain ⟨⟨o, e⟩, h1, h2⟩ := bind_some_ok h
      cases h2
      unfold intScan at h1 ⊢
      dsimp only at h1 ⊢
      rw [if_neg (by omega)] at h1
      rw [if_neg h0]
      cases a with
      | none => cases h1; exact ⟨_, _, rfl, Iff.rfl, .int _ hxy, hs, rfl⟩
      | some s =>
        dsimp only at h1 ⊢
        obtain ⟨v, k1, k2⟩ := bind_some_ok h1
        rw [k1]
        cases v with
        | none => cases k2; exact ⟨_, _, rfl, Iff.rfl, .int _ hxy, hs, rfl⟩
        | some w =>
          obtain ⟨val, e'⟩ := w
          dsimp only at k2
          obtain ⟨⟨val', err⟩, k3, k4⟩ := bind_some_ok k2
          rw [bind_ok]
          dsimp only at k4 ⊢
          rw [k3, bind_ok]
          dsimp only
          by_cases he : err = 0
          · rw [if_pos he] at k4 ⊢
            obtain ⟨z, k5, k6⟩ := bind_some_ok k4
            cases k6
            obtain ⟨z', k7, k8, k9⟩ := storeAt_shorter hxy k5 (by rw [show x.length = m.toNat from hs]; exact hlt)
            rw [k7]
            exact ⟨_, _, rfl, Iff.rfl, .int _ k8, k9.trans hs, rfl⟩
          · rw [if_neg he] at k4 ⊢
            cases k4
            exact ⟨_, _, rfl, Iff.rfl, .int _ hxy, hs, rfl⟩
  | _ => cases h

theorem one_dbl (m : Int) : OneOrNone (δ := δ)
    (fun | .dbl o, a => (do let (o, e) ← dblScan lc.strtod m o a; .ok (.dbl o, e)) | _, _ => confused) := by
  intro p a q c h
  cases p with
  | dbl o0 =>
    change (do let (o, e) ← dblScan lc.strtod m o0 a; .ok (Obj.dbl o, e)) = (Except.ok (q, c) : M (Obj δ × Int)) at h
    obtain ⟨⟨o, e⟩, h1, h2⟩ := bind_some_ok h
    cases h2
    show _ ∧ o.count = o0.count + 1 ∨ _
    unfold dblScan at h1
    split at h1
    · cases h1; exact Or.inr ⟨by decide, rfl⟩
    · cases a with
      | none => cases h1; exact Or.inl ⟨rfl, rfl⟩
      | some s =>
        dsimp only at h1
        by_cases he : (lc.strtod s).2 = []
        · rw [if_pos he] at h1
          obtain ⟨z, k5, k6⟩ := bind_some_ok h1
          cases k6
          exact Or.inl ⟨rfl, rfl⟩
        · rw [if_neg he] at h1
          cases h1
          exact Or.inr ⟨by decide, rfl⟩
  | _ => cases h

theorem narrow_dbl (m m' : Int) (hpos : (m.toNat : Int) = m) : Narrow (δ := δ) m m'
    (fun | .dbl o, a => (do let (o, e) ← dblScan lc.strtod m o a; .ok (.dbl o, e)) | _, _ => confused)
    (fun | .dbl o, a => (do let (o, e) ← dblScan lc.strtod m' o a; .ok (.dbl o, e)) | _, _ => confused) := by
  intro p p' a q' c' hb hs hn hle h hq
  have hone := one_dbl (lc := lc) m' _ _ _ _ h
  cases hb with
  | @dbl n x y hxy =>
    change (do let (o, e) ← dblScan lc.strtod m' ⟨n, y⟩ a; .ok (Obj.dbl o, e)) = (Except.ok (q', c') : M (Obj δ × Int)) at h
    change n ≤ _ at hn
    show ∃ q c, (do let (o, e) ← dblScan lc.strtod m ⟨n, x⟩ a; .ok (Obj.dbl o, e)) = (Except.ok (q, c) : M (Obj δ × Int)) ∧ _
    by_cases h0 : (n : Int) = m
    · rcases hone with ⟨-, h3⟩ | ⟨h3, h4⟩
      · change q'.count = n + 1 at h3
        omega
      · subst h4
        unfold dblScan
        dsimp only
        rw [if_pos h0]
        exact ⟨_, _, rfl, ⟨fun h => (by cases h), fun h => absurd h h3⟩, .dbl _ hxy, hs, rfl⟩
    · have hlt : n < m.toNat := by omega
      obtain ⟨⟨o, e⟩, h1, h2⟩ := bind_some_ok h
      cases h2
      unfold dblScan at h1 ⊢
      dsimp only at h1 ⊢
      rw [if_neg (by omega)] at h1
      rw [if_neg h0]
      cases a with
      | none => cases h1; exact ⟨_, _, rfl, Iff.rfl, .dbl _ hxy, hs, rfl⟩
      | some s =>
        dsimp only at h1 ⊢
        by_cases he : (lc.strtod s).2 = []
        · rw [if_pos he] at h1 ⊢
          obtain ⟨z, k5, k6⟩ := bind_some_ok h1
          cases k6
          obtain ⟨z', k7, k8, k9⟩ := storeAt_shorter hxy k5 (by rw [show x.length = m.toNat from hs]; exact hlt)
          rw [k7]
          exact ⟨_, _, rfl, Iff.rfl, .dbl _ k8, k9.trans hs, rfl⟩
        · rw [if_neg he] at h1 ⊢
          cases h1
          exact ⟨_, _, rfl, Iff.rfl, .dbl _ hxy, hs, rfl⟩
  | _ => cases h

theorem one_str (m : Int) : OneOrNone (δ := δ)
    (fun | .str o, a => (do let (o, e) ← strScan m o a; .ok (.str o, e)) | _, _ => confused) := by
  intro p a q c h
  cases p with
  | str o0 =>
    change (do let (o, e) ← strScan m o0 a; .ok (Obj.str o, e)) = (Except.ok (q, c) : M (Obj δ × Int)) at h
    obtain ⟨⟨o, e⟩, h1, h2⟩ := bind_some_ok h
    cases h2
    show _ ∧ o.count = o0.count + 1 ∨ _
    unfold strScan at h1
    split at h1
    · cases h1; exact Or.inr ⟨by decide, rfl⟩
    · cases a with
      | none => cases h1; exact Or.inl ⟨rfl, rfl⟩
      | some s =>
        dsimp only at h1
        obtain ⟨z, k5, k6⟩ := bind_some_ok h1
        cases k6
        exact Or.inl ⟨rfl, rfl⟩
  | _ => cases h

theorem narrow_str (m m' : Int) (hpos : (m.toNat : Int) = m) : Narrow (δ := δ) m m'
    (fun | .str o, a => (do let (o, e) ← strScan m o a; .ok (.str o, e)) | _, _ => confused)
    (fun | .str o, a => (do let (o, e) ← strScan m' o a; .ok (.str o, e)) | _, _ => confused) := by
  intro p p' a q' c' hb hs hn hle h hq
  have hone := one_str m' _ _ _ _ h
  cases hb with
  | @str n x y hxy =>
    change (do let (o, e) ← strScan m' ⟨n, y⟩ a; .ok (Obj.str o, e)) = (Except.ok (q', c') : M (Obj δ × Int)) at h
    change n ≤ _ at hn
    show ∃ q c, (do let (o, e) ← strScan m ⟨n, x⟩ a; .ok (Obj.str o, e)) = (Except.ok (q, c) : M (Obj δ × Int)) ∧ _
    by_cases h0 : (n : Int) = m
    · rcases hone with ⟨-, h3⟩ | ⟨h3, h4⟩
      · change q'.count = n + 1 at h3
        omega
      · subst h4
        unfold strScan
        dsimp only
        rw [if_pos h0]
        exact ⟨_, _, rfl, ⟨fun h => (by cases h), fun h => absurd h h3⟩, .str _ hxy, hs, rfl⟩
    · have hlt : n < m.toNat := by omega
      obtain ⟨⟨o, e⟩, h1, h2⟩ := bind_some_ok h
      cases h2
      unfold strScan at h1 ⊢
      dsimp only at h1 ⊢
      rw [if_neg (by omega)] at h1
      rw [if_neg h0]
      cases a with
      | none => cases h1; exact ⟨_, _, rfl, Iff.rfl, .str _ hxy, hs, rfl⟩
      | some s =>
        dsimp only at h1 ⊢
        obtain ⟨z, k5, k6⟩ := bind_some_ok h1
        cases k6
        obtain ⟨z', k7, k8, k9⟩ := storeAt_shorter hxy k5 (by rw [show x.length = m.toNat from hs]; exact hlt)
        rw [k7]
        exact ⟨_, _, rfl, Iff.rfl, .str _ k8, k9.trans hs, rfl⟩
  | _ => cases h

theorem one_file (m : Int) : OneOrNone (δ := δ)
    (fun | .file o, a => (do let (o, e) ← fileScan m o a; .ok (.file o, e)) | _, _ => confused) := by
  intro p a q c h
  cases p with
  | file o0 =>
    change (do let (o, e) ← fileScan m o0 a; .ok (Obj.file o, e)) = (Except.ok (q, c) : M (Obj δ × Int)) at h
    obtain ⟨⟨o, e⟩, h1, h2⟩ := bind_some_ok h
    cases h2
    show _ ∧ o.count = o0.count + 1 ∨ _
    unfold fileScan at h1
    split at h1
    · cases h1; exact Or.inr ⟨by decide, rfl⟩
    · cases a with
      | none => cases h1; exact Or.inl ⟨rfl, rfl⟩
      | some s =>
        dsimp only at h1
        obtain ⟨z1, k1, h1⟩ := bind_some_ok h1
        obtain ⟨z2, k2, h1⟩ := bind_some_ok h1
        obtain ⟨z3, k3, h1⟩ := bind_some_ok h1
        cases h1
        exact Or.inl ⟨rfl, rfl⟩
  | _ => cases h

theorem narrow_file (m m' : Int) (hpos : (m.toNat : Int) = m) : Narrow (δ := δ) m m'
    (fun | .file o, a => (do let (o, e) ← fileScan m o a; .ok (.file o, e)) | _, _ => confused)
    (fun | .file o, a => (do let (o, e) ← fileScan m' o a; .ok (.file o, e)) | _, _ => confused) := by
  intro p p' a q' c' hb hs hn hle h hq
  have hone := one_file m' _ _ _ _ h
  cases hb with
  | @file n x1 x2 x3 y1 y2 y3 g1 g2 g3 =>
    change (do let (o, e) ← fileScan m' ⟨n, y1, y2, y3⟩ a; .ok (Obj.file o, e)) = (Except.ok (q', c') : M (Obj δ × Int)) at h
    change n ≤ _ at hn
    show ∃ q c, (do let (o, e) ← fileScan m ⟨n, x1, x2, x3⟩ a; .ok (Obj.file o, e)) = (Except.ok (q, c) : M (Obj δ × Int)) ∧ _
    by_cases h0 : (n : Int) = m
    · rcases hone with ⟨-, h3⟩ | ⟨h3, h4⟩
      · change q'.count = n + 1 at h3
        omega
      · subst h4
        unfold fileScan
        dsimp only
        rw [if_pos h0]
        exact ⟨_, _, rfl, ⟨fun h => (by cases h), fun h => absurd h h3⟩, .file _ g1 g2 g3, hs, rfl⟩
    · have hlt : n < m.toNat := by omega
      obtain ⟨⟨o, e⟩, h1, h2⟩ := bind_some_ok h
      cases h2
      unfold fileScan at h1 ⊢
      dsimp only at h1 ⊢
      rw [if_neg (by omega)] at h1
      rw [if_neg h0]
      cases a with
      | none => cases h1; exact ⟨_, _, rfl, Iff.rfl, .file _ g1 g2 g3, hs, rfl⟩
      | some s =>
        dsimp only at h1 ⊢
        obtain ⟨z1, k1, h1⟩ := bind_some_ok h1
        obtain ⟨z2, k2, h1⟩ := bind_some_ok h1
        obtain ⟨z3, k3, h1⟩ := bind_some_ok h1
        cases h1
        obtain ⟨s1, s2, s3⟩ : x1.length = m.toNat ∧ x2.length = m.toNat ∧ x3.length = m.toNat := hs
        obtain ⟨w1, l1, j1, t1⟩ := storeAt_shorter g1 k1 (by rw [s1]; exact hlt)
        obtain ⟨w2, l2, j2, t2⟩ := storeAt_shorter g2 k2 (by rw [s2]; exact hlt)
        obtain ⟨w3, l3, j3, t3⟩ := storeAt_shorter g3 k3 (by rw [s3]; exact hlt)
        rw [l1, bind_ok, l2, bind_ok, l3]
        exact ⟨_, _, rfl, Iff.rfl, .file _ j1 j2 j3, ⟨t1.trans s1, t2.trans s2, t3.trans s3⟩, rfl⟩
  | _ => cases h

theorem one_date (fmt : CStr) (m : Int) : OneOrNone (δ := δ)
    (fun | .date o, a => (do let (o, e) ← dateScan fmt m o a; .ok (.date o, e)) | _, _ => confused) := by
  intro p a q c h
  cases p with
  | date o0 =>
    change (do let (o, e) ← dateScan fmt m o0 a; .ok (Obj.date o, e)) = (Except.ok (q, c) : M (Obj δ × Int)) at h
    obtain ⟨⟨o, e⟩, h1, h2⟩ := bind_some_ok h
    cases h2
    show _ ∧ o.count = o0.count + 1 ∨ _
    unfold dateScan at h1
    split at h1
    · cases h1; exact Or.inr ⟨by decide, rfl⟩
    · cases a with
      | none => cases h1; exact Or.inl ⟨rfl, rfl⟩
      | some s =>
        dsimp only at h1
        cases hy : o0.tmval[o0.count]? with
        | none => rw [hy] at h1; cases h1
        | some tm =>
          rw [hy] at h1
          dsimp only at h1
          split at h1
          · obtain ⟨z, k5, k6⟩ := bind_some_ok h1
            cases k6
            exact Or.inl ⟨rfl, rfl⟩
          · cases h1
            exact Or.inr ⟨by decide, rfl⟩
  | _ => cases h

theorem narrow_date (fmt : CStr) (m m' : Int) (hpos : (m.toNat : Int) = m) : Narrow (δ := δ) m m'
    (fun | .date o, a => (do let (o, e) ← dateScan fmt m o a; .ok (.date o, e)) | _, _ => confused)
    (fun | .date o, a => (do let (o, e) ← dateScan fmt m' o a; .ok (.date o, e)) | _, _ => confused) := by
  intro p p' a q' c' hb hs hn hle h hq
  have hone := one_date fmt m' _ _ _ _ h
  cases hb with
  | @date n x y hxy =>
    change (do let (o, e) ← dateScan fmt m' ⟨n, y⟩ a; .ok (Obj.date o, e)) = (Except.ok (q', c') : M (Obj δ × Int)) at h
    change n ≤ _ at hn
    show ∃ q c, (do let (o, e) ← dateScan fmt m ⟨n, x⟩ a; .ok (Obj.date o, e)) = (Except.ok (q, c) : M (Obj δ × Int)) ∧ _
    by_cases h0 : (n : Int) = m
    · rcases hone with ⟨-, h3⟩ | ⟨h3, h4⟩
      · change q'.count = n + 1 at h3
        omega
      · subst h4
        unfold dateScan
        dsimp only
        rw [if_pos h0]
        exact ⟨_, _, rfl, ⟨fun h => (by cases h), fun h => absurd h h3⟩, .date _ hxy, hs, rfl⟩
    · have hlt : n < m.toNat := by omega
      obtain ⟨⟨o, e⟩, h1, h2⟩ := bind_some_ok h
      cases h2
      unfold dateScan at h1 ⊢
      dsimp only at h1 ⊢
      rw [if_neg (by omega)] at h1
      rw [if_neg h0]
      cases a with
      | none => cases h1; exact ⟨_, _, rfl, Iff.rfl, .date _ hxy, hs, rfl⟩
      | some s =>
        dsimp only at h1 ⊢
        have hx : n < x.length := by rw [show x.length = m.toNat from hs]; exact hlt
        have hy : y[n]? = some x[n] := by
          obtain ⟨t, rfl⟩ := hxy
          rw [List.getElem?_append_left hx]
          exact List.getElem?_eq_getElem hx
        rw [hy] at h1
        rw [List.getElem?_eq_getElem hx]
        dsimp only at h1 ⊢
        split at h1
        · obtain ⟨z, k5, k6⟩ := bind_some_ok h1
          cases k6
          obtain ⟨z', k7, k8, k9⟩ := storeAt_shorter hxy k5 (by rw [show x.length = m.toNat from hs]; exact hlt)
          rw [k7]
          exact ⟨_, _, rfl, Iff.rfl, .date _ k8, k9.trans hs, rfl⟩
        · cases h1
          exact ⟨_, _, rfl, Iff.rfl, .date _ hxy, hs, rfl⟩
  | _ => cases h

theorem one_rex (pat : CStr) (ic : Bool) (m : Int) : OneOrNone (δ := δ)
    (fun | .rex o, a => (do let (o, e) ← rexScan pat ic m o a; .ok (.rex o, e)) | _, _ => confused) := by
  intro p a q c h
  cases p with
  | rex o0 =>
    change (do let (o, e) ← rexScan pat ic m o0 a; .ok (Obj.rex o, e)) = (Except.ok (q, c) : M (Obj δ × Int)) at h
    obtain ⟨⟨o, e⟩, h1, h2⟩ := bind_some_ok h
    cases h2
    show _ ∧ o.count = o0.count + 1 ∨ _
    unfold rexScan at h1
    split at h1
    · cases h1; exact Or.inr ⟨by decide, rfl⟩
    · cases a with
      | none => cases h1; exact Or.inl ⟨rfl, rfl⟩
      | some s =>
        dsimp only at h1
        obtain ⟨v, k1, k2⟩ := bind_some_ok h1
        cases v with
        | none => cases k2
        | some nodes =>
          dsimp only at k2
          obtain ⟨b, k3, k4⟩ := bind_some_ok k2
          cases b with
          | true =>
            rw [if_pos rfl] at k4
            obtain ⟨z, k5, k6⟩ := bind_some_ok k4
            cases k6
            exact Or.inl ⟨rfl, rfl⟩
          | false =>
            rw [if_neg (by decide)] at k4
            cases k4
            exact Or.inr ⟨by decide, rfl⟩
  | _ => cases h

theorem narrow_rex (pat : CStr) (ic : Bool) (m m' : Int) (hpos : (m.toNat : Int) = m) : Narrow (δ := δ) m m'
    (fun | .rex o, a => (do let (o, e) ← rexScan pat ic m o a; .ok (.rex o, e)) | _, _ => confused)
    (fun | .rex o, a => (do let (o, e) ← rexScan pat ic m' o a; .ok (.rex o, e)) | _, _ => confused) := by
  intro p p' a q' c' hb hs hn hle h hq
  have hone := one_rex pat ic m' _ _ _ _ h
  cases hb with
  | @rex n x y hxy =>
    change (do let (o, e) ← rexScan pat ic m' ⟨n, y⟩ a; .ok (Obj.rex o, e)) = (Except.ok (q', c') : M (Obj δ × Int)) at h
    change n ≤ _ at hn
    show ∃ q c, (do let (o, e) ← rexScan pat ic m ⟨n, x⟩ a; .ok (Obj.rex o, e)) = (Except.ok (q, c) : M (Obj δ × Int)) ∧ _
    by_cases h0 : (n : Int) = m
    · rcases hone with ⟨-, h3⟩ | ⟨h3, h4⟩
      · change q'.count = n + 1 at h3
        omega
      · subst h4
        unfold rexScan
        dsimp only
        rw [if_pos h0]
        exact ⟨_, _, rfl, ⟨fun h => (by cases h), fun h => absurd h h3⟩, .rex _ hxy, hs, rfl⟩
    · have hlt : n < m.toNat := by omega
      obtain ⟨⟨o, e⟩, h1, h2⟩ := bind_some_ok h
      cases h2
      unfold rexScan at h1 ⊢
      dsimp only at h1 ⊢
      rw [if_neg (by omega)] at h1
      rw [if_neg h0]
      cases a with
      | none => cases h1; exact ⟨_, _, rfl, Iff.rfl, .rex _ hxy, hs, rfl⟩
      | some s =>
        dsimp only at h1 ⊢
        obtain ⟨v, k1, k2⟩ := bind_some_ok h1
        rw [k1, bind_ok]
        cases v with
        | none => cases k2
        | some nodes =>
          dsimp only at k2 ⊢
          obtain ⟨b, k3, k4⟩ := bind_some_ok k2
          rw [k3, bind_ok]
          cases b with
          | true =>
            rw [if_pos rfl] at k4 ⊢
            obtain ⟨z, k5, k6⟩ := bind_some_ok k4
            cases k6
            obtain ⟨z', k7, k8, k9⟩ := storeAt_shorter hxy k5 (by rw [show x.length = m.toNat from hs]; exact hlt)
            rw [k7]
            exact ⟨_, _, rfl, Iff.rfl, .rex _ k8, k9.trans hs, rfl⟩
          | false =>
            rw [if_neg (by decide)] at k4 ⊢
            cases k4
            exact ⟨_, _, rfl, Iff.rfl, .rex _ hxy, hs, rfl⟩
  | _ => cases h

/-- The two entries now, with what is needed to read on with the tighter one. -/
structure Trims (h h' : Hdr (Obj δ)) : Prop where
  tracks : Tracks h h'
  scan : ∀ f f', h.scanfn = some f → h'.scanfn = some f' → Narrow h.maxcount h'.maxcount f f' ∧ OneOrNone f'
  size : HasRoom h.maxcount.toNat h.parent

theorem rebound_narrow {h h' : Hdr (Obj δ)} (hr : Rebound lc h h') {f f' : Obj δ → Option CStr → M (Obj δ × Int)}
    (hf : h.scanfn = some f) (hf' : h'.scanfn = some f') : Narrow h.maxcount h'.maxcount f f' ∧ OneOrNone f' := by
  cases hr with
  | lit => cases hf; cases hf'; exact ⟨narrow_lit _ _, one_lit _⟩
  | int so lo dt dt' gl gl' mn mx mn' mx' k k' ov o o' h1 h2 a b c d =>
    obtain ⟨e1, e2, -, -, -, -, -, -, -, -, e3⟩ := argIntn_inv h1
    obtain ⟨e1', -, -, -, -, -, -, -, -, -, e3'⟩ := argIntn_inv h2
    dsimp only at hf hf' ⊢
    rw [e3] at hf
    rw [e3'] at hf'
    cases hf
    cases hf'
    rw [← e1, ← e1']
    exact ⟨narrow_int _ _ e2, one_int _⟩
  | dbl ad ad' so lo dt dt' gl gl' mn mx mn' mx' k k' ov o o' h1 h2 a b c d =>
    obtain ⟨e1, e2, -, -, -, -, -, -, -, -, e3⟩ := argDbln_inv h1
    obtain ⟨e1', -, -, -, -, -, -, -, -, -, e3'⟩ := argDbln_inv h2
    dsimp only at hf hf' ⊢
    rw [e3] at hf
    rw [e3'] at hf'
    cases hf
    cases hf'
    rw [← e1, ← e1']
    exact ⟨narrow_dbl _ _ e2, one_dbl _⟩
  | str so lo dt dt' gl gl' mn mx mn' mx' k k' ov o o' h1 h2 a b c d =>
    obtain ⟨e1, e2, -, -, -, -, -, -, -, -, e3⟩ := argStrn_inv h1
    obtain ⟨e1', -, -, -, -, -, -, -, -, -, e3'⟩ := argStrn_inv h2
    dsimp only at hf hf' ⊢
    rw [e3] at hf
    rw [e3'] at hf'
    cases hf
    cases hf'
    rw [← e1, ← e1']
    exact ⟨narrow_str _ _ e2, one_str _⟩
  | file so lo dt dt' gl gl' mn mx mn' mx' k k' ov o o' h1 h2 a b c d a' b' c' d' =>
    obtain ⟨e1, e2, -, -, -, -, -, -, -, -, e3⟩ := argFilen_inv h1
    obtain ⟨e1', -, -, -, -, -, -, -, -, -, e3'⟩ := argFilen_inv h2
    dsimp only at hf hf' ⊢
    rw [e3] at hf
    rw [e3'] at hf'
    cases hf
    cases hf'
    rw [← e1, ← e1']
    exact ⟨narrow_file _ _ e2, one_file _⟩
  | date so lo fm dt dt' gl gl' mn mx mn' mx' k k' ov o o' h1 h2 a b c d =>
    obtain ⟨e1, e2, -, -, -, -, -, -, -, -, e3⟩ := argDaten_inv h1
    obtain ⟨e1', -, -, -, -, -, -, -, -, -, e3'⟩ := argDaten_inv h2
    dsimp only at hf hf' ⊢
    rw [e3] at hf
    rw [e3'] at hf'
    cases hf
    cases hf'
    rw [← e1, ← e1']
    exact ⟨narrow_date _ _ _ e2, one_date _ _⟩
  | rex so lo pat ic dt dt' gl gl' mn mx mn' mx' k k' ov o o' h1 h2 a b c d =>
    obtain ⟨e1, e2, -, -, -, -, -, -, -, -, e3, -⟩ := argRexn_inv h1
    obtain ⟨e1', -, -, -, -, -, -, -, -, -, e3', -⟩ := argRexn_inv h2
    dsimp only at hf hf' ⊢
    rw [e3] at hf
    rw [e3'] at hf'
    cases hf
    cases hf'
    rw [← e1, ← e1']
    exact ⟨narrow_rex _ _ _ _ e2, one_rex _ _ _⟩
  | rem => cases hf

theorem rebound_room {h h' : Hdr (Obj δ)} (hr : Rebound lc h h') : HasRoom h.maxcount.toNat (presets h.parent) := by
  cases hr with
  | lit => trivial
  | int so lo dt dt' gl gl' mn mx mn' mx' k k' ov o o' h1 h2 a b c d => show o.ival.length = _; dsimp only; omega
  | dbl ad ad' so lo dt dt' gl gl' mn mx mn' mx' k k' ov o o' h1 h2 a b c d => show o.dval.length = _; dsimp only; omega
  | str so lo dt dt' gl gl' mn mx mn' mx' k k' ov o o' h1 h2 a b c d =>
    show (emptied o.count o.sval).length = _
    unfold emptied
    simp only [List.length_append, List.length_replicate, List.length_drop]
    omega
  | file so lo dt dt' gl gl' mn mx mn' mx' k k' ov o o' h1 h2 a b c d a' b' c' d' =>
    show o.filename.length = _ ∧ o.basename.length = _ ∧ o.extension.length = _
    dsimp only
    omega
  | date so lo fm dt dt' gl gl' mn mx mn' mx' k k' ov o o' h1 h2 a b c d => show o.tmval.length = _; dsimp only; omega
  | rex so lo pat ic dt dt' gl gl' mn mx mn' mx' k k' ov o o' h1 h2 a b c d => show o.sval.length = _; dsimp only; omega
  | rem => trivial

theorem roomier_trims {h h' : Hdr (Obj δ)} (hl : Roomier lc h h') :
    Trims { h with parent := presets h.parent } { h' with parent := presets h'.parent } :=
  ⟨roomier_tracks hl, fun _ _ hf hf' => rebound_narrow hl.same hf hf', rebound_room hl.same⟩
theorem trims_next {h h' : Hdr (Obj δ)} (ht : Trims h h') {q q' : Obj δ} (hb : Begins q q') (hq : isRem q = isRem h.parent)
    (hr : q.count ≤ h.maxcount.toNat) (hs : HasRoom h.maxcount.toNat q) :
    Trims { h with parent := q } { h' with parent := q' } := ⟨tracks_next ht.tracks hb hq hr, ht.scan, hs⟩

/-- Each entry of `w` has as many values as the one of `s` or more. -/
def NoLess (s w : List (Hdr (Obj δ))) : Prop := List.Forall₂ (fun h k : Hdr (Obj δ) => h.parent.count ≤ k.parent.count) s w

theorem noLess_refl (s : List (Hdr (Obj δ))) : NoLess s s := by
  induction s with
  | nil => exact .nil
  | cons h s ih => exact .cons (Nat.le_refl _) ih

theorem noLess_trans {a b c : List (Hdr (Obj δ))} (h1 : NoLess a b) (h2 : NoLess b c) : NoLess a c := by
  unfold NoLess at *
  induction h1 generalizing c with
  | nil => exact h2
  | cons h _ ih =>
    cases h2 with
    | cons k l => exact .cons (Nat.le_trans h k) (ih l)

theorem one_noLess {f : Obj δ → Option CStr → M (Obj δ × Int)} (hf : OneOrNone f) {p : Obj δ} {a : Option CStr} {q : Obj δ}
    {c : Int} (h : f p a = .ok (q, c)) : p.count ≤ q.count := by
  rcases hf _ _ _ _ h with ⟨-, h⟩ | ⟨-, h⟩
  · omega
  · rw [h]

/-- The scan functions of the entries take one value or none. -/
def Ones (s : List (Hdr (Obj δ))) : Prop := ∀ h ∈ s, ∀ f, h.scanfn = some f → OneOrNone f

theorem noLess_set {s : List (Hdr (Obj δ))} {i : Nat} {h k : Hdr (Obj δ)} (hi : s[i]? = some h)
    (hk : h.parent.count ≤ k.parent.count) : NoLess s (s.set i k) := by
  unfold NoLess
  induction s generalizing i with
  | nil => simp at hi
  | cons a s ih =>
    cases i with
    | zero => cases hi; exact .cons hk (noLess_refl s)
    | succ i => exact .cons (Nat.le_refl _) (ih hi)

theorem deliver_noLess {s w : List (Hdr (Obj δ))} (ho : Ones s) {e e' : List ErrRec} {ev : Ev}
    (h : deliver (s, e) ev = .ok (w, e')) : NoLess s w ∧ Ones w := by
  cases ev with
  | fail c v => cases h; exact ⟨noLess_refl _, ho⟩
  | deliver i a =>
    unfold deliver at h
    dsimp only at h
    cases hi : s[i]? with
    | none => rw [hi] at h; cases h
    | some k =>
      rw [hi] at h
      dsimp only at h
      cases hf : k.scanfn with
      | none => rw [hf] at h; cases h; exact ⟨noLess_refl _, ho⟩
      | some f =>
        rw [hf] at h
        dsimp only at h
        obtain ⟨⟨q, c⟩, k1, k2⟩ := bind_some_ok h
        dsimp only at k2
        obtain ⟨k3, -⟩ := Prod.mk.inj (Except.ok.inj k2)
        subst k3
        have hof := ho k (List.mem_of_getElem? hi) f hf
        refine ⟨noLess_set hi (one_noLess hof k1), ?_⟩
        intro x hx g hg
        rcases List.mem_or_eq_of_mem_set hx with hx | hx
        · exact ho x hx g hg
        · subst hx
          cases hg
          exact hof

theorem deliverAll_noLess : ∀ (evs : List Ev) {s w : List (Hdr (Obj δ))} {e e' : List ErrRec}, Ones s →
    deliverAll evs (s, e) = .ok (w, e') → NoLess s w ∧ Ones w := by
  intro evs
  induction evs with
  | nil => intro s w e e' ho h; cases h; exact ⟨noLess_refl _, ho⟩
  | cons ev evs ih =>
    intro s w e e' ho h
    rw [deliverAll] at h
    obtain ⟨⟨w1, e1⟩, h1, h2⟩ := bind_some_ok h
    obtain ⟨k1, k2⟩ := deliver_noLess ho h1
    obtain ⟨k3, k4⟩ := ih k2 h2
    exact ⟨noLess_trans k1 k3, k4⟩

theorem feed_noLess {f : Obj δ → Option CStr → M (Obj δ × Int)} (hf : OneOrNone f) : ∀ (ops : List CStr) {p q : Obj δ}
    {rest : List CStr} {c : Int}, feed f p ops = .ok (q, rest, c) → p.count ≤ q.count := by
  intro ops
  induction ops with
  | nil => intro p q rest c h; cases h; exact Nat.le_refl _
  | cons a ops ih =>
    intro p q rest c h
    rw [feed] at h
    obtain ⟨⟨p1, c1⟩, h1, h2⟩ := bind_some_ok h
    dsimp only at h2
    have := one_noLess hf h1
    by_cases h0 : c1 = 0
    · rw [if_pos h0] at h2
      exact Nat.le_trans this (ih h2)
    · rw [if_neg h0] at h2
      cases h2
      exact this

theorem operands_noLess : ∀ {s : List (Hdr (Obj δ))} (i : Nat) (last : Option (Int × Nat)) (ops : List CStr)
    {w : List (Hdr (Obj δ))} {e : List ErrRec}, Ones s → operands s i last ops = .ok (w, e) → NoLess s w := by
  intro s
  induction s with
  | nil => intro i last ops w e _ h; rw [← (Prod.mk.inj (Except.ok.inj h)).1]; exact .nil
  | cons k t ih =>
    intro i last ops w e ho h
    have ht : Ones t := fun x hx => ho x (by simp [hx])
    rw [operands] at h
    split at h
    · cases h; exact noLess_refl _
    · split at h
      · obtain ⟨⟨w1, e1⟩, h1, h2⟩ := bind_some_ok h
        rw [← (Prod.mk.inj (Except.ok.inj h2)).1]
        exact .cons (Nat.le_refl _) (ih _ _ _ ht h1)
      · cases hf : k.scanfn with
        | none =>
          rw [hf] at h
          obtain ⟨⟨w1, e1⟩, h1, h2⟩ := bind_some_ok h
          rw [← (Prod.mk.inj (Except.ok.inj h2)).1]
          exact .cons (Nat.le_refl _) (ih _ _ _ ht h1)
        | some f =>
          rw [hf] at h
          dsimp only at h
          obtain ⟨⟨q, rest, c⟩, h1, h2⟩ := bind_some_ok h
          dsimp only at h2
          obtain ⟨⟨w1, e1⟩, h3, h4⟩ := bind_some_ok h2
          rw [← (Prod.mk.inj (Except.ok.inj h4)).1]
          exact .cons (feed_noLess (ho k (by simp) f hf) _ h1) (ih _ _ _ ht h3)

/-- The counts of `w'` are within the upper bounds of `s`. -/
def Fits (s w' : List (Hdr (Obj δ))) : Prop :=
  List.Forall₂ (fun h k : Hdr (Obj δ) => k.parent.count ≤ h.maxcount.toNat) s w'

theorem fits_noLess {s a w : List (Hdr (Obj δ))} (h : NoLess a w) (hf : Fits s w) : Fits s a := by
  unfold Fits at *
  induction hf generalizing a with
  | nil => cases h; exact .nil
  | cons h1 _ ih =>
    cases h with
    | cons k1 k2 => exact .cons (Nat.le_trans k1 h1) (ih k2)

theorem deliver_trims {s s' : List (Hdr (Obj δ))} (hs : List.Forall₂ Trims s s') {ev : Ev} {w' : List (Hdr (Obj δ))}
    (h : deliver (s', []) ev = .ok (w', [])) (hfit : Fits s w') :
    ∃ w, deliver (s, []) ev = .ok (w, []) ∧ List.Forall₂ Trims w w' ∧ Fits w w' := by
  cases ev with
  | fail c v => cases h
  | deliver i a =>
    unfold deliver at h ⊢
    dsimp only at h ⊢
    cases hi' : s'[i]? with
    | none => rw [hi'] at h; cases h
    | some k' =>
      obtain ⟨k, hi, ht⟩ := pairs_get hs.flip i k' hi'
      rw [hi'] at h
      rw [hi]
      dsimp only at h ⊢
      rcases ht.tracks.scan with ⟨g1, g2, -⟩ | ⟨f, f', g1, g2, -⟩
      · rw [g2] at h
        rw [g1]
        cases h
        exact ⟨_, rfl, hs, hfit⟩
      · obtain ⟨g3, -⟩ := ht.scan f f' g1 g2
        rw [g2] at h
        rw [g1]
        dsimp only at h ⊢
        obtain ⟨⟨q', c⟩, k1, k2⟩ := bind_some_ok h
        dsimp only at k2
        obtain ⟨k3, k4⟩ := Prod.mk.inj (Except.ok.inj k2)
        have hc : c = 0 := by
          by_cases hc : c = 0
          · exact hc
          · rw [if_pos hc] at k4; simp at k4
        subst hc
        have hq : q'.count ≤ k.maxcount.toNat := by
          obtain ⟨x, x1, x2⟩ := pairs_get hfit i k hi
          rw [← k3, List.getElem?_set_self (List.getElem?_eq_some_iff.1 hi').1] at x1
          cases x1
          exact x2
        obtain ⟨q, c, l1, l2, l3, l4, l5⟩ := g3 _ _ a q' 0 ht.tracks.begins ht.size ht.tracks.room ht.tracks.most k1 hq
        have hc : c = 0 := l2.2 rfl
        subst hc
        rw [l1]
        have hn := trims_next ht l3 l5 (by rw [← l3.count]; exact hq) l4
        rw [g1, g2] at hn
        refine ⟨_, rfl, ?_, ?_⟩
        · rw [← k3]
          exact pairs_set hs hn i
        · have := pairs_set hfit (a := { k with parent := q }) (b := { k' with parent := q' }) hq i
          rw [g1, g2, ← k3, List.set_set] at this
          rw [← k3]
          exact this

theorem fits_of_trims {s w w' : List (Hdr (Obj δ))} (hf : Frame s w) (h : Fits s w') : Fits w w' := by
  unfold Fits at *
  rw [List.forall₂_iff_get] at h ⊢
  refine ⟨by rw [← hf.length_eq]; exact h.1, fun i hi hi' => ?_⟩
  obtain ⟨b, b1, b2⟩ := frame_back hf (List.getElem?_eq_getElem hi)
  have hb := List.getElem?_eq_some_iff.1 b1
  have := h.2 i hb.1 hi'
  simp only [List.get_eq_getElem] at this ⊢
  rw [sameHdr_max b2, ← hb.2]
  exact this
theorem trims_ones {s s' : List (Hdr (Obj δ))} (hs : List.Forall₂ Trims s s') : Ones s' := by
  intro k' hk' f' hf'
  obtain ⟨i, hi'⟩ := List.mem_iff_getElem?.1 hk'
  obtain ⟨k, hi, ht⟩ := pairs_get hs.flip i k' hi'
  rcases ht.tracks.scan with ⟨g1, g2, -⟩ | ⟨f, f2, g1, g2, -⟩
  · rw [hf'] at g2; cases g2
  · exact (ht.scan f f' g1 hf').2

theorem deliverAll_trims : ∀ (evs : List Ev) {s s' w' : List (Hdr (Obj δ))}, List.Forall₂ Trims s s' →
    deliverAll evs (s', []) = .ok (w', []) → Fits s w' →
    ∃ w, deliverAll evs (s, []) = .ok (w, []) ∧ List.Forall₂ Trims w w' ∧ Fits w w' := by
  intro evs
  induction evs with
  | nil => intro s s' w' hs h hf; cases h; exact ⟨_, rfl, hs, hf⟩
  | cons ev evs ih =>
    intro s s' w' hs h hf
    rw [deliverAll] at h
    obtain ⟨⟨w1', e1⟩, h1, h2⟩ := bind_some_ok h
    obtain ⟨e, h3, -⟩ := deliverAll_grows _ _ _ h2
    dsimp only at h3
    have : e1 = [] := (List.append_eq_nil_iff.1 h3.symm).1
    subst this
    obtain ⟨j1, j2⟩ := deliver_noLess (trims_ones hs) h1
    obtain ⟨j3, -⟩ := deliverAll_noLess _ j2 h2
    obtain ⟨w1, k1, k2, k3⟩ := deliver_trims hs h1 (fits_noLess j3 hf)
    have hfr : Frame s w1 := deliver_frame k1
    obtain ⟨w, k4, k5, k6⟩ := ih k2 h2 (fits_of_trims hfr hf)
    exact ⟨w, by rw [deliverAll, k1, bind_ok]; exact k4, k5, k6⟩

theorem feed_trims {m m' : Int} {f f' : Obj δ → Option CStr → M (Obj δ × Int)} (hm : Narrow m m' f f') (ho : OneOrNone f')
    (hle : m ≤ m') : ∀ (ops : List CStr) {p p' q' : Obj δ} {rest : List CStr} {c' : Int}, Begins p p' → HasRoom m.toNat p →
      p.count ≤ m.toNat → feed f' p' ops = .ok (q', rest, c') → q'.count ≤ m.toNat →
      ∃ q c, feed f p ops = .ok (q, rest, c) ∧ Begins q q' ∧ HasRoom m.toNat q ∧ isRem q = isRem p := by
  intro ops
  induction ops with
  | nil => intro p p' q' rest c' hb hs hn h _; cases h; exact ⟨_, _, rfl, hb, hs, rfl⟩
  | cons a ops ih =>
    intro p p' q' rest c' hb hs hn h hq
    rw [feed] at h
    obtain ⟨⟨p1', c1'⟩, h1, h2⟩ := bind_some_ok h
    dsimp only at h2
    have hq1 : p1'.count ≤ m.toNat := by
      by_cases h0 : c1' = 0
      · rw [if_pos h0] at h2
        exact Nat.le_trans (feed_noLess ho _ h2) hq
      · rw [if_neg h0] at h2
        cases h2
        exact hq
    obtain ⟨p1, c1, l1, l2, l3, l4, l5⟩ := hm _ _ (some a) p1' c1' hb hs hn hle h1 hq1
    rw [feed, l1, bind_ok]
    dsimp only
    by_cases h0 : c1' = 0
    · rw [if_pos h0] at h2
      rw [if_pos (l2.2 h0)]
      obtain ⟨q, c, k2, k3, k4, k5⟩ := ih l3 l4 (by rw [← l3.count]; exact hq1) h2 hq
      exact ⟨q, c, k2, k3, k4, by rw [k5, l5]⟩
    · rw [if_neg h0] at h2
      rw [if_neg (fun h => h0 (l2.1 h))]
      cases h2
      exact ⟨p1, c1, rfl, l3, l4, l5⟩

theorem leftover_nil {last : Option (Int × Nat)} {ops : List CStr} (h : leftover last ops = []) (last' : Option (Int × Nat)) :
    leftover last' ops = [] := by
  unfold leftover at h ⊢
  split at h
  · rfl
  · cases h
  · cases h

theorem operands_trims : ∀ {s s' : List (Hdr (Obj δ))}, List.Forall₂ Trims s s' →
    ∀ (i : Nat) (last last' : Option (Int × Nat)) (ops : List CStr) (w' : List (Hdr (Obj δ))),
      operands s' i last' ops = .ok (w', []) → Fits s w' →
      ∃ w, operands s i last ops = .ok (w, []) ∧ List.Forall₂ Trims w w' := by
  intro s s' hs
  induction hs with
  | nil =>
    intro i last last' ops w' h _
    obtain ⟨h1, h2⟩ := Prod.mk.inj (Except.ok.inj h)
    subst h1
    exact ⟨[], by rw [operands, leftover_nil h2], .nil⟩
  | @cons k k' t t' hk ht ih =>
    intro i last last' ops w' h hfit
    obtain ⟨n1, n2⟩ := tracks_tagged hk.tracks
    rw [operands] at h ⊢
    by_cases h0 : ops = []
    · rw [if_pos h0] at h ⊢
      cases h
      exact ⟨_, rfl, .cons hk ht⟩
    · rw [if_neg h0] at h ⊢
      rw [n1, n2] at h
      by_cases hn : k.longopts.isSome ∨ k.shortopts.isSome
      · rw [if_pos hn] at h ⊢
        obtain ⟨⟨w1', e⟩, h1, h2⟩ := bind_some_ok h
        dsimp only at h2
        obtain ⟨g1, g2⟩ := Prod.mk.inj (Except.ok.inj h2)
        subst g2
        subst g1
        cases hfit with
        | cons f1 f2 =>
          obtain ⟨w, k1, k2⟩ := ih _ last _ _ _ h1 f2
          exact ⟨k :: w, by rw [k1]; rfl, .cons hk k2⟩
      · rw [if_neg hn] at h ⊢
        rcases hk.tracks.scan with ⟨g1, g2, -⟩ | ⟨f, f', g1, g2, -⟩
        · rw [g2] at h
          rw [g1]
          dsimp only at h ⊢
          obtain ⟨⟨w1', e⟩, h1, h2⟩ := bind_some_ok h
          dsimp only at h2
          obtain ⟨j1, j2⟩ := Prod.mk.inj (Except.ok.inj h2)
          subst j2
          subst j1
          cases hfit with
          | cons f1 f2 =>
            obtain ⟨w, k1, k2⟩ := ih _ last _ _ _ h1 f2
            exact ⟨k :: w, by rw [k1]; rfl, .cons hk k2⟩
        · obtain ⟨g3, g4⟩ := hk.scan f f' g1 g2
          rw [g2] at h
          rw [g1]
          dsimp only at h ⊢
          obtain ⟨⟨q', rest, c'⟩, h1, h2⟩ := bind_some_ok h
          dsimp only at h2
          obtain ⟨⟨w1', e⟩, h3, h4⟩ := bind_some_ok h2
          dsimp only at h4
          obtain ⟨j1, j2⟩ := Prod.mk.inj (Except.ok.inj h4)
          subst j2
          subst j1
          cases hfit with
          | cons f1 f2 =>
            obtain ⟨q, c, l2, l3, l4, l5⟩ := feed_trims g3 g4 hk.tracks.most ops hk.tracks.begins hk.size hk.tracks.room h1 f1
            rw [l2, bind_ok]
            dsimp only
            obtain ⟨w, k1, k2⟩ := ih _ (some (c, i)) _ _ _ h3 f2
            rw [k1]
            have hn' := trims_next hk l3 l5 (by rw [← l3.count]; exact f1) l4
            rw [g1, g2, n1, n2] at hn'
            exact ⟨_, rfl, .cons hn' k2⟩

theorem resetAll_trims : ∀ {es es' : List (Hdr (Obj δ))}, List.Forall₂ (Roomier lc) es es' → List.Forall₂ Trims
    (es.map fun h => { h with parent := presets h.parent }) (es'.map fun h => { h with parent := presets h.parent }) := by
  intro es es' h
  induction h with
  | nil => exact .nil
  | cons h _ ih => exact .cons (roomier_trims h) ih

theorem checks_fit : ∀ {s s' : List (Hdr (Obj δ))} (i : Nat), List.Forall₂ Trims s s' →
    (∀ h ∈ s, isRem h.parent = false → h.mincount ≤ h.parent.count) → checks s i = [] := by
  intro s s' i hs
  induction hs generalizing i with
  | nil => intro _; rfl
  | @cons k k' t t' hk ht ih =>
    intro hm
    rw [checks]
    rcases hk.tracks.check with ⟨r, a, -⟩ | ⟨r, a, -⟩
    · rw [a]
      exact ih _ fun h hh => hm h (by simp [hh])
    · rw [a]
      dsimp only
      have h0 : countCheck k.mincount k.parent.count = 0 := by
        unfold countCheck
        have := hm k (by simp) r
        rw [if_neg (by omega)]
      rw [if_neg (by rw [h0]; decide)]
      exact ih _ fun h hh => hm h (by simp [hh])

end Argtable
