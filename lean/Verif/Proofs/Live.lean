import Verif.Spec.Live
import Verif.Proofs.Lawful
import Verif.Proofs.RexMatch
/-!
# Entries made by the public constructors keep their shape
-/

namespace Argtable

open Spec

variable {δ : Type} {A : Option CStr → Prop} {R : CStr → Prop} {E : Fault → Prop}

theorem storeAt_ok {α : Type} {l : List α} {i : Nat} {v : α} (h : i < l.length) :
    storeAt l i v = .ok (l.set i v) := by simp [storeAt, h]

/-! ### integers -/

theorem clampLong_le (v : Int) : clampLong v ≤ LONG_MAX := by
  unfold clampLong
  split
  · exact le_refl _
  · split
    · decide
    · omega

theorem clampLong_ge (v : Int) : LONG_MIN ≤ clampLong v := by
  unfold clampLong
  split
  · decide
  · split
    · exact le_refl _
    · omega

theorem clampLong_nonneg {v : Int} (h : 0 ≤ v) : 0 ≤ clampLong v := by
  unfold clampLong
  split
  · decide
  · split
    · rename_i _ h2; unfold LONG_MIN at h2; omega
    · exact h

theorem scanSign_cases (s : CStr) :
    (∃ t, s = '+' :: t ∧ scanSign s = (1, t)) ∨ (∃ t, s = '-' :: t ∧ scanSign s = (-1, t)) ∨
      ((∀ t, s ≠ '+' :: t) ∧ (∀ t, s ≠ '-' :: t) ∧ scanSign s = (1, s)) := by
  unfold scanSign
  split
  · exact Or.inl ⟨_, rfl, rfl⟩
  · exact Or.inr (Or.inl ⟨_, rfl, rfl⟩)
  · rename_i h1 h2
    exact Or.inr (Or.inr ⟨fun t h => h1 t h, fun t h => h2 t h, rfl⟩)

theorem strtol_range (s : CStr) (b : Nat) :
    LONG_MIN ≤ (strtol s b).1 ∧ (strtol s b).1 ≤ LONG_MAX ∧ ('-' ∉ s → 0 ≤ (strtol s b).1) := by
  unfold strtol
  dsimp only
  split
  · exact ⟨by unfold LONG_MIN; dsimp only; omega, by unfold LONG_MAX; dsimp only; omega, fun _ => le_refl _⟩
  · refine ⟨clampLong_ge _, clampLong_le _, fun h => clampLong_nonneg ?_⟩
    rcases scanSign_cases (s.dropWhile isSpace) with ⟨t, h1, h2⟩ | ⟨t, h1, h2⟩ | ⟨_, _, h2⟩
    · rw [h2]; dsimp only; omega
    · exact absurd ((List.dropWhile_sublist isSpace).subset (by rw [h1]; simp)) h
    · rw [h2]; dsimp only; omega

theorem strtol0X_ok (a : CStr) (X : Char) (b : Nat) (h : a.count '-' ≤ 1) :
    ∃ q, strtol0X a X b = .ok q := by
  unfold strtol0X
  dsimp only
  split
  · rename_i x ptr hp
    split
    · exact ⟨_, rfl⟩
    · split
      · exact ⟨_, rfl⟩
      · have hr := strtol_range ptr b
        rw [if_neg]
        · exact ⟨_, rfl⟩
        · rcases scanSign_cases (a.dropWhile isSpace) with ⟨t, h1, h2⟩ | ⟨t, h1, h2⟩ | ⟨_, _, h2⟩
          · rw [h2]; simp only [one_mul, not_lt, gt_iff_lt]; exact hr.2.1
          · rw [h2] at hp ⊢
            simp only at hp ⊢
            have : (a.dropWhile isSpace).count '-' ≤ 1 :=
              le_trans ((List.dropWhile_sublist isSpace).count_le _) h
            rw [h1, hp] at this
            have hn : '-' ∉ ptr := by
              intro hm
              have h3 := List.count_pos_iff.2 hm
              rw [List.count_cons_self, List.count_cons, List.count_cons] at this
              omega
            have := hr.2.2 hn
            unfold LONG_MAX; omega
          · rw [h2]; simp only [one_mul, not_lt, gt_iff_lt]; exact hr.2.1
  · exact ⟨_, rfl⟩

theorem strtol0X_error (a : CStr) (X : Char) (b : Nat) (e : Fault) (h : strtol0X a X b = .error e) :
    e = .ub "strtol0X: signed overflow in s * val" := by
  unfold strtol0X at h
  dsimp only at h
  split at h
  · split at h
    · cases h
    · split at h
      · cases h
      · split at h
        · cases h; rfl
        · cases h
  · cases h

theorem intConvert_ok (a : CStr) (h : a.count '-' ≤ 1) : ∃ q, intConvert a = .ok q := by
  unfold intConvert
  obtain ⟨q1, h1⟩ := strtol0X_ok a 'X' 16 h
  obtain ⟨q2, h2⟩ := strtol0X_ok a 'O' 8 h
  obtain ⟨q3, h3⟩ := strtol0X_ok a 'B' 2 h
  simp only [h1, h2, h3, bind_ok]
  split
  · exact ⟨_, rfl⟩
  split
  · exact ⟨_, rfl⟩
  split
  · exact ⟨_, rfl⟩
  split <;> exact ⟨_, rfl⟩

theorem intConvert_error (a : CStr) (e : Fault) (h : intConvert a = .error e) :
    e = .ub "strtol0X: signed overflow in s * val" := by
  unfold intConvert at h
  cases h1 : strtol0X a 'X' 16 with
  | error e' => rw [h1] at h; cases h; exact strtol0X_error _ _ _ _ h1
  | ok q1 =>
  cases h2 : strtol0X a 'O' 8 with
  | error e' =>
    rw [h1, h2] at h; simp only [bind_ok] at h
    split at h
    · cases h
    · cases h; exact strtol0X_error _ _ _ _ h2
  | ok q2 =>
  cases h3 : strtol0X a 'B' 2 with
  | error e' =>
    rw [h1, h2, h3] at h; simp only [bind_ok] at h
    split at h
    · cases h
    split at h
    · cases h
    · cases h; exact strtol0X_error _ _ _ _ h3
  | ok q3 =>
    rw [h1, h2, h3] at h; simp only [bind_ok] at h
    split at h
    · cases h
    split at h
    · cases h
    split at h
    · cases h
    split at h <;> cases h

theorem intScale_ok (v k err : Int) (hk : 0 < k) (he : err = 0 ∨ 2 ≤ err) :
    ∃ q, intScale v k err = .ok q ∧ (q.2 = 0 ∨ 2 ≤ q.2) := by
  unfold intScale
  split
  · exact ⟨_, rfl, Or.inr (by change (2:Int) ≤ 4; decide)⟩
  · rename_i h
    obtain ⟨h1, h2⟩ := not_or.1 h
    have e1 : v * k ≤ INT_MAX := by
      have := Int.mul_le_mul_of_nonneg_right (Int.not_lt.1 h1) hk.le
      refine this.trans ?_
      rw [Int.tdiv_eq_ediv_of_nonneg (by decide)]
      exact Int.ediv_mul_le _ hk.ne'
    have e2 : INT_MIN ≤ v * k := by
      have := Int.mul_le_mul_of_nonneg_right (Int.not_lt.1 h2) hk.le
      refine le_trans ?_ this
      have e : INT_MIN = -2147483648 := rfl
      rw [e, Int.neg_tdiv, Int.tdiv_eq_ediv_of_nonneg (by decide), Int.neg_mul]
      exact Int.neg_le_neg (Int.ediv_mul_le _ hk.ne')
    have : mulLong v k = .ok (v * k) := by
      unfold mulLong
      rw [if_neg]
      simp only [LONG_MAX, LONG_MIN, INT_MAX, INT_MIN] at *
      omega
    rw [this]
    exact ⟨_, rfl, he⟩

theorem intSuffix_ok (v : Int) (e : CStr) : ∃ q, intSuffix v e = .ok q ∧ (q.2 = 0 ∨ 2 ≤ q.2) := by
  unfold intSuffix
  have he : ∀ p : Prop, [Decidable p] →
      (if p then ARG_ERR_OVERFLOW else 0) = 0 ∨ 2 ≤ (if p then ARG_ERR_OVERFLOW else 0) := by
    intro p _
    split
    · exact Or.inr (by decide)
    · exact Or.inl rfl
  dsimp only
  split
  · exact intScale_ok _ _ _ (by decide) (he _)
  split
  · exact intScale_ok _ _ _ (by decide) (he _)
  split
  · exact intScale_ok _ _ _ (by decide) (he _)
  split
  · exact ⟨_, rfl, Or.inr (by change (2:Int) ≤ 3; decide)⟩
  · exact ⟨_, rfl, he _⟩

theorem intScan_ok (mx : Int) (o : IntObj) (a : Option CStr) (hc : (o.count : Int) ≤ mx)
    (hl : (o.ival.length : Int) = mx)
    (hE : E (.ub "strtol0X: signed overflow in s * val") ∨ OneMinus a) :
    Good E (fun q => (q.1.count : Int) ≤ mx ∧ (q.1.ival.length : Int) = mx) (intScan mx o a) := by
  unfold intScan
  split
  · exact ⟨hc, hl⟩
  · cases a with
    | none => exact ⟨by dsimp only; omega, hl⟩
    | some a =>
      dsimp only
      cases hi : intConvert a with
      | error e =>
        have he := intConvert_error a e hi
        rcases hE with hE | hE
        · rw [he]; exact hE
        · obtain ⟨q, hq⟩ := intConvert_ok a hE
          rw [hq] at hi; cases hi
      | ok q =>
        rw [bind_ok]
        cases q with
        | none => exact ⟨hc, hl⟩
        | some q =>
          obtain ⟨v, e⟩ := q
          obtain ⟨w, hw, -⟩ := intSuffix_ok v e
          simp only [hw, bind_ok]
          split
          · rw [storeAt_ok (by omega), bind_ok]
            exact ⟨by dsimp only; omega, by simpa using hl⟩
          · exact ⟨hc, hl⟩

/-! ### the other types -/

theorem dblScan_ok (f : CStr → δ × CStr) (mx : Int) (o : DblObj δ) (a : Option CStr)
    (hc : (o.count : Int) ≤ mx) (hl : (o.dval.length : Int) = mx) :
    ∃ q, dblScan f mx o a = .ok q ∧ (q.1.count : Int) ≤ mx ∧ (q.1.dval.length : Int) = mx := by
  unfold dblScan
  split
  · exact ⟨_, rfl, hc, hl⟩
  · cases a with
    | none => exact ⟨_, rfl, by dsimp only; omega, hl⟩
    | some a =>
      dsimp only
      split
      · rw [storeAt_ok (by omega), bind_ok]
        exact ⟨_, rfl, by dsimp only; omega, by simpa using hl⟩
      · exact ⟨_, rfl, hc, hl⟩

theorem strClear_ok : ∀ (n : Nat) (l : List CStr), n ≤ l.length →
    ∃ l', strClear n l = .ok l' ∧ l'.length = l.length := by
  intro n
  induction n with
  | zero => intro l _; exact ⟨l, rfl, rfl⟩
  | succ n ih =>
    intro l h
    obtain ⟨l', h1, h2⟩ := ih l (by omega)
    refine ⟨l'.set n [], ?_, by simpa using h2⟩
    simp only [strClear, h1, bind_ok]
    exact storeAt_ok (by omega)

theorem strReset_ok (mx : Int) (o : StrObj) (hc : (o.count : Int) ≤ mx)
    (hl : (o.sval.length : Int) = mx) :
    ∃ q, strReset o = .ok q ∧ (q.count : Int) ≤ mx ∧ (q.sval.length : Int) = mx := by
  obtain ⟨l', h1, h2⟩ := strClear_ok o.count o.sval (by omega)
  refine ⟨⟨0, l'⟩, by simp [strReset, h1, bind_ok], by dsimp only; omega, by dsimp only; omega⟩

theorem strScan_ok (mx : Int) (o : StrObj) (a : Option CStr)
    (hc : (o.count : Int) ≤ mx) (hl : (o.sval.length : Int) = mx) :
    ∃ q, strScan mx o a = .ok q ∧ (q.1.count : Int) ≤ mx ∧ (q.1.sval.length : Int) = mx := by
  unfold strScan
  split
  · exact ⟨_, rfl, hc, hl⟩
  · cases a with
    | none => exact ⟨_, rfl, by dsimp only; omega, hl⟩
    | some a =>
      dsimp only
      rw [storeAt_ok (by omega), bind_ok]
      exact ⟨_, rfl, by dsimp only; omega, by simpa using hl⟩

theorem fileScan_ok (mx : Int) (o : FileObj) (a : Option CStr)
    (hc : (o.count : Int) ≤ mx) (h1 : (o.filename.length : Int) = mx)
    (h2 : (o.basename.length : Int) = mx) (h3 : (o.extension.length : Int) = mx) :
    ∃ q, fileScan mx o a = .ok q ∧ (q.1.count : Int) ≤ mx ∧ (q.1.filename.length : Int) = mx ∧
      (q.1.basename.length : Int) = mx ∧ (q.1.extension.length : Int) = mx := by
  unfold fileScan
  split
  · exact ⟨_, rfl, hc, h1, h2, h3⟩
  · cases a with
    | none => exact ⟨_, rfl, by dsimp only; omega, h1, h2, h3⟩
    | some a =>
      dsimp only
      rw [storeAt_ok (by omega), bind_ok, storeAt_ok (by omega), bind_ok, storeAt_ok (by omega),
        bind_ok]
      exact ⟨_, rfl, by dsimp only; omega, by simpa using h1, by simpa using h2, by simpa using h3⟩

theorem dateScan_ok (fmt : CStr) (mx : Int) (o : DateObj) (a : Option CStr)
    (hc : (o.count : Int) ≤ mx) (hl : (o.tmval.length : Int) = mx) :
    ∃ q, dateScan fmt mx o a = .ok q ∧ (q.1.count : Int) ≤ mx ∧ (q.1.tmval.length : Int) = mx := by
  unfold dateScan
  split
  · exact ⟨_, rfl, hc, hl⟩
  · cases a with
    | none => exact ⟨_, rfl, by dsimp only; omega, hl⟩
    | some a =>
      dsimp only
      rw [List.getElem?_eq_getElem (by omega)]
      dsimp only
      split
      · rw [storeAt_ok (by omega), bind_ok]
        exact ⟨_, rfl, by dsimp only; omega, by simpa using hl⟩
      · exact ⟨_, rfl, hc, hl⟩

theorem rexScan_ok (pat : CStr) (ic : Bool) (mx : Int) (o : StrObj) (a : Option CStr)
    (hcomp : ∃ r, rexCompile pat = .ok r)
    (hc : (o.count : Int) ≤ mx) (hl : (o.sval.length : Int) = mx)
    (hE : (E (.ub "trex_match: NULL pointer dereference") ∧ E (.ub "read past the end of the text"))
      ∨ GoodPat pat) :
    Good E (fun q => (q.1.count : Int) ≤ mx ∧ (q.1.sval.length : Int) = mx)
      (rexScan pat ic mx o a) := by
  unfold rexScan
  split
  · exact ⟨hc, hl⟩
  · cases a with
    | none => exact ⟨by dsimp only; omega, hl⟩
    | some a =>
      dsimp only
      obtain ⟨r, hr⟩ := hcomp
      have hne : pat ≠ [] := by
        rintro rfl
        have : rexCompile [] = .error (.ub "trex_newnode: write outside the node array") := rfl
        rw [this] at hr; cases hr
      have hp := rexCompile_post hne
      rw [hr] at hp ⊢
      rw [bind_ok]
      cases r with
      | none =>
        rcases hE with hE | ⟨_, n, hn⟩
        · exact hE.1
        · rw [hr] at hn; cases hn
      | some nodes =>
        dsimp only
        have hm := rexMatch_post ic a hp.1 hp.2
        cases hb : rexMatch nodes ic a with
        | error e =>
          rw [hb] at hm
          obtain ⟨h1, h2⟩ := hm
          rcases hE with hE | ⟨h3, _⟩
          · show E e
            rw [h1]; exact hE.2
          · exact absurd h3 h2
        | ok b =>
          rw [bind_ok]
          cases b with
          | false => exact ⟨hc, hl⟩
          | true =>
            rw [if_pos rfl, storeAt_ok (by omega), bind_ok]
            exact ⟨by dsimp only; omega, by simpa using hl⟩

/-! ### entries -/

theorem arrayCells_inv {mx : Int} {n : Nat} (h : arrayCells mx = .ok n) : (n : Int) = mx := by
  unfold arrayCells at h
  split at h
  · cases h
  · cases h; omega

theorem argIntn_inv {so lo dt : Option CStr} {mn mx : Int} {gl : Option CStr} {h : Hdr (Obj δ)}
    (hh : argIntn so lo dt mn mx gl = .ok h) :
    h.maxcount = foolproof mn mx ∧ (h.maxcount.toNat : Int) = h.maxcount ∧ h.mincount = mn ∧
    h.hasValue = true ∧ h.hasOptValue = false ∧ h.shortopts = so ∧ h.longopts = lo ∧
    h.glossary = gl ∧
    h.checkfn = some (fun o => countCheck mn o.count) ∧
    h.resetfn = some (fun
      | .int o => .ok (.int { o with count := 0 })
      | _ => confused) ∧
    h.scanfn = some (fun
      | .int o, a => do
        let (o, e) ← intScan (foolproof mn mx) o a
        .ok (.int o, e)
      | _, _ => confused) := by
  unfold argIntn at hh
  dsimp only at hh
  cases hn : arrayCells (foolproof mn mx) with
  | error e => rw [hn] at hh; cases hh
  | ok n =>
    rw [hn, bind_ok] at hh
    cases hh
    exact ⟨rfl, by show ((foolproof mn mx).toNat : Int) = foolproof mn mx; have := arrayCells_inv hn; omega, rfl, rfl, rfl, rfl, rfl, rfl, rfl, rfl, rfl⟩

theorem argDbln_inv {lc : Libc δ} {ad : Nat} {so lo dt : Option CStr} {mn mx : Int} {gl : Option CStr} {h : Hdr (Obj δ)}
    (hh : argDbln lc ad so lo dt mn mx gl = .ok h) :
    h.maxcount = foolproof mn mx ∧ (h.maxcount.toNat : Int) = h.maxcount ∧ h.mincount = mn ∧
    h.hasValue = true ∧ h.hasOptValue = false ∧ h.shortopts = so ∧ h.longopts = lo ∧
    h.glossary = gl ∧
    h.checkfn = some (fun o => countCheck mn o.count) ∧
    h.resetfn = some (fun
      | .dbl o => .ok (.dbl { o with count := 0 })
      | _ => confused) ∧
    h.scanfn = some (fun
      | .dbl o, a => do
        let (o, e) ← dblScan lc.strtod (foolproof mn mx) o a
        .ok (.dbl o, e)
      | _, _ => confused) := by
  unfold argDbln at hh
  dsimp only at hh
  cases hn : arrayCells (foolproof mn mx) with
  | error e => rw [hn] at hh; cases hh
  | ok n =>
    rw [hn, bind_ok] at hh
    cases hh
    exact ⟨rfl, by show ((foolproof mn mx).toNat : Int) = foolproof mn mx; have := arrayCells_inv hn; omega, rfl, rfl, rfl, rfl, rfl, rfl, rfl, rfl, rfl⟩

theorem argStrn_inv {so lo dt : Option CStr} {mn mx : Int} {gl : Option CStr} {h : Hdr (Obj δ)}
    (hh : argStrn so lo dt mn mx gl = .ok h) :
    h.maxcount = foolproof mn mx ∧ (h.maxcount.toNat : Int) = h.maxcount ∧ h.mincount = mn ∧
    h.hasValue = true ∧ h.hasOptValue = false ∧ h.shortopts = so ∧ h.longopts = lo ∧
    h.glossary = gl ∧
    h.checkfn = some (fun o => countCheck mn o.count) ∧
    h.resetfn = some (fun
      | .str o => do
        let o ← strReset o
        .ok (.str o)
      | _ => confused) ∧
    h.scanfn = some (fun
      | .str o, a => do
        let (o, e) ← strScan (foolproof mn mx) o a
        .ok (.str o, e)
      | _, _ => confused) := by
  unfold argStrn at hh
  dsimp only at hh
  cases hn : arrayCells (foolproof mn mx) with
  | error e => rw [hn] at hh; cases hh
  | ok n =>
    rw [hn, bind_ok] at hh
    cases hh
    exact ⟨rfl, by show ((foolproof mn mx).toNat : Int) = foolproof mn mx; have := arrayCells_inv hn; omega, rfl, rfl, rfl, rfl, rfl, rfl, rfl, rfl, rfl⟩

theorem argFilen_inv {so lo dt : Option CStr} {mn mx : Int} {gl : Option CStr} {h : Hdr (Obj δ)}
    (hh : argFilen so lo dt mn mx gl = .ok h) :
    h.maxcount = foolproof mn mx ∧ (h.maxcount.toNat : Int) = h.maxcount ∧ h.mincount = mn ∧
    h.hasValue = true ∧ h.hasOptValue = false ∧ h.shortopts = so ∧ h.longopts = lo ∧
    h.glossary = gl ∧
    h.checkfn = some (fun o => countCheck mn o.count) ∧
    h.resetfn = some (fun
      | .file o => .ok (.file { o with count := 0 })
      | _ => confused) ∧
    h.scanfn = some (fun
      | .file o, a => do
        let (o, e) ← fileScan (foolproof mn mx) o a
        .ok (.file o, e)
      | _, _ => confused) := by
  unfold argFilen at hh
  dsimp only at hh
  cases hn : arrayCells (foolproof mn mx) with
  | error e => rw [hn] at hh; cases hh
  | ok n =>
    rw [hn, bind_ok] at hh
    cases hh
    exact ⟨rfl, by show ((foolproof mn mx).toNat : Int) = foolproof mn mx; have := arrayCells_inv hn; omega, rfl, rfl, rfl, rfl, rfl, rfl, rfl, rfl, rfl⟩

theorem argDaten_inv {lc : Libc δ} {so lo fm dt : Option CStr} {mn mx : Int} {gl : Option CStr} {h : Hdr (Obj δ)}
    (hh : argDaten lc so lo fm dt mn mx gl = .ok h) :
    h.maxcount = foolproof mn mx ∧ (h.maxcount.toNat : Int) = h.maxcount ∧ h.mincount = mn ∧
    h.hasValue = true ∧ h.hasOptValue = false ∧ h.shortopts = so ∧ h.longopts = lo ∧
    h.glossary = gl ∧
    h.checkfn = some (fun o => countCheck mn o.count) ∧
    h.resetfn = some (fun
      | .date o => .ok (.date { o with count := 0 })
      | _ => confused) ∧
    h.scanfn = some (fun
      | .date o, a => do
        let (o, e) ← dateScan (fm.getD (cs "%x")) (foolproof mn mx) o a
        .ok (.date o, e)
      | _, _ => confused) := by
  unfold argDaten at hh
  dsimp only at hh
  cases hn : arrayCells (foolproof mn mx) with
  | error e => rw [hn] at hh; cases hh
  | ok n =>
    rw [hn, bind_ok] at hh
    cases hh
    exact ⟨rfl, by show ((foolproof mn mx).toNat : Int) = foolproof mn mx; have := arrayCells_inv hn; omega, rfl, rfl, rfl, rfl, rfl, rfl, rfl, rfl, rfl⟩

theorem argRexn_inv {so lo : Option CStr} {pat : CStr} {dt : Option CStr} {mn mx : Int} {ic : Bool}
    {gl : Option CStr} {h : Hdr (Obj δ)}
    (hh : argRexn so lo pat dt mn mx ic gl = .ok h) :
    h.maxcount = foolproof mn mx ∧ (h.maxcount.toNat : Int) = h.maxcount ∧ h.mincount = mn ∧
    h.hasValue = true ∧ h.hasOptValue = false ∧ h.shortopts = so ∧ h.longopts = lo ∧
    h.glossary = gl ∧
    h.checkfn = some (fun o => countCheck mn o.count) ∧
    h.resetfn = some (fun
      | .rex o => .ok (.rex { o with count := 0 })
      | _ => confused) ∧
    h.scanfn = some (fun
      | .rex o, a => do
        let (o, e) ← rexScan pat ic (foolproof mn mx) o a
        .ok (.rex o, e)
      | _, _ => confused) ∧
    ∃ r, rexCompile pat = .ok r := by
  unfold argRexn at hh
  dsimp only at hh
  cases hn : arrayCells (foolproof mn mx) with
  | error e => rw [hn] at hh; cases hh
  | ok n =>
    cases hr : rexCompile pat with
    | error e => rw [hn, bind_ok, hr] at hh; cases hh
    | ok r =>
      rw [hn, bind_ok, hr, bind_ok] at hh
      cases hh
      exact ⟨rfl, by show ((foolproof mn mx).toNat : Int) = foolproof mn mx; have := arrayCells_inv hn; omega, rfl, rfl, rfl, rfl, rfl, rfl, rfl, rfl, rfl, r, rfl⟩

/-- Entries made by the constructors stay such entries; the only undefined operations are those of
scanning values. -/
theorem lawful_live (lc : Libc δ)
    (hI : E (.ub "strtol0X: signed overflow in s * val") ∨ ∀ a, A a → OneMinus a)
    (hR : (E (.ub "trex_match: NULL pointer dereference") ∧ E (.ub "read past the end of the text"))
      ∨ ∀ p, R p → GoodPat p) : Lawful A (Live lc R) E where
  reset := by
    intro h f hJ hf
    cases hJ with
    | lit so lo mn mx gl ov c hc =>
      cases hf
      exact Live.lit so lo mn mx gl ov 0 (Nat.zero_le _)
    | int so lo dt mn mx gl h ov o hh hc hl =>
      obtain ⟨hm, hn, -, -, -, -, -, -, -, hr, -⟩ := argIntn_inv hh
      cases hr.symm.trans hf
      exact Live.int so lo dt mn mx gl h ov { o with count := 0 } hh (by dsimp only; omega) hl
    | dbl ad so lo dt mn mx gl h ov o hh hc hl =>
      obtain ⟨hm, hn, -, -, -, -, -, -, -, hr, -⟩ := argDbln_inv hh
      cases hr.symm.trans hf
      exact Live.dbl ad so lo dt mn mx gl h ov { o with count := 0 } hh (by dsimp only; omega) hl
    | str so lo dt mn mx gl h ov o hh hc hl =>
      obtain ⟨hm, hn, -, -, -, -, -, -, -, hr, -⟩ := argStrn_inv hh
      cases hr.symm.trans hf
      obtain ⟨q, h1, h2, h3⟩ := strReset_ok _ o hc hl
      simp only [h1, bind_ok]
      exact Live.str so lo dt mn mx gl h ov q hh h2 h3
    | file so lo dt mn mx gl h ov o hh hc h1 h2 h3 =>
      obtain ⟨hm, hn, -, -, -, -, -, -, -, hr, -⟩ := argFilen_inv hh
      cases hr.symm.trans hf
      exact Live.file so lo dt mn mx gl h ov { o with count := 0 } hh (by dsimp only; omega)
        h1 h2 h3
    | date so lo fm dt mn mx gl h ov o hh hc hl =>
      obtain ⟨hm, hn, -, -, -, -, -, -, -, hr, -⟩ := argDaten_inv hh
      cases hr.symm.trans hf
      exact Live.date so lo fm dt mn mx gl h ov { o with count := 0 } hh (by dsimp only; omega) hl
    | rex so lo pat dt mn mx ic gl h ov o hh hp hc hl =>
      obtain ⟨hm, hn, -, -, -, -, -, -, -, hr, -⟩ := argRexn_inv hh
      cases hr.symm.trans hf
      exact Live.rex so lo pat dt mn mx ic gl h ov { o with count := 0 } hh hp
        (by dsimp only; omega) hl
    | rem dt gl => cases hf
  scan := by
    intro h f a hJ hA hf
    have hI' : E (.ub "strtol0X: signed overflow in s * val") ∨ OneMinus a := hI.imp id fun h => h a hA
    cases hJ with
    | lit so lo mn mx gl ov c hc =>
      cases hf
      refine Live.lit so lo mn mx gl ov _ ?_
      unfold litScan
      split <;> dsimp only <;> omega
    | int so lo dt mn mx gl h ov o hh hc hl =>
      obtain ⟨hm, hn, -, -, -, -, -, -, -, -, hs⟩ := argIntn_inv hh
      cases hs.symm.trans hf
      have hg := intScan_ok _ o a hc hl hI'
      rw [hm] at hg
      dsimp only
      cases hx : intScan (foolproof mn mx) o a with
      | error e => rw [hx] at hg; exact hg
      | ok q =>
        rw [hx] at hg
        exact Live.int so lo dt mn mx gl h ov q.1 hh (by rw [hm]; exact hg.1) (by rw [hm]; exact hg.2)
    | dbl ad so lo dt mn mx gl h ov o hh hc hl =>
      obtain ⟨hm, hn, -, -, -, -, -, -, -, -, hs⟩ := argDbln_inv hh
      cases hs.symm.trans hf
      obtain ⟨q, h1, h2, h3⟩ := dblScan_ok lc.strtod _ o a hc hl
      rw [hm] at h1
      simp only [h1, bind_ok]
      exact Live.dbl ad so lo dt mn mx gl h ov q.1 hh h2 h3
    | str so lo dt mn mx gl h ov o hh hc hl =>
      obtain ⟨hm, hn, -, -, -, -, -, -, -, -, hs⟩ := argStrn_inv hh
      cases hs.symm.trans hf
      obtain ⟨q, h1, h2, h3⟩ := strScan_ok _ o a hc hl
      rw [hm] at h1
      simp only [h1, bind_ok]
      exact Live.str so lo dt mn mx gl h ov q.1 hh h2 h3
    | file so lo dt mn mx gl h ov o hh hc h1 h2 h3 =>
      obtain ⟨hm, hn, -, -, -, -, -, -, -, -, hs⟩ := argFilen_inv hh
      cases hs.symm.trans hf
      obtain ⟨q, h4, h5, h6, h7, h8⟩ := fileScan_ok _ o a hc h1 h2 h3
      rw [hm] at h4
      simp only [h4, bind_ok]
      exact Live.file so lo dt mn mx gl h ov q.1 hh h5 h6 h7 h8
    | date so lo fm dt mn mx gl h ov o hh hc hl =>
      obtain ⟨hm, hn, -, -, -, -, -, -, -, -, hs⟩ := argDaten_inv hh
      cases hs.symm.trans hf
      obtain ⟨q, h1, h2, h3⟩ := dateScan_ok (fm.getD (cs "%x")) _ o a hc hl
      rw [hm] at h1
      simp only [h1, bind_ok]
      exact Live.date so lo fm dt mn mx gl h ov q.1 hh h2 h3
    | rex so lo pat dt mn mx ic gl h ov o hh hp hc hl =>
      obtain ⟨hm, hn, -, -, -, -, -, -, -, -, hs, hcomp⟩ := argRexn_inv hh
      cases hs.symm.trans hf
      have hg := rexScan_ok pat ic _ o a hcomp hc hl (hR.imp id fun h => h pat hp)
      rw [hm] at hg
      dsimp only
      cases hx : rexScan pat ic (foolproof mn mx) o a with
      | error e => rw [hx] at hg; exact hg
      | ok q =>
        rw [hx] at hg
        exact Live.rex so lo pat dt mn mx ic gl h ov q.1 hh hp (by rw [hm]; exact hg.1)
          (by rw [hm]; exact hg.2)
    | rem dt gl => cases hf

end Argtable
