import Verif.Spec.Within
import Verif.Proofs.ParsePtr
import Verif.Proofs.Live
/-!
# The objects that keep pointers
-/

namespace Argtable

open Spec

variable {δ : Type} {m : Strs} {emsg : CPtr} {argv : List CPtr}

/-! ## Suffixes -/

theorem within_suffix {p : CPtr} (hw : Within m argv p) {l r : CStr} (h : strAt m p = l ++ r) {n : Nat}
    (hn : n = l.length) :
    Within m argv { p with off := p.off + n } ∧ strAt m { p with off := p.off + n } = r := by
  subst hn
  obtain ⟨hv, a, ha, e1, e2⟩ := hw
  obtain ⟨s, h1, h2, h3⟩ := valid_text hv
  have hl : (s.drop p.off).length = (l ++ r).length := by rw [← h3, h]
  rw [List.length_drop, List.length_append] at hl
  refine ⟨⟨⟨s, h1, ?_⟩, a, ha, e1, ?_⟩, ?_⟩
  · show p.off + l.length ≤ s.length; omega
  · show a.off ≤ p.off + l.length; omega
  · unfold strAt at h ⊢
    show List.drop (p.off + l.length) _ = r
    rw [← List.drop_drop, h, List.drop_left]

theorem strrchr_split {s : CStr} {c : Char} {r : CStr} (h : strrchr s c = some r) :
    ∃ l t, s = l ++ r ∧ r = c :: t := by
  induction s with
  | nil => cases h
  | cons d s ih =>
    rw [strrchr] at h
    cases hs : strrchr s c with
    | some q =>
      rw [hs] at h
      cases h
      obtain ⟨l, t, e1, e2⟩ := ih hs
      exact ⟨d :: l, t, by rw [e1]; rfl, e2⟩
    | none =>
      rw [hs] at h
      dsimp only at h
      split at h
      · rename_i hd
        cases h
        exact ⟨[], s, rfl, by rw [hd]⟩
      · cases h

theorem strrchrPtr_ok {p : CPtr} (hw : Within m argv p) (c : Char) :
    (strrchr (strAt m p) c = none ∧ strrchrPtr m p c = .ok none) ∨
      ∃ q t, strrchr (strAt m p) c = some (c :: t) ∧ strrchrPtr m p c = .ok (some q) ∧ Within m argv q ∧
        strAt m q = c :: t ∧ (q = p ↔ c :: t = strAt m p) := by
  unfold strrchrPtr
  rw [readStr_ok hw.1, ebind]
  cases h : strrchr (strAt m p) c with
  | none => exact .inl ⟨rfl, rfl⟩
  | some r =>
    obtain ⟨l, t, e1, e2⟩ := strrchr_split h
    subst e2
    have hn : (strAt m p).length - (c :: t).length = l.length := by rw [e1]; simp
    obtain ⟨k1, k2⟩ := within_suffix hw e1 hn
    refine .inr ⟨_, t, rfl, rfl, k1, k2, ?_⟩
    show ({ p with off := p.off + ((strAt m p).length - (c :: t).length) } : CPtr) = p ↔ _
    rw [hn, e1]
    constructor
    · intro h
      have : p.off + l.length = p.off := congrArg CPtr.off h
      have hl : l = [] := List.length_eq_zero_iff.1 (by omega)
      rw [hl]; rfl
    · intro h
      have := congrArg List.length h
      rw [List.length_append] at this
      have hl : l.length = 0 := by omega
      rw [hl]; rfl

theorem endPtr_ok {p : CPtr} (hw : Within m argv p) :
    ∃ q, endPtr m p = .ok q ∧ Within m argv q ∧ strAt m q = [] := by
  unfold endPtr
  rw [readStr_ok hw.1, ebind]
  obtain ⟨k1, k2⟩ := within_suffix hw (l := strAt m p) (r := []) (by simp) rfl
  exact ⟨_, rfl, k1, k2⟩

theorem basename_ok {p : CPtr} (hw : Within m argv p) :
    ∃ q, argBasenamePtr m p = .ok q ∧ Within m argv q ∧ strAt m q = argBasename (strAt m p) := by
  obtain ⟨e, e1, e2, e3⟩ := endPtr_ok hw
  have key : ∀ q, Within m argv q → ∃ q',
      (do let s ← readStr m q
          if s = cs "." ∨ s = cs ".." then endPtr m p else .ok q) = (.ok q' : M CPtr) ∧ Within m argv q' ∧
        strAt m q' = if strAt m q = cs "." ∨ strAt m q = cs ".." then [] else strAt m q := by
    intro q hq
    rw [readStr_ok hq.1, ebind]
    by_cases hc : strAt m q = cs "." ∨ strAt m q = cs ".."
    · rw [if_pos hc, if_pos hc]; exact ⟨e, e1, e2, e3⟩
    · rw [if_neg hc, if_neg hc]; exact ⟨q, rfl, hq, rfl⟩
  unfold argBasenamePtr argBasename
  rcases strrchrPtr_ok hw '/' with ⟨h1, h2⟩ | ⟨q, t, h1, h2, h3, h4, -⟩
  · rw [h1, h2, ebind]
    exact key p hw
  · rw [h1, h2, ebind]
    have n1 := within_next h3 h4
    have n2 := (next_ok h3.1 h4).2
    have := key q.next n1
    rw [n2] at this
    exact this

theorem extension_ok {p : CPtr} (hw : Within m argv p) :
    ∃ q, argExtensionPtr m p = .ok q ∧ Within m argv q ∧ strAt m q = argExtension (strAt m p) := by
  obtain ⟨e, e1, e2, e3⟩ := endPtr_ok hw
  have last : ∀ q, Within m argv q → ∃ q',
      (do let s ← readStr m q
          if s.length = 1 then .ok e else .ok q) = (.ok q' : M CPtr) ∧ Within m argv q' ∧
        strAt m q' = if (strAt m q).length = 1 then [] else strAt m q := by
    intro q hq
    rw [readStr_ok hq.1, ebind]
    by_cases hc : (strAt m q).length = 1
    · rw [if_pos hc, if_pos hc]; exact ⟨e, rfl, e2, e3⟩
    · rw [if_neg hc, if_neg hc]; exact ⟨q, rfl, hq, rfl⟩
  unfold argExtensionPtr argExtension
  rcases strrchrPtr_ok hw '.' with ⟨h1, h2⟩ | ⟨q, t, h1, h2, h3, h4, h5⟩
  · rw [h1, h2, ebind, e1]
    simp only [ebind, ite_self]
    rw [readStr_ok e2.1, ebind]
    exact ⟨e, rfl, e2, e3⟩
  · rw [h1, h2, ebind, e1]
    simp only [ebind]
    by_cases hc : q = p
    · rw [if_pos hc, if_pos (h5.1 hc)]
      obtain ⟨q', k1, k2, k3⟩ := last e e2
      refine ⟨q', k1, k2, ?_⟩
      rw [k3, e3]
    · rw [if_neg hc, if_neg (fun h => hc (h5.2 h))]
      obtain ⟨q', k1, k2, k3⟩ := last q h3
      refine ⟨q', k1, k2, ?_⟩
      rw [k3, h4]

/-! ## Cells -/

theorem Spec.CellsShow.store {ps : List CPtr} {vs : List CStr} (H : CellsShow m ps vs) (n : Nat) {p : CPtr} {v : CStr}
    (hp : strAt m p = v) : Follows (CellsShow m) (storeAt ps n p) (storeAt vs n v) := by
  unfold storeAt
  rw [H.1]
  split
  · rename_i hn
    refine ⟨by simp [H.1], fun i q w h1 h2 hv => ?_⟩
    rw [List.getElem?_set] at h1 h2
    split at h1
    · rename_i hi
      subst hi
      rw [if_pos (by rw [H.1]; exact hn)] at h1
      rw [if_pos rfl, if_pos hn] at h2
      cases h1; cases h2
      exact hp
    · rename_i hi
      rw [if_neg hi] at h2
      exact H.2 i q w h1 h2 hv
  · rfl

/-- Each cell is an old one, or is allowed by `P`. -/
def Stays (P : CPtr → Prop) (old new : List CPtr) : Prop := ∀ (k : Nat) p, new[k]? = some p → old[k]? = some p ∨ P p

theorem Stays.refl (P : CPtr → Prop) (l : List CPtr) : Stays P l l := fun _ _ h => .inl h

theorem Stays.store {P : CPtr → Prop} {old new w : List CPtr} (H : Stays P old new) {n : Nat} {p : CPtr} (hp : P p)
    (h : storeAt new n p = .ok w) : Stays P old w := by
  unfold storeAt at h
  split at h
  · cases h
    intro k q hq
    rw [List.getElem?_set] at hq
    split at hq
    · cases hq; exact .inr hp
    · exact H k q hq
  · cases h

theorem store_both {P : CPtr → Prop} {old ps : List CPtr} {vs : List CStr} (H : CellsShow m ps vs) (S : Stays P old ps)
    (n : Nat) {p : CPtr} {v : CStr} (hp : strAt m p = v) (hP : P p) :
    Follows (fun a b => CellsShow m a b ∧ Stays P old a) (storeAt ps n p) (storeAt vs n v) := by
  have h1 := H.store n hp
  cases ha : storeAt ps n p with
  | error e =>
    cases hb : storeAt vs n v with
    | error e' => rw [ha, hb] at h1; exact h1
    | ok b => rw [ha, hb] at h1; exact h1.elim
  | ok a =>
    cases hb : storeAt vs n v with
    | error e' => rw [ha, hb] at h1; exact h1.elim
    | ok b => rw [ha, hb] at h1; exact ⟨h1, S.store hP ha⟩

theorem strClear_sim (he : strAt m emsg = []) {P : CPtr → Prop} (hP : P emsg) {old ps : List CPtr} {vs : List CStr}
    (H : CellsShow m ps vs) (S : Stays P old ps) (n : Nat) :
    Follows (fun a b => CellsShow m a b ∧ Stays P old a) (strClearPtr emsg n ps) (strClear n vs) := by
  induction n with
  | zero => exact ⟨H, S⟩
  | succ n ih =>
    rw [strClearPtr, strClear]
    exact ih.bind fun a b h => store_both h.1 h.2 n he hP

/-! ## Objects -/

/-- The same kind of object, with cells from the old one or allowed by `P`. -/
inductive Kin (P : CPtr → Prop) : PObj δ → PObj δ → Prop
  | plain (o o' : Obj δ) : keeps o' = false → Kin P (.plain o) (.plain o')
  | str (p p' : PStrObj) : Stays P p.sval p'.sval → Kin P (.str p) (.str p')
  | rex (p p' : PStrObj) : Stays P p.sval p'.sval → Kin P (.rex p) (.rex p')
  | file (p p' : PFileObj) : Stays P p.filename p'.filename → Stays P p.basename p'.basename →
      Stays P p.extension p'.extension → Kin P (.file p) (.file p')

/-- Where new pointers may go. -/
def Target (m : Strs) (emsg : CPtr) (argv : List CPtr) (p : CPtr) : Prop := p = emsg ∨ Within m argv p

/-- The relation kept for an entry whose object was `p0`. -/
def ObjRel (m : Strs) (emsg : CPtr) (argv : List CPtr) (p0 p : PObj δ) (o : Obj δ) : Prop :=
  PtrShows m p o ∧ Kin (Target m emsg argv) p0 p

theorem Kin.points {p0 p : PObj δ} (h : Kin (Target m emsg argv) p0 p) : Points m emsg argv p0 p := by
  intro j k q hq
  cases h with
  | plain => exact absurd hq (by simp [cellOf, arrays])
  | str a b hs =>
    match j with
    | 0 => exact hs k q hq
    | j + 1 => exact absurd hq (by simp [cellOf, arrays])
  | rex a b hs =>
    match j with
    | 0 => exact hs k q hq
    | j + 1 => exact absurd hq (by simp [cellOf, arrays])
  | file a b h1 h2 h3 =>
    match j with
    | 0 => exact h1 k q hq
    | 1 => exact h2 k q hq
    | 2 => exact h3 k q hq
    | j + 3 => exact absurd hq (by simp [cellOf, arrays])

theorem strScan_sim {P : CPtr → Prop} {old : List CPtr} {mx : Int} {p : PStrObj} {o : StrObj} (hc : p.count = o.count)
    (H : CellsShow m p.sval o.sval) (S : Stays P old p.sval) (a : Option CPtr) (ha : ∀ q, a = some q → P q) :
    Follows (fun x y => (x.1.count = y.1.count ∧ CellsShow m x.1.sval y.1.sval ∧ Stays P old x.1.sval) ∧ x.2 = y.2)
      (strScanPtr mx p a) (strScan mx o (a.map (strAt m))) := by
  unfold strScanPtr strScan
  rw [hc]
  split
  · exact ⟨⟨hc, H, S⟩, rfl⟩
  · cases a with
    | none => exact ⟨⟨by dsimp only, H, S⟩, rfl⟩
    | some q =>
      refine (store_both H S o.count (v := strAt m q) rfl (ha q rfl)).bind fun x y h => ?_
      exact ⟨⟨rfl, h.1, h.2⟩, rfl⟩

theorem rexScan_sim {old : List CPtr} {pat : CStr} {ic : Bool} {mx : Int} {p : PStrObj} {o : StrObj}
    (hc : p.count = o.count) (H : CellsShow m p.sval o.sval) (S : Stays (Target m emsg argv) old p.sval) (a : Option CPtr)
    (ha : ∀ q, a = some q → Within m argv q) :
    Follows (fun x y => (x.1.count = y.1.count ∧ CellsShow m x.1.sval y.1.sval ∧
        Stays (Target m emsg argv) old x.1.sval) ∧ x.2 = y.2)
      (rexScanPtr m pat ic mx p a) (rexScan pat ic mx o (a.map (strAt m))) := by
  unfold rexScanPtr rexScan
  rw [hc]
  split
  · exact ⟨⟨hc, H, S⟩, rfl⟩
  · cases a with
    | none => exact ⟨⟨by dsimp only, H, S⟩, rfl⟩
    | some q =>
      dsimp only [Option.map_some]
      cases rexCompile pat with
      | error e => rfl
      | ok r =>
        simp only [ebind]
        cases r with
        | none => rfl
        | some nodes =>
          dsimp only
          rw [readStr_ok (ha q rfl).1, ebind]
          cases rexMatch nodes ic (strAt m q) with
          | error e => rfl
          | ok b =>
            simp only [ebind]
            cases b with
            | false => exact ⟨⟨hc, H, S⟩, rfl⟩
            | true =>
              refine (store_both H S o.count (v := strAt m q) rfl (.inr (ha q rfl))).bind fun x y h => ?_
              exact ⟨⟨rfl, h.1, h.2⟩, rfl⟩

theorem fileScan_sim {old : PFileObj} {mx : Int} {p : PFileObj} {o : FileObj} (hc : p.count = o.count)
    (H1 : CellsShow m p.filename o.filename) (H2 : CellsShow m p.basename o.basename)
    (H3 : CellsShow m p.extension o.extension) (S1 : Stays (Target m emsg argv) old.filename p.filename)
    (S2 : Stays (Target m emsg argv) old.basename p.basename) (S3 : Stays (Target m emsg argv) old.extension p.extension)
    (a : Option CPtr) (ha : ∀ q, a = some q → Within m argv q) :
    Follows (fun x y => (x.1.count = y.1.count ∧ CellsShow m x.1.filename y.1.filename ∧
        CellsShow m x.1.basename y.1.basename ∧ CellsShow m x.1.extension y.1.extension ∧
        Stays (Target m emsg argv) old.filename x.1.filename ∧ Stays (Target m emsg argv) old.basename x.1.basename ∧
        Stays (Target m emsg argv) old.extension x.1.extension) ∧ x.2 = y.2)
      (fileScanPtr m mx p a) (fileScan mx o (a.map (strAt m))) := by
  unfold fileScanPtr fileScan
  rw [hc]
  split
  · exact ⟨⟨hc, H1, H2, H3, S1, S2, S3⟩, rfl⟩
  · cases a with
    | none => exact ⟨⟨by dsimp only, H1, H2, H3, S1, S2, S3⟩, rfl⟩
    | some q =>
      dsimp only [Option.map_some]
      obtain ⟨b, b1, b2, b3⟩ := basename_ok (ha q rfl)
      obtain ⟨x, x1, x2, x3⟩ := extension_ok b2
      refine (store_both H1 S1 o.count (v := strAt m q) rfl (.inr (ha q rfl))).bind fun f1 f2 hf => ?_
      rw [b1, ebind]
      refine (store_both H2 S2 o.count b3 (.inr b2)).bind fun g1 g2 hg => ?_
      rw [x1, ebind]
      refine (store_both H3 S3 o.count (x3.trans (by rw [b3])) (.inr x2)).bind fun k1 k2 hk => ?_
      exact ⟨⟨rfl, hf.1, hg.1, hk.1, hf.2, hg.2, hk.2⟩, rfl⟩

theorem Spec.PtrShows.count {p : PObj δ} {o : Obj δ} (h : PtrShows m p o) : p.count = o.count := by
  cases h with
  | plain => rfl
  | str a b h _ => exact h
  | rex a b h _ => exact h
  | file a b h _ _ _ => exact h

theorem checkRel_count {R : PObj δ → Obj δ → Prop} (hR : ∀ p o, R p o → PtrShows m p o) (mn : Int) :
    CheckRel R (some fun o => countCheck mn o.count) (some fun o => countCheck mn o.count) := by
  intro p o h
  dsimp only
  rw [(hR p o h).count]

/-- What is kept for an entry. -/
def linkOf (m : Strs) (emsg : CPtr) (argv : List CPtr) (h' : Hdr (PObj δ)) (h : Hdr (Obj δ)) : Link (PObj δ) (Obj δ) where
  obj := ObjRel m emsg argv h'.parent
  hdr := fun k' k => k' = { h' with parent := k'.parent } ∧ k = { h with parent := k.parent }
  set := fun k' k p o hk => by
    constructor
    · rw [hk.1]
    · rw [hk.2]

/-- Entries belong together. -/
theorem Spec.PtrEntry.rel (H : Strings m emsg argv) {h : Hdr (Obj δ)} {h' : Hdr (PObj δ)} {f : Option (ScanPtr (PObj δ))}
    (E : PtrEntry m emsg h h' f) : HdrRel (linkOf m emsg argv h' h) m argv h' h f := by
  cases E with
  | @str so lo dt mn mx gl h ov p o hm hs =>
    obtain ⟨i1, i2, i3, i4, i5, i6, i7, i8, i9, i10, i11⟩ := argStrn_inv hm
    cases hs with
    | str _ _ hc hs =>
      refine ⟨⟨rfl, rfl⟩, rfl, rfl, rfl, rfl, ⟨.str _ _ hc hs, .str _ _ (.refl _ _)⟩, ?_, ?_, ?_⟩
      · show ScanRel _ m argv (some (strFnPtr h.maxcount)) h.scanfn
        rw [i11, i1]
        rintro q v a ⟨hq, hk⟩ ha
        cases hk with
        | str _ p' hst =>
          cases hq with
          | str _ o' hc' hs' =>
            refine (strScan_sim hc' hs' hst a (fun q hq => .inr (ha q hq))).bind ?_
            rintro ⟨x, e⟩ ⟨y, e'⟩ ⟨⟨k1, k2, k3⟩, k4⟩
            exact ⟨⟨.str _ _ k1 k2, .str _ _ k3⟩, k4⟩
      · show CheckRel _ (some fun o : PObj δ => countCheck h.mincount o.count) h.checkfn
        rw [i9, i3]
        exact checkRel_count (fun _ _ h => h.1) mn
      · show ResetRel _ (strHdrPtr emsg _ p).resetfn h.resetfn
        rw [i10]
        rintro q v ⟨hq, hk⟩
        cases hk with
        | str _ p' hst =>
          cases hq with
          | str _ o' hc' hs' =>
            have := strClear_sim H.emsg.2 (.inl rfl : Target m emsg argv emsg) hs' hst o'.count
            refine Follows.bind (R := fun (x : PStrObj) (y : StrObj) => x.count = y.count ∧ CellsShow m x.sval y.sval ∧
              Stays (Target m emsg argv) p.sval x.sval) ?_ fun x y hxy => ⟨.str _ _ hxy.1 hxy.2.1, .str _ _ hxy.2.2⟩
            unfold strResetPtr strReset
            rw [hc']
            exact this.bind fun a b hab => ⟨rfl, hab.1, hab.2⟩
  | @rex so lo pat dt mn mx ic gl h ov p o hm hs =>
    obtain ⟨i1, i2, i3, i4, i5, i6, i7, i8, i9, i10, i11, -⟩ := argRexn_inv hm
    cases hs with
    | rex _ _ hc hs =>
      refine ⟨⟨rfl, rfl⟩, rfl, rfl, rfl, rfl, ⟨.rex _ _ hc hs, .rex _ _ (.refl _ _)⟩, ?_, ?_, ?_⟩
      · show ScanRel _ m argv (some (rexFnPtr m pat ic h.maxcount)) h.scanfn
        rw [i11, i1]
        rintro q v a ⟨hq, hk⟩ ha
        cases hk with
        | rex _ p' hst =>
          cases hq with
          | rex _ o' hc' hs' =>
            refine (rexScan_sim hc' hs' hst a ha).bind ?_
            rintro ⟨x, e⟩ ⟨y, e'⟩ ⟨⟨k1, k2, k3⟩, k4⟩
            exact ⟨⟨.rex _ _ k1 k2, .rex _ _ k3⟩, k4⟩
      · show CheckRel _ (some fun o : PObj δ => countCheck h.mincount o.count) h.checkfn
        rw [i9, i3]
        exact checkRel_count (fun _ _ h => h.1) mn
      · show ResetRel _ (rexHdrPtr _ p).resetfn h.resetfn
        rw [i10]
        rintro q v ⟨hq, hk⟩
        cases hk with
        | rex _ p' hst =>
          cases hq with
          | rex _ o' hc' hs' => exact ⟨.rex _ _ rfl hs', .rex _ _ hst⟩
  | @file so lo dt mn mx gl h ov p o hm hs =>
    obtain ⟨i1, i2, i3, i4, i5, i6, i7, i8, i9, i10, i11⟩ := argFilen_inv hm
    cases hs with
    | file _ _ hc h1 h2 h3 =>
      refine ⟨⟨rfl, rfl⟩, rfl, rfl, rfl, rfl, ⟨.file _ _ hc h1 h2 h3, .file _ _ (.refl _ _) (.refl _ _) (.refl _ _)⟩, ?_, ?_, ?_⟩
      · show ScanRel _ m argv (some (fileFnPtr m h.maxcount)) h.scanfn
        rw [i11, i1]
        rintro q v a ⟨hq, hk⟩ ha
        cases hk with
        | file _ p' s1 s2 s3 =>
          cases hq with
          | file _ o' hc' t1 t2 t3 =>
            refine (fileScan_sim (old := p) hc' t1 t2 t3 s1 s2 s3 a ha).bind ?_
            rintro ⟨x, e⟩ ⟨y, e'⟩ ⟨⟨k1, k2, k3, k4, k5, k6, k7⟩, k8⟩
            exact ⟨⟨.file _ _ k1 k2 k3 k4, .file _ _ k5 k6 k7⟩, k8⟩
      · show CheckRel _ (some fun o : PObj δ => countCheck h.mincount o.count) h.checkfn
        rw [i9, i3]
        exact checkRel_count (fun _ _ h => h.1) mn
      · show ResetRel _ (fileHdrPtr _ p).resetfn h.resetfn
        rw [i10]
        rintro q v ⟨hq, hk⟩
        cases hk with
        | file _ p' s1 s2 s3 =>
          cases hq with
          | file _ o' hc' t1 t2 t3 => exact ⟨.file _ _ rfl t1 t2 t3, .file _ _ s1 s2 s3⟩
  | plain hn =>
    refine ⟨⟨rfl, rfl⟩, rfl, rfl, rfl, rfl, ⟨.plain _, .plain _ _ hn.parent⟩, ?_, ?_, ?_⟩
    · cases hf : h.scanfn with
      | none => trivial
      | some k =>
        rintro q v a ⟨hq, hk⟩ ha
        cases hk with
        | plain _ _ ho =>
          cases hq with
          | plain _ =>
            show Follows _ (plainScanPtr m k (.plain v) a) _
            unfold plainScanPtr
            dsimp only
            cases hko : k v (a.map (strAt m)) with
            | error e =>
              cases a with
              | none => dsimp only [Option.map_none] at hko; simp only [ebind]; rw [hko]; rfl
              | some q =>
                dsimp only [Option.map_some] at hko
                simp only [ebind, readStr_ok (ha q rfl).1]; rw [hko]; rfl
            | ok r =>
              cases a with
              | none =>
                dsimp only [Option.map_none] at hko; simp only [ebind]; rw [hko]
                exact ⟨⟨.plain _, .plain _ _ (hn.scan k v _ r.1 r.2 hf ho hko)⟩, rfl⟩
              | some q =>
                dsimp only [Option.map_some] at hko
                simp only [ebind, readStr_ok (ha q rfl).1]; rw [hko]
                exact ⟨⟨.plain _, .plain _ _ (hn.scan k v _ r.1 r.2 hf ho hko)⟩, rfl⟩
    · show CheckRel _ (plainHdrPtr h).checkfn h.checkfn
      unfold plainHdrPtr
      dsimp only
      cases hf : h.checkfn with
      | none => trivial
      | some k =>
        rintro q v ⟨hq, hk⟩
        cases hk with
        | plain _ _ ho =>
          cases hq with
          | plain _ => rfl
    · show ResetRel _ (plainHdrPtr h).resetfn h.resetfn
      unfold plainHdrPtr
      dsimp only
      cases hf : h.resetfn with
      | none => trivial
      | some k =>
        rintro q v ⟨hq, hk⟩
        cases hk with
        | plain _ _ ho =>
          cases hq with
          | plain _ =>
            dsimp only
            cases hko : k v with
            | error e => rfl
            | ok r => exact ⟨.plain _, .plain _ _ (hn.reset k v r hf ho hko)⟩

/-- With new objects, entries still belong together. -/
theorem Spec.PtrEntry.again {h : Hdr (Obj δ)} {h' : Hdr (PObj δ)} {f : Option (ScanPtr (PObj δ))}
    (E : PtrEntry m emsg h h' f) {p : PObj δ} {o : Obj δ} (hr : ObjRel m emsg argv h'.parent p o) :
    PtrEntry m emsg { h with parent := o } { h' with parent := p } f := by
  obtain ⟨hs, hk⟩ := hr
  cases E with
  | @str so lo dt mn mx gl h ov p o hm hs0 =>
    cases hk with
    | str => cases hs with
      | str _ _ a b => exact PtrEntry.str (h := h) (ov := ov) hm (.str _ _ a b)
  | @rex so lo pat dt mn mx ic gl h ov p o hm hs0 =>
    cases hk with
    | rex => cases hs with
      | rex _ _ a b => exact PtrEntry.rex (h := h) (ov := ov) hm (.rex _ _ a b)
  | @file so lo dt mn mx gl h ov p o hm hs0 =>
    cases hk with
    | file => cases hs with
      | file _ _ a b c d => exact PtrEntry.file (h := h) (ov := ov) hm (.file _ _ a b c d)
  | plain hn =>
    cases hk with
    | plain _ _ ho => cases hs with
      | plain => exact .plain (h := { h with parent := o }) ⟨ho, hn.scan, hn.reset⟩

theorem getElem?_both {α β : Type} {l : List α} {k : List β} (h : l.length = k.length) {i : Nat} {b : β} (hb : k[i]? = some b) :
    ∃ a, l[i]? = some a := by
  have : i < k.length := by
    rcases Nat.lt_or_ge i k.length with h | h
    · exact h
    · rw [List.getElem?_eq_none h] at hb; cases hb
  exact ⟨l[i]'(h ▸ this), List.getElem?_eq_getElem _⟩

/-- `arg_parse` on tables of objects. -/
theorem argParse_obj (H : Strings m emsg argv) (env : Bool) (fuel : Nat) {fns : List (Option (ScanPtr (PObj δ)))}
    {t' : PTable (PObj δ)} {t : Table (Obj δ)} (HT : PtrTable m emsg fns t'.entries t.entries)
    (hmax : t'.fin.maxcount = t.fin.maxcount) (hlen : t'.fin.slots.length = t.fin.slots.length) (s : PtrState) :
    Follows (fun x y => x.1 = y.1 ∧ PtrTable m emsg fns x.2.1.entries y.2.1.entries ∧
        ErrorsShow m argv x.2.1.fin y.2.1.fin ∧
        (x.2.1.entries.length = t'.entries.length ∧ ∀ (i : Nat) h k, t'.entries[i]? = some h → x.2.1.entries[i]? = some k →
          k = { h with parent := k.parent } ∧ Points m emsg argv h.parent k.parent) ∧
        y.2.2 = asText m x.2.2 ∧ (argv ≠ [] → ArgsOK m argv x.2.2))
      (argParsePtr m emsg fns env fuel argv t' s)
      (argParse env fuel (argv.map (strAt m)) t (asText m s)) := by
  let triv : Link (PObj δ) (Obj δ) := ⟨fun _ _ => True, fun _ _ => True, fun _ _ _ _ h => h⟩
  let R : Nat → Link (PObj δ) (Obj δ) := fun i =>
    match t'.entries[i]?, t.entries[i]? with
    | some h', some h => linkOf m emsg argv h' h
    | _, _ => triv
  have hR : ∀ i h' h, t'.entries[i]? = some h' → t.entries[i]? = some h → R i = linkOf m emsg argv h' h := by
    intro i h' h h1 h2
    show (match t'.entries[i]?, t.entries[i]? with
    | some h', some h => linkOf m emsg argv h' h
    | _, _ => triv) = _
    rw [h1, h2]
  have HE : EsRel R m argv fns t'.entries t.entries := ⟨HT.1, HT.2.1, fun i h' h h1 h2 => by
    rw [hR i h' h h1 h2]; exact (HT.2.2 i h' h h1 h2).rel H⟩
  refine Follows.imp ?_ (argParse_sim H env fuel HE hmax hlen s)
  rintro ⟨n, t1', s1⟩ ⟨n', t1, g1⟩ ⟨h1, h2, h3, h4⟩
  have h5 : t1'.entries.length = t'.entries.length := h2.entries.num.trans HT.1.symm
  refine ⟨h1, ⟨h2.entries.num, h2.entries.len, ?_⟩, ?_, ⟨h5, ?_⟩, h3, h4⟩
  · intro i k' k e1 e2
    obtain ⟨h', e3⟩ := getElem?_both h5.symm e1
    obtain ⟨h, e4⟩ := getElem?_both HT.2.1.symm e3
    have := h2.entries.each i k' k e1 e2
    rw [hR i h' h e3 e4] at this
    obtain ⟨b1, b2⟩ := this.hdr
    have := (HT.2.2 i h' h e3 e4).again this.parent
    rwa [← b1, ← b2] at this
  · exact ⟨h2.fin.max, h2.fin.len, h2.fin.count, fun k hk => by
      obtain ⟨r', r, a, b, c⟩ := h2.fin.recs k hk
      exact ⟨r', r, a, b, c.error, c.parent, c.argval, c.within⟩⟩
  · intro i h' k' e3 e1
    obtain ⟨k, e2⟩ := getElem?_both h2.entries.len.symm e1
    obtain ⟨h, e4⟩ := getElem?_both HT.2.1.symm e3
    have := h2.entries.each i k' k e1 e2
    rw [hR i h' h e3 e4] at this
    exact ⟨this.hdr.1, this.parent.2.points⟩

end Argtable
