import Verif.Spec.Reorder
import Verif.Proofs.Remark
import Verif.Proofs.Stuck
/-!
# Two adjacent entries exchanged
-/

namespace Argtable

open Spec

variable {σ α β : Type}

/-! ### renumbering in general -/

def renEv (τ : Nat → Nat) : Ev → Ev
  | .deliver i a => .deliver (τ i) a
  | .fail c a => .fail c a

def renLong (τ : Nat → Nat) (l : Long) : Long := { l with entry := τ l.entry }

/-- The declarations `ds'` are `ds` renumbered. -/
structure Renumbered (τ : Nat → Nat) (ds ds' : List Decl) : Prop where
  short : ∀ c, shortLookup c ds' 0 = (shortLookup c ds 0).map fun p => (τ p.1, p.2)
  long : ∀ p, resolve (longTable ds' 0) p = (resolve (longTable ds 0) p).map (renLong τ)
  decl : ∀ i, ds'[τ i]? = ds[i]?

theorem emptyValueError_ren {τ : Nat → Nat} {ds ds' : List Decl} (h : Renumbered τ ds ds') (i : Nat)
    (v a : CStr) : emptyValueError ds' (τ i) v a = (emptyValueError ds i v a).map (renEv τ) := by
  unfold emptyValueError
  rw [h.decl]
  split <;> rfl

theorem readLong_ren {τ : Nat → Nat} {ds ds' : List Decl} (h : Renumbered τ ds ds')
    (w : CStr) (n : Option CStr) (b : CStr) : readLong ds' w n b
      = ((readLong ds w n b).1.map (renEv τ), (readLong ds w n b).2) := by
  unfold readLong
  dsimp only
  rw [h.long]
  cases resolve (longTable ds 0) (b.takeWhile fun x => decide (x ≠ '=')) with
  | none => rfl
  | some l =>
    obtain ⟨nm, i, kind⟩ := l
    simp only [Option.map_some, renLong]
    split
    · rfl
    · simp only [List.map_append, emptyValueError_ren h]
      rfl
    · cases n with
      | none => rfl
      | some v =>
        simp only [List.map_append, emptyValueError_ren h]
        rfl
    · rfl

theorem readCluster_ren {τ : Nat → Nat} {ds ds' : List Decl} (h : Renumbered τ ds ds') (w : CStr) (n : Option CStr) :
    ∀ b : CStr, readCluster ds' w n b = (readCluster ds w n b).map fun p => (p.1.map (renEv τ), p.2) := by
  intro b
  induction b with
  | nil => rfl
  | cons c b ih =>
    rw [readCluster, readCluster]
    split
    · split
      · rfl
      · rw [readLong_ren h]; rfl
    · rw [h.short]
      cases shortLookup c ds 0 with
      | none =>
        simp only [Option.map_none, ih, Option.map_map]
        rfl
      | some p =>
        obtain ⟨i, kind⟩ := p
        cases kind with
        | no =>
          simp only [Option.map_some, ih, Option.map_map]
          rfl
        | req =>
          simp only [Option.map_some]
          split
          · rfl
          · cases n <;> rfl
        | opt => rfl

theorem tokenize_ren {τ : Nat → Nat} {ds ds' : List Decl} (hr : Renumbered τ ds ds') (posix : Bool) :
    ∀ (n : Nat) (args : List CStr), args.length ≤ n → tokenize ds' posix args
      = (tokenize ds posix args).map fun p => (p.1.map (renEv τ), p.2) := by
  intro n
  induction n with
  | zero =>
    intro args h
    have : args = [] := List.length_eq_zero_iff.1 (by omega)
    subst this
    rfl
  | succ n ih =>
    intro args h
    cases args with
    | nil => rfl
    | cons a rest =>
      simp only [List.length_cons] at h
      rw [tokenize.eq_def, tokenize.eq_def ds]
      dsimp only
      split
      · rfl
      split
      · split
        · rfl
        · rw [ih rest (by omega), Option.map_map, Option.map_map]
          rfl
      · rw [readCluster_ren hr]
        cases readCluster ds a rest.head? a.tail with
        | none => rfl
        | some p =>
          obtain ⟨evs, u⟩ := p
          cases u with
          | false =>
            simp only [Option.map_some]
            rw [ih rest (by omega), Option.map_map, Option.map_map]
            congr 1
            funext q
            simp
          | true =>
            simp only [Option.map_some]
            cases rest with
            | nil => rfl
            | cons v rest' =>
              simp only [List.length_cons] at h
              dsimp only
              rw [ih rest' (by omega), Option.map_map, Option.map_map]
              congr 1
              funext q
              simp

/-! ### exchanging the entries `k` and `k + 1` -/

def swp : Nat → List α → List α
  | 0, a :: b :: l => b :: a :: l
  | k + 1, a :: l => a :: swp k l
  | _, l => l

def swapIx (k i : Nat) : Nat := if i = k then k + 1 else if i = k + 1 then k else i

theorem swapIx_succ (k i : Nat) : swapIx (k + 1) (i + 1) = swapIx k i + 1 := by
  unfold swapIx
  repeat' split
  all_goals omega

theorem swapIx_inj {k i j : Nat} : swapIx k i = swapIx k j ↔ i = j := by
  unfold swapIx
  repeat' split
  all_goals omega

theorem swp_append (a b : α) (l2 : List α) : ∀ l1 : List α, swp l1.length (l1 ++ a :: b :: l2) = l1 ++ b :: a :: l2 := by
  intro l1
  induction l1 with
  | nil => rfl
  | cons x l1 ih => simp only [List.length_cons, List.cons_append, swp, ih]

theorem swp_length : ∀ (k : Nat) (l : List α), (swp k l).length = l.length := by
  intro k
  induction k with
  | zero =>
    intro l
    match l with
    | [] => rfl
    | [a] => rfl
    | a :: b :: l => rfl
  | succ k ih =>
    intro l
    cases l with
    | nil => rfl
    | cons a l => simp only [swp, List.length_cons, ih]

theorem swp_perm : ∀ (k : Nat) (l : List α), (swp k l).Perm l := by
  intro k
  induction k with
  | zero =>
    intro l
    match l with
    | [] => exact .refl _
    | [a] => exact .refl _
    | a :: b :: l => exact .swap a b l
  | succ k ih =>
    intro l
    cases l with
    | nil => exact .refl _
    | cons a l => exact (ih l).cons a

theorem swp_map (f : α → β) : ∀ (k : Nat) (l : List α), (swp k l).map f = swp k (l.map f) := by
  intro k
  induction k with
  | zero =>
    intro l
    match l with
    | [] => rfl
    | [a] => rfl
    | a :: b :: l => rfl
  | succ k ih =>
    intro l
    cases l with
    | nil => rfl
    | cons a l => simp only [swp, List.map_cons, ih]

theorem swp_get : ∀ (k : Nat) (l : List α), k + 1 < l.length → ∀ i, (swp k l)[swapIx k i]? = l[i]? := by
  intro k
  induction k with
  | zero =>
    intro l hl i
    match l with
    | [] => simp at hl
    | [a] => simp at hl
    | a :: b :: l =>
      match i with
      | 0 => rfl
      | 1 => rfl
      | i + 2 => simp [swp, swapIx]
  | succ k ih =>
    intro l hl i
    cases l with
    | nil => simp at hl
    | cons a l =>
      cases i with
      | zero => simp [swp, swapIx]
      | succ i => rw [swapIx_succ]; simpa [swp] using ih l (by simpa using hl) i

theorem swp_set : ∀ (k : Nat) (l : List α), k + 1 < l.length → ∀ i v,
    (swp k l).set (swapIx k i) v = swp k (l.set i v) := by
  intro k
  induction k with
  | zero =>
    intro l hl i v
    match l with
    | [] => simp at hl
    | [a] => simp at hl
    | a :: b :: l =>
      match i with
      | 0 => rfl
      | 1 => rfl
      | i + 2 => simp [swp, swapIx]
  | succ k ih =>
    intro l hl i v
    cases l with
    | nil => simp at hl
    | cons a l =>
      cases i with
      | zero => simp [swp, swapIx]
      | succ i => rw [swapIx_succ]; simpa [swp] using ih l (by simpa using hl) i v

/-! ### option names -/

theorem shortLookup_swp (c : Char) : ∀ (k : Nat) (ds : List Decl) (a b : Decl), ds[k]? = some a → ds[k + 1]? = some b →
    Apart a b → ∀ i, shortLookup c (swp k ds) i = (shortLookup c ds i).map fun p => (swapIx (i + k) p.1, p.2) := by
  intro k
  induction k with
  | zero =>
    intro ds a b ha hb hab i
    match ds with
    | [] => cases ha
    | [_] => cases hb
    | x :: y :: l =>
      cases ha; cases hb
      simp only [swp, shortLookup]
      by_cases h1 : c ∈ a.short.getD []
      · have h2 := hab.1 c h1
        simp [h1, h2, swapIx]
      · by_cases h2 : c ∈ b.short.getD []
        · simp [h1, h2, swapIx]
        · simp only [h1, h2, if_false]
          cases h3 : shortLookup c l (i + 1 + 1) with
          | none => rfl
          | some p =>
            obtain ⟨j, kd⟩ := p
            have := shortLookup_ge c l _ _ _ h3
            simp only [Option.map_some, swapIx]
            rw [if_neg (by omega), if_neg (by omega)]
  | succ k ih =>
    intro ds a b ha hb hab i
    cases ds with
    | nil => cases ha
    | cons d ds =>
      simp only [swp, shortLookup]
      split
      · simp only [Option.map_some, swapIx]
        rw [if_neg (by omega), if_neg (by omega)]
      · rw [ih ds a b (by simpa using ha) (by simpa using hb) hab (i + 1)]
        congr 1
        funext p
        rw [show i + 1 + k = i + (k + 1) by omega]

/-- The part of the option table that belongs to one entry. -/
def longsOf (d : Decl) (i : Nat) : List Long := d.names.map (⟨·, i, d.longKind⟩)

theorem longTable_cons (d : Decl) (ds : List Decl) (i : Nat) :
    longTable (d :: ds) i = longsOf d i ++ longTable ds (i + 1) := rfl

theorem longTable_ge : ∀ (ds : List Decl) (i : Nat), ∀ l ∈ longTable ds i, i ≤ l.entry := by
  intro ds
  induction ds with
  | nil => intro i l h; cases h
  | cons d ds ih =>
    intro i l h
    rw [longTable_cons, List.mem_append] at h
    rcases h with h | h
    · obtain ⟨n, -, rfl⟩ := List.mem_map.1 h
      exact Nat.le_refl _
    · have := ih (i + 1) l h; omega

theorem map_renLong_id {τ : Nat → Nat} {ls : List Long} (h : ∀ l ∈ ls, τ l.entry = l.entry) : ls.map (renLong τ) = ls := by
  have : ls.map (renLong τ) = ls.map id := by
    apply List.map_congr_left
    intro l hl
    unfold renLong
    rw [h l hl]; rfl
  rw [this, List.map_id]

theorem longsOf_ren (τ : Nat → Nat) (d : Decl) (i : Nat) : (longsOf d i).map (renLong τ) = longsOf d (τ i) := by
  unfold longsOf
  rw [List.map_map]
  rfl

/-- The option tables before and after the exchange. -/
theorem longTable_swp : ∀ (k : Nat) (ds : List Decl) (a b : Decl), ds[k]? = some a → ds[k + 1]? = some b →
    ∀ i, ∃ P S, longTable ds i = P ++ (longsOf a (i + k) ++ (longsOf b (i + k + 1) ++ S)) ∧
      longTable (swp k ds) i
        = (P ++ (longsOf b (i + k + 1) ++ (longsOf a (i + k) ++ S))).map (renLong (swapIx (i + k))) ∧
      (∀ l ∈ P, l.entry < i + k) ∧ ∀ l ∈ S, i + k + 1 < l.entry := by
  intro k
  induction k with
  | zero =>
    intro ds a b ha hb i
    match ds with
    | [] => cases ha
    | [_] => cases hb
    | x :: y :: l =>
      cases ha; cases hb
      refine ⟨[], longTable l (i + 1 + 1), rfl, ?_, by simp, fun q hq => ?_⟩
      · have h1 : swapIx (i + 0) (i + 0 + 1) = i := by simp [swapIx]
        have h2 : swapIx (i + 0) (i + 0) = i + 1 := by simp [swapIx]
        have h3 : (longTable l (i + 1 + 1)).map (renLong (swapIx (i + 0))) = longTable l (i + 1 + 1) :=
          map_renLong_id fun q hq => by
            have := longTable_ge l _ q hq
            unfold swapIx
            rw [if_neg (by omega), if_neg (by omega)]
        simp only [List.nil_append, List.map_append, longsOf_ren, h1, h2, h3]
        rfl
      · have := longTable_ge l _ q hq; omega
  | succ k ih =>
    intro ds a b ha hb i
    cases ds with
    | nil => cases ha
    | cons d ds =>
      obtain ⟨P, S, h1, h2, h3, h4⟩ := ih ds a b (by simpa using ha) (by simpa using hb) (i + 1)
      rw [show i + 1 + k = i + (k + 1) by omega] at h1 h2 h3 h4
      refine ⟨longsOf d i ++ P, S, ?_, ?_, ?_, h4⟩
      · rw [longTable_cons, h1, List.append_assoc]
      · have h5 : (longsOf d i).map (renLong (swapIx (i + (k + 1)))) = longsOf d i :=
          map_renLong_id fun q hq => by
            obtain ⟨n, -, rfl⟩ := List.mem_map.1 hq
            unfold swapIx
            rw [if_neg (by dsimp only; omega), if_neg (by dsimp only; omega)]
        simp only [swp, longTable_cons, h2, List.append_assoc, List.map_append, h5]
      · intro l hl
        rcases List.mem_append.1 hl with hl | hl
        · obtain ⟨n, -, rfl⟩ := List.mem_map.1 hl
          dsimp only; omega
        · exact h3 l hl

theorem resolve_ren {τ : Nat → Nat} (hτ : ∀ i j, τ i = τ j ↔ i = j) (ls : List Long) (p : CStr) :
    resolve (ls.map (renLong τ)) p = (resolve ls p).map (renLong τ) := by
  unfold resolve
  rw [List.find?_map, List.filter_map]
  have e1 : ((fun l : Long => l.name == p) ∘ renLong τ) = fun l => l.name == p := rfl
  have e2 : ((fun l : Long => p.isPrefixOf l.name) ∘ renLong τ) = fun l => p.isPrefixOf l.name := rfl
  rw [e1, e2]
  cases ls.find? (fun l => l.name == p) with
  | some l => rfl
  | none =>
    dsimp only [Option.map_none]
    cases ls.filter (fun l => p.isPrefixOf l.name) with
    | nil => rfl
    | cons l rest =>
      simp only [List.map_cons, List.all_map]
      have : ((fun m : Long => m.entry == (renLong τ l).entry) ∘ renLong τ)
          = fun m => m.entry == l.entry := by
        funext m
        simp only [Function.comp, renLong]
        by_cases h : m.entry = l.entry
        · simp [h]
        · have : τ m.entry ≠ τ l.entry := fun e => h ((hτ _ _).1 e)
          simp [h, this]
      rw [this]
      split <;> rfl

/-- The choice among the names with a prefix. -/
def chooseLong (ls : List Long) : Option Long :=
  match ls with
  | [] => none
  | l :: rest => if rest.all (fun m => m.entry == l.entry) then some l else none

theorem resolve_eq (ls : List Long) (p : CStr) : resolve ls p =
    (match ls.find? (fun l => l.name == p) with
     | some l => some l
     | none => chooseLong (ls.filter (fun l => p.isPrefixOf l.name))) := by
  unfold resolve chooseLong
  cases ls.find? (fun l => l.name == p) with
  | some l => rfl
  | none => cases ls.filter (fun l => p.isPrefixOf l.name) <;> rfl

theorem chooseLong_none {ls : List Long} {x y : Long} (hx : x ∈ ls) (hy : y ∈ ls) (h : x.entry ≠ y.entry) :
    chooseLong ls = none := by
  cases ls with
  | nil => rfl
  | cons l rest =>
    unfold chooseLong
    dsimp only
    rw [if_neg]
    intro hall
    have : ∀ z ∈ l :: rest, z.entry = l.entry := by
      intro z hz
      rcases List.mem_cons.1 hz with rfl | hz
      · rfl
      · simpa using List.all_eq_true.1 hall z hz
    exact h ((this x hx).trans (this y hy).symm)

theorem resolve_exchange {P A B S : List Long} {p : CStr} (hn : ∀ a ∈ A, ∀ b ∈ B, a.name ≠ b.name)
    (he : ∀ a ∈ A, ∀ b ∈ B, a.entry ≠ b.entry) :
    resolve (P ++ (B ++ (A ++ S))) p = resolve (P ++ (A ++ (B ++ S))) p := by
  rw [resolve_eq, resolve_eq]
  have hfind : (P ++ (B ++ (A ++ S))).find? (fun l => l.name == p) = (P ++ (A ++ (B ++ S))).find? (fun l => l.name == p) := by
    simp only [List.find?_append]
    cases hA : A.find? (fun l => l.name == p) with
    | none => simp
    | some x =>
      have h1 : B.find? (fun l => l.name == p) = none := by
        rw [List.find?_eq_none]
        intro b hb hbp
        have h2 := List.find?_some hA
        have h3 := List.mem_of_find?_eq_some hA
        simp only [beq_iff_eq] at hbp h2
        exact hn x h3 b hb (by rw [h2, hbp])
      rw [h1]
      simp
  rw [hfind]
  cases (P ++ (A ++ (B ++ S))).find? (fun l => l.name == p) with
  | some l => rfl
  | none =>
    dsimp only
    simp only [List.filter_append]
    cases hA : A.filter (fun l => p.isPrefixOf l.name) with
    | nil => simp
    | cons x fa =>
      cases hB : B.filter (fun l => p.isPrefixOf l.name) with
      | nil => simp
      | cons y fb =>
        have hx : x ∈ A := (List.mem_filter.1 (by rw [hA]; simp : x ∈ A.filter _)).1
        have hy : y ∈ B := (List.mem_filter.1 (by rw [hB]; simp : y ∈ B.filter _)).1
        rw [chooseLong_none (x := x) (y := y) (by simp) (by simp) (he x hx y hy),
          chooseLong_none (x := x) (y := y) (by simp) (by simp) (he x hx y hy)]

theorem renumbered_swp {k : Nat} {ds : List Decl} {a b : Decl} (ha : ds[k]? = some a) (hb : ds[k + 1]? = some b)
    (hab : Apart a b) : Renumbered (swapIx k) ds (swp k ds) where
  short c := by simpa using shortLookup_swp c k ds a b ha hb hab 0
  long p := by
    obtain ⟨P, S, h1, h2, -, -⟩ := longTable_swp k ds a b ha hb 0
    rw [h2, resolve_ren (fun i j => swapIx_inj), h1, Nat.zero_add]
    rw [resolve_exchange]
    · intro x hx y hy e
      obtain ⟨n, hn, rfl⟩ := List.mem_map.1 hx
      obtain ⟨n', hn', rfl⟩ := List.mem_map.1 hy
      dsimp only at e
      subst e
      exact hab.2 n hn hn'
    · intro x hx y hy e
      obtain ⟨n, hn, rfl⟩ := List.mem_map.1 hx
      obtain ⟨n', hn', rfl⟩ := List.mem_map.1 hy
      dsimp only at e
      omega
  decl := swp_get k ds (List.getElem?_eq_some_iff.1 hb).1

/-! ### the entries -/

def renRec (τ : Nat → Nat) (e : ErrRec) : ErrRec :=
  { e with parent := match e.parent with
      | .entry i => .entry (τ i)
      | .endt => .endt }

def swpS (k : Nat) (s : List (Hdr σ) × List ErrRec) : List (Hdr σ) × List ErrRec :=
  (swp k s.1, s.2.map (renRec (swapIx k)))

theorem deliver_swp {k : Nat} {s : List (Hdr σ) × List ErrRec} (hk : k + 1 < s.1.length)
    (ev : Ev) : deliver (swpS k s) (renEv (swapIx k) ev) = (deliver s ev).map (swpS k) := by
  cases ev with
  | fail c a => simp [deliver, renEv, swpS, renRec, Except.map]
  | deliver i a =>
    simp only [deliver, renEv, swpS]
    rw [swp_get k s.1 hk]
    cases s.1[i]? with
    | none => rfl
    | some e =>
      dsimp only
      cases hs : e.scanfn with
      | none => rfl
      | some f =>
        dsimp only
        cases f e.parent a with
        | error x => rfl
        | ok q =>
          simp only [bind, Except.bind, Except.map, swp_set k s.1 hk]
          split
          · simp [renRec, swpS]
          · rfl

theorem deliverAll_swp {k : Nat} : ∀ (evs : List Ev) (s : List (Hdr σ) × List ErrRec),
    k + 1 < s.1.length →
    deliverAll (evs.map (renEv (swapIx k))) (swpS k s) = (deliverAll evs s).map (swpS k) := by
  intro evs
  induction evs with
  | nil => intro s _; rfl
  | cons ev evs ih =>
    intro s hk
    simp only [List.map_cons, deliverAll]
    rw [deliver_swp hk]
    cases hd : deliver s ev with
    | error e => rfl
    | ok s1 =>
      have := deliver_length hd
      exact ih s1 (by omega)

/-- The reset of one entry. -/
def resetHdr (h : Hdr σ) : M (Hdr σ) :=
  match h.resetfn with
  | none => .ok h
  | some f => (f h.parent).map fun p => { h with parent := p }

theorem resetAll_cons_hdr (h : Hdr σ) (t : List (Hdr σ)) :
    resetAll (h :: t) = (resetHdr h).bind fun h' => (resetAll t).map (h' :: ·) := by
  obtain ⟨_, _, _, _, _, _, _, _, pa, rs, _, _, _⟩ := h
  simp only [resetAll, resetHdr]
  cases rs with
  | none =>
    dsimp only [bind, Except.bind]
    cases resetAll t <;> rfl
  | some f =>
    dsimp only
    cases f pa with
    | error e => rfl
    | ok p => rfl

theorem resetAll_cons_split {h : Hdr σ} {t q : List (Hdr σ)} : resetAll (h :: t) = .ok q ↔
    ∃ h' t', resetHdr h = .ok h' ∧ resetAll t = .ok t' ∧ q = h' :: t' := by
  rw [resetAll_cons_hdr]
  cases resetHdr h with
  | error e => simp [Except.bind]
  | ok h' =>
    cases resetAll t with
    | error e => simp [Except.bind, Except.map]
    | ok t' => simp [Except.bind, Except.map, eq_comm]

theorem resetAll_swp : ∀ (k : Nat) (es es0 : List (Hdr σ)), resetAll es = .ok es0 → resetAll (swp k es) = .ok (swp k es0) := by
  intro k
  induction k with
  | zero =>
    intro es es0 h
    match es with
    | [] => cases h; rfl
    | [a] =>
      have := resetAll_length _ _ h
      match es0, this with
      | [b], _ => exact h
    | a :: b :: l =>
      obtain ⟨a', t', h1, h2, rfl⟩ := resetAll_cons_split.1 h
      obtain ⟨b', l', h3, h4, rfl⟩ := resetAll_cons_split.1 h2
      exact resetAll_cons_split.2 ⟨b', a' :: l', h3, resetAll_cons_split.2 ⟨a', l', h1, h4, rfl⟩, rfl⟩
  | succ k ih =>
    intro es es0 h
    cases es with
    | nil => cases h; rfl
    | cons a l =>
      obtain ⟨a', t', h1, h2, rfl⟩ := resetAll_cons_split.1 h
      exact resetAll_cons_split.2 ⟨a', swp k t', h1, ih l t' h2, rfl⟩

theorem leftover_length (last : Option (Int × Nat)) (ops : List CStr) : (leftover last ops).length = ops.length := by
  unfold leftover
  cases ops with
  | nil => rfl
  | cons a rest => cases last <;> simp

/-- An entry passed over by the operands. -/
theorem operands_pass {h : Hdr σ} (hp : operandEntry h = false) (t : List (Hdr σ)) (i : Nat) (last : Option (Int × Nat)) (ops : List CStr) :
    operands (h :: t) i last ops
      = if ops = [] then .ok (h :: t, []) else (operands t (i + 1) last ops).map fun q => (h :: q.1, q.2) := by
  rw [operands]
  split
  · rfl
  split
  · cases operands t (i + 1) last ops <;> rfl
  · rename_i h1
    unfold operandEntry at hp
    cases h4 : h.scanfn with
    | none =>
      dsimp only
      cases operands t (i + 1) last ops <;> rfl
    | some f =>
      exfalso
      cases h2 : h.shortopts <;> cases h3 : h.longopts <;> simp_all

/-- The place where the errors are attributed plays no part. -/
theorem operands_place : ∀ (es : List (Hdr σ)) (i j : Nat) (last last' : Option (Int × Nat)) (ops : List CStr)
    (w : List (Hdr σ) × List ErrRec), operands es i last ops = .ok w →
    ∃ errs, operands es j last' ops = .ok (w.1, errs) ∧ errs.length = w.2.length := by
  intro es
  induction es with
  | nil =>
    intro i j last last' ops w h
    cases h
    exact ⟨_, rfl, by rw [leftover_length, leftover_length]⟩
  | cons a es ih =>
    intro i j last last' ops w h
    rw [operands] at h ⊢
    split at h
    · cases h
      rename_i h0
      exact ⟨[], by rw [if_pos h0], rfl⟩
    rename_i h0
    rw [if_neg h0]
    split at h
    · rename_i h1
      rw [if_pos h1]
      cases h2 : operands es (i + 1) last ops with
      | error e => rw [h2] at h; cases h
      | ok q =>
        rw [h2] at h; cases h
        obtain ⟨errs, h3, h4⟩ := ih _ (j + 1) _ last' _ _ h2
        rw [h3]
        exact ⟨errs, rfl, h4⟩
    · rename_i h1
      rw [if_neg h1]
      cases hs : a.scanfn with
      | none =>
        rw [hs] at h
        dsimp only at h ⊢
        cases h2 : operands es (i + 1) last ops with
        | error e => rw [h2] at h; cases h
        | ok q =>
          rw [h2] at h; cases h
          obtain ⟨errs, h3, h4⟩ := ih _ (j + 1) _ last' _ _ h2
          rw [h3]
          exact ⟨errs, rfl, h4⟩
      | some f =>
        rw [hs] at h
        dsimp only at h ⊢
        cases hf : feed f a.parent ops with
        | error e => rw [hf] at h; cases h
        | ok v =>
          rw [hf] at h
          dsimp only [bind, Except.bind] at h ⊢
          cases h2 : operands es (i + 1) (some (v.2.2, i)) v.2.1 with
          | error e => rw [h2] at h; cases h
          | ok q =>
            rw [h2] at h; cases h
            obtain ⟨errs, h3, h4⟩ := ih _ (j + 1) _ (some (v.2.2, j)) _ _ h2
            rw [h3]
            exact ⟨errs, rfl, h4⟩

/-- The step of `operands` over an arbitrary entry: what it does depends on the rest only through its result. -/
theorem operands_step (a : Hdr σ) (ops : List CStr) (hne : ops ≠ []) (i : Nat) (last : Option (Int × Nat)) :
    ∃ x : M (Hdr σ × List CStr × Option (Int × Nat)), ∀ t : List (Hdr σ),
      operands (a :: t) i last ops = x.bind fun p =>
        (operands t (i + 1) p.2.2 p.2.1).map fun q => (p.1 :: q.1, q.2) := by
  by_cases h1 : a.longopts.isSome ∨ a.shortopts.isSome
  · refine ⟨.ok (a, ops, last), fun t => ?_⟩
    rw [operands, if_neg hne, if_pos h1]
    simp only [Except.bind]
    cases operands t (i + 1) last ops <;> rfl
  · cases hs : a.scanfn with
    | none =>
      refine ⟨.ok (a, ops, last), fun t => ?_⟩
      rw [operands, if_neg hne, if_neg h1, hs]
      simp only [Except.bind]
      cases operands t (i + 1) last ops <;> rfl
    | some f =>
      refine ⟨(feed f a.parent ops).map fun w => ({ a with parent := w.1 }, w.2.1, some (w.2.2, i)), fun t => ?_⟩
      rw [operands, if_neg hne, if_neg h1, hs]
      dsimp only
      cases feed f a.parent ops with
      | error e => rfl
      | ok w =>
        obtain ⟨_, _, _, _, _, _, _, _, _, _, _, _, _⟩ := a
        dsimp only at hs
        subst hs
        rfl

theorem operands_swp : ∀ (k : Nat) (es : List (Hdr σ)) (a b : Hdr σ), es[k]? = some a → es[k + 1]? = some b →
    (operandEntry a = false ∨ operandEntry b = false) → ∀ (i : Nat) (last : Option (Int × Nat)) (ops : List CStr)
    (w : List (Hdr σ) × List ErrRec), operands es i last ops = .ok w →
    ∃ errs, operands (swp k es) i last ops = .ok (swp k w.1, errs) ∧ errs.length = w.2.length := by
  intro k
  induction k with
  | zero =>
    intro es a b ha hb hab i last ops w h
    match es with
    | [] => cases ha
    | [_] => cases hb
    | x :: y :: l =>
      cases ha; cases hb
      simp only [swp]
      by_cases hne : ops = []
      · subst hne
        rw [operands_nil] at h ⊢
        cases h
        exact ⟨[], rfl, rfl⟩
      rcases hab with hab | hab
      · rw [operands_pass hab, if_neg hne] at h
        obtain ⟨f, hf⟩ := operands_step b ops hne (i + 1) last
        obtain ⟨f', hf'⟩ := operands_step b ops hne i last
        cases h1 : operands (b :: l) (i + 1) last ops with
        | error e => rw [h1] at h; cases h
        | ok q =>
          rw [h1] at h
          cases h
          obtain ⟨errs, h2, h3⟩ := operands_place _ _ i _ last _ _ h1
          rw [hf'] at h2 ⊢
          cases hx : f' with
          | error e => rw [hx] at h2; cases h2
          | ok p =>
            rw [hx] at h2
            simp only [Except.bind] at h2 ⊢
            cases h4 : operands l (i + 1) p.2.2 p.2.1 with
            | error e => rw [h4] at h2; cases h2
            | ok q' =>
              rw [h4] at h2
              simp only [Except.map, Except.ok.injEq, Prod.mk.injEq] at h2
              rw [operands_pass hab]
              split
              · rename_i h5
                rw [h5, operands_nil] at h4
                cases h4
                refine ⟨[], ?_, by rw [← h3, ← h2.2]⟩
                rw [← h2.1]
                rfl
              · obtain ⟨errs', h6, h7⟩ := operands_place _ _ (i + 1 + 1) _ p.2.2 _ _ h4
                rw [h6]
                refine ⟨errs', ?_, by rw [h7, h2.2, h3]⟩
                rw [← h2.1]
                rfl
      · rw [operands_pass hab, if_neg hne]
        obtain ⟨f, hf⟩ := operands_step a ops hne i last
        rw [hf] at h
        cases hx : f with
        | error e => rw [hx] at h; cases h
        | ok p =>
          rw [hx] at h
          simp only [Except.bind] at h
          have key : ∃ q, operands l (i + 1) p.2.2 p.2.1 = .ok q ∧ w.1 = p.1 :: b :: q.1 ∧ w.2.length = q.2.length := by
            rw [operands_pass hab] at h
            split at h
            · rename_i h5
              cases h
              rw [h5, operands_nil]
              exact ⟨_, rfl, rfl, rfl⟩
            · cases h4 : operands l (i + 1 + 1) p.2.2 p.2.1 with
              | error e => rw [h4] at h; cases h
              | ok q =>
                rw [h4] at h
                cases h
                obtain ⟨errs', h6, h7⟩ := operands_place _ _ (i + 1) _ p.2.2 _ _ h4
                exact ⟨_, h6, rfl, h7.symm⟩
          obtain ⟨q, h1, h2, h3⟩ := key
          have h4 : operands (a :: l) i last ops = .ok (p.1 :: q.1, q.2) := by
            rw [hf, hx]
            simp only [Except.bind]
            rw [h1]
            rfl
          obtain ⟨errs, h5, h6⟩ := operands_place _ _ (i + 1) _ last _ _ h4
          rw [h5, h2]
          exact ⟨errs, rfl, by rw [h6, h3]⟩
  | succ k ih =>
    intro es a b ha hb hab i last ops w h
    cases es with
    | nil => cases ha
    | cons c es =>
      simp only [swp]
      by_cases hne : ops = []
      · subst hne
        rw [operands_nil] at h ⊢
        cases h
        exact ⟨[], rfl, rfl⟩
      obtain ⟨f, hf⟩ := operands_step c ops hne i last
      rw [hf] at h ⊢
      cases hx : f with
      | error e => rw [hx] at h; cases h
      | ok p =>
        rw [hx] at h
        simp only [Except.bind] at h ⊢
        cases h1 : operands es (i + 1) p.2.2 p.2.1 with
        | error e => rw [h1] at h; cases h
        | ok q =>
          rw [h1] at h
          cases h
          obtain ⟨errs, h2, h3⟩ := ih es a b (by simpa using ha) (by simpa using hb) hab _ _ _ _ h1
          rw [h2]
          exact ⟨errs, rfl, h3⟩

/-- The entries whose check function complains. -/
def complains (h : Hdr σ) : Bool :=
  match h.checkfn with
  | none => false
  | some f => f h.parent != 0

theorem checks_count : ∀ (es : List (Hdr σ)) (i : Nat), (checks es i).length = es.countP complains := by
  intro es
  induction es with
  | nil => intro i; rfl
  | cons a es ih =>
    intro i
    rw [checks, List.countP_cons, ← ih (i + 1)]
    unfold complains
    cases a.checkfn with
    | none => simp
    | some f =>
      dsimp only
      by_cases h : f a.parent = 0
      · simp [h]
      · simp [h]

theorem sameHdr_operandEntry {h k : Hdr σ} (hs : SameHdr h k) : operandEntry k = operandEntry h := by
  unfold SameHdr at hs
  rw [hs]
  rfl

theorem frame_get {es es' : List (Hdr σ)} (h : Frame es es') {i : Nat} {a : Hdr σ} (ha : es[i]? = some a) :
    ∃ a', es'[i]? = some a' ∧ SameHdr a a' := by
  have hlen := h.length_eq
  have hi := (List.getElem?_eq_some_iff.1 ha).1
  refine ⟨es'[i]'(by omega), List.getElem?_eq_getElem _, ?_⟩
  have := List.forall₂_iff_get.1 h
  have h2 := this.2 i hi (by omega)
  have h3 : es[i] = a := (List.getElem?_eq_some_iff.1 ha).2
  simpa [h3] using h2

theorem meaning_swp {k : Nat} {es : List (Hdr σ)} {a b : Hdr σ} (ha : es[k]? = some a) (hb : es[k + 1]? = some b)
    (hab : operandEntry a = false ∨ operandEntry b = false) {evs : List Ev} {ops : List CStr} {w : List (Hdr σ) × List ErrRec}
    (h : meaning es evs ops = .ok w) :
    ∃ errs, meaning (swp k es) (evs.map (renEv (swapIx k))) ops = .ok (swp k w.1, errs) ∧ errs.length = w.2.length := by
  have hk : k + 1 < es.length := (List.getElem?_eq_some_iff.1 hb).1
  unfold meaning at h ⊢
  cases h0 : resetAll es with
  | error e => rw [h0] at h; cases h
  | ok es0 =>
    rw [h0] at h
    rw [resetAll_swp k es es0 h0]
    dsimp only [bind, Except.bind] at h ⊢
    cases h1 : deliverAll evs (es0, []) with
    | error e => rw [h1] at h; cases h
    | ok s1 =>
      rw [h1] at h
      have e1 := deliverAll_swp (k := k) evs (es0, []) (by have := resetAll_length _ _ h0; dsimp only; omega)
      rw [show swpS k (es0, []) = (swp k es0, []) from rfl, h1] at e1
      rw [e1]
      dsimp only [Except.map, swpS] at h ⊢
      cases h2 : operands s1.1 0 none ops with
      | error e => rw [h2] at h; cases h
      | ok s2 =>
        rw [h2] at h
        have fr := (resetAll_frame _ _ h0).trans (deliverAll_frame _ _ _ h1)
        obtain ⟨a', ha', sa⟩ := frame_get fr ha
        obtain ⟨b', hb', sb⟩ := frame_get fr hb
        obtain ⟨errs, h3, h4⟩ := operands_swp k s1.1 a' b' ha' hb'
          (by rw [sameHdr_operandEntry sa, sameHdr_operandEntry sb]; exact hab) _ _ _ _ h2
        rw [h3]
        dsimp only at h ⊢
        cases h
        refine ⟨_, rfl, ?_⟩
        have hl : (s1.2.map (renRec (swapIx k)) ++ errs).length = (s1.2 ++ s2.2).length := by simp [h4]
        by_cases hn : s1.2 ++ s2.2 = []
        · rw [if_pos hn, if_pos (by rw [hn] at hl; exact List.length_eq_zero_iff.1 hl), checks_count, checks_count]
          exact (swp_perm k s2.1).countP_eq _
        · rw [if_neg hn, if_neg (by intro e; rw [e] at hl; exact hn (List.length_eq_zero_iff.1 hl.symm))]
          exact hl

/-! ### any reordering -/

theorem apart_symm {d e : Decl} (h : Apart d e) : Apart e d :=
  ⟨fun c hc hc' => h.1 c hc' hc, fun n hn hn' => h.2 n hn' hn⟩

/-- Adjacent entries, not both operandEntry, exchanged any number of times. -/
inductive Moves : List (Hdr σ) → List (Hdr σ) → Prop
  | refl (es : List (Hdr σ)) : Moves es es
  | step {xs ys zs : List (Hdr σ)} {a b : Hdr σ} : (operandEntry a = false ∨ operandEntry b = false) →
      Moves (xs ++ b :: a :: ys) zs → Moves (xs ++ a :: b :: ys) zs

theorem Moves.trans {a b c : List (Hdr σ)} (h : Moves a b) (h' : Moves b c) : Moves a c := by
  induction h with
  | refl => exact h'
  | step hu _ ih => exact .step hu (ih h')

theorem Moves.cons {a b : List (Hdr σ)} (x : Hdr σ) (h : Moves a b) : Moves (x :: a) (x :: b) := by
  induction h with
  | refl => exact .refl _
  | step hu _ ih => exact .step (xs := x :: _) hu ih

/-- An entry moved to the front. -/
theorem Moves.front (x : Hdr σ) (B : List (Hdr σ)) : ∀ A : List (Hdr σ),
    (∀ a ∈ A, operandEntry a = false ∨ operandEntry x = false) → Moves (A ++ x :: B) (x :: (A ++ B)) := by
  intro A
  induction A with
  | nil => intro _; exact .refl _
  | cons a A ih =>
    intro h
    have h1 := (ih fun c hc => h c (by simp [hc])).cons a
    exact h1.trans (.step (xs := []) (h a (by simp)) (.refl _))

theorem filter_head_split {α : Type} {p : α → Bool} : ∀ {l : List α} {x : α} {r : List α}, l.filter p = x :: r →
    ∃ A B, l = A ++ x :: B ∧ ∀ a ∈ A, p a = false := by
  intro l
  induction l with
  | nil => intro x r h; cases h
  | cons c l ih =>
    intro x r h
    rw [List.filter_cons] at h
    split at h
    · cases h; exact ⟨[], l, rfl, by simp⟩
    · rename_i hc
      obtain ⟨A, B, h1, h2⟩ := ih h
      refine ⟨c :: A, B, by rw [h1]; rfl, fun a ha => ?_⟩
      rcases List.mem_cons.1 ha with rfl | ha
      · simpa using hc
      · exact h2 a ha

theorem moves_of_perm : ∀ (es' es : List (Hdr σ)), es'.Perm es → es'.filter operandEntry = es.filter operandEntry → Moves es es' := by
  intro es'
  induction es' with
  | nil => intro es h _; rw [List.nil_perm.1 h]; exact .refl _
  | cons x l ih =>
    intro es h hf
    have key : ∃ A B, es = A ++ x :: B ∧ ∀ a ∈ A, operandEntry a = false ∨ operandEntry x = false := by
      by_cases hx : operandEntry x = true
      · rw [List.filter_cons, if_pos hx] at hf
        obtain ⟨A, B, h1, h2⟩ := filter_head_split hf.symm
        exact ⟨A, B, h1, fun a ha => Or.inl (h2 a ha)⟩
      · obtain ⟨A, B, h1⟩ := List.append_of_mem (h.subset (by simp : x ∈ x :: l))
        exact ⟨A, B, h1, fun a _ => Or.inr (by simpa using hx)⟩
    obtain ⟨A, B, rfl, h2⟩ := key
    have hp : l.Perm (A ++ B) := (h.trans List.perm_middle).cons_inv
    have hf' : l.filter operandEntry = (A ++ B).filter operandEntry := by
      by_cases hx : operandEntry x = true
      · have hA : A.filter operandEntry = [] := by
          rw [List.filter_eq_nil_iff]
          intro a ha
          rcases h2 a ha with h3 | h3
          · simp [h3]
          · rw [hx] at h3; cases h3
        rw [List.filter_cons, if_pos hx, List.filter_append, hA, List.filter_cons, if_pos hx] at hf
        rw [List.filter_append, hA]
        injection hf
      · rw [List.filter_cons, if_neg hx, List.filter_append, List.filter_cons, if_neg hx] at hf
        rw [List.filter_append]
        exact hf
    exact (Moves.front x B A h2).trans ((ih _ hp hf').cons x)

theorem getElem?_mid {α : Type} (xs ys : List α) (a b : α) :
    (xs ++ a :: b :: ys)[xs.length]? = some a ∧ (xs ++ a :: b :: ys)[xs.length + 1]? = some b := by
  constructor
  · simp
  · rw [List.getElem?_append_right (by omega)]
    simp

theorem filter_swp {α : Type} (p : α → Bool) : ∀ (k : Nat) (l : List α) (a b : α), l[k]? = some a → l[k + 1]? = some b →
    (p a = false ∨ p b = false) → (swp k l).filter p = l.filter p := by
  intro k
  induction k with
  | zero =>
    intro l a b ha hb h
    match l with
    | [] => cases ha
    | [_] => cases hb
    | x :: y :: l =>
      cases ha; cases hb
      simp only [swp, List.filter_cons]
      rcases h with h | h <;> simp [h]
  | succ k ih =>
    intro l a b ha hb h
    cases l with
    | nil => cases ha
    | cons c l =>
      simp only [swp, List.filter_cons, ih l a b (by simpa using ha) (by simpa using hb) h]

/-- A reordering of the table does not change the meaning of a command line. -/
theorem meaning_moves {es es' : List (Hdr σ)} (hm : Moves es es') (hd : (es.map declOf).Pairwise Apart) {posix : Bool}
    {args : List CStr} {evs : List Ev} {ops : List CStr} {w : List (Hdr σ) × List ErrRec}
    (ht : tokenize (es.map declOf) posix args = some (evs, ops)) (h : meaning es evs ops = .ok w) :
    ∃ evs' es2 errs, tokenize (es'.map declOf) posix args = some (evs', ops) ∧ meaning es' evs' ops = .ok (es2, errs) ∧
      errs.length = w.2.length ∧ es2.Perm w.1 ∧ es2.filter operandEntry = w.1.filter operandEntry := by
  induction hm generalizing evs w with
  | refl => exact ⟨evs, w.1, w.2, ht, h, rfl, .refl _, rfl⟩
  | @step xs ys zs a b hu _ ih =>
    obtain ⟨ga, gb⟩ := getElem?_mid xs ys a b
    have hsw : swp xs.length (xs ++ a :: b :: ys) = xs ++ b :: a :: ys := swp_append a b ys xs
    have hperm : (xs ++ b :: a :: ys).Perm (xs ++ a :: b :: ys) := List.Perm.append_left xs (.swap a b ys)
    have hapart : Apart (declOf a) (declOf b) := by
      rw [List.map_append, List.map_cons, List.map_cons, List.pairwise_append] at hd
      exact (List.pairwise_cons.1 hd.2.1).1 _ (by simp)
    have hr : Renumbered (swapIx xs.length) ((xs ++ a :: b :: ys).map declOf) ((xs ++ b :: a :: ys).map declOf) := by
      rw [← hsw, swp_map]
      exact renumbered_swp (by rw [List.getElem?_map, ga]; rfl) (by rw [List.getElem?_map, gb]; rfl) hapart
    have ht' := tokenize_ren hr posix _ args (Nat.le_refl _)
    rw [ht] at ht'
    obtain ⟨errs, h1, h2⟩ := meaning_swp ga gb hu h
    rw [hsw] at h1
    have hd' : ((xs ++ b :: a :: ys).map declOf).Pairwise Apart :=
      ((hperm.map declOf).pairwise_iff (fun h => apart_symm h)).2 hd
    obtain ⟨evs', es2, errs', h3, h4, h5, h6, h7⟩ := ih hd' ht' h1
    refine ⟨evs', es2, errs', h3, h4, by rw [h5]; exact h2, h6.trans (swp_perm _ _), ?_⟩
    obtain ⟨a', ha', sa⟩ := frame_get (meaning_frame h) ga
    obtain ⟨b', hb', sb⟩ := frame_get (meaning_frame h) gb
    rw [h7]
    exact filter_swp operandEntry _ _ _ _ ha' hb' (by rw [sameHdr_operandEntry sa, sameHdr_operandEntry sb]; exact hu)

end Argtable
