import Verif.Spec.Remark
import Verif.Proofs.Context
import Verif.Proofs.Reading
/-!
# Inserting an inert entry (C17)
-/

namespace Argtable

open Spec

variable {σ : Type}

/-- `h` inserted at position `k`. -/
def ins {α : Type} (h : α) : Nat → List α → List α
  | 0, es => h :: es
  | _ + 1, [] => [h]
  | k + 1, a :: es => a :: ins h k es

theorem ins_append {α : Type} (h : α) : ∀ (xs ys : List α),
    ins h xs.length (xs ++ ys) = xs ++ h :: ys := by
  intro xs
  induction xs with
  | nil => intro ys; rfl
  | cons a xs ih => intro ys; simp only [List.length_cons, List.cons_append, ins, ih]

theorem ins_length {α : Type} (h : α) : ∀ (k : Nat) (es : List α), (ins h k es).length = es.length + 1 := by
  intro k
  induction k with
  | zero => intro es; rfl
  | succ k ih => intro es; cases es with
    | nil => rfl
    | cons a es => simp only [ins, List.length_cons, ih]

theorem ins_map {α β : Type} (f : α → β) (h : α) : ∀ (k : Nat) (es : List α),
    (ins h k es).map f = ins (f h) k (es.map f) := by
  intro k
  induction k with
  | zero => intro es; rfl
  | succ k ih => intro es; cases es with
    | nil => rfl
    | cons a es => simp only [ins, List.map_cons, ih]

theorem shiftIx_succ (k i : Nat) : shiftIx (k + 1) (i + 1) = shiftIx k i + 1 := by
  unfold shiftIx
  by_cases h : i < k
  · rw [if_pos h, if_pos (by omega)]
  · rw [if_neg h, if_neg (by omega)]

theorem ins_get {α : Type} (h : α) : ∀ (k : Nat) (es : List α), k ≤ es.length → ∀ i,
    (ins h k es)[shiftIx k i]? = es[i]? := by
  intro k
  induction k with
  | zero => intro es _ i; simp [ins, shiftIx]
  | succ k ih =>
    intro es hk i
    cases es with
    | nil => simp at hk
    | cons a es =>
      cases i with
      | zero => simp [ins, shiftIx]
      | succ i => rw [shiftIx_succ]; simpa [ins] using ih es (by simpa using hk) i

theorem ins_set {α : Type} (h : α) : ∀ (k : Nat) (es : List α), k ≤ es.length → ∀ i v,
    (ins h k es).set (shiftIx k i) v = ins h k (es.set i v) := by
  intro k
  induction k with
  | zero => intro es _ i v; simp [ins, shiftIx]
  | succ k ih =>
    intro es hk i v
    cases es with
    | nil => simp at hk
    | cons a es =>
      cases i with
      | zero => simp [ins, shiftIx]
      | succ i => rw [shiftIx_succ]; simpa [ins] using ih es (by simpa using hk) i v

theorem shiftIx_inj {k i j : Nat} : shiftIx k i = shiftIx k j ↔ i = j := by
  unfold shiftIx
  split <;> split <;> omega

/-! ### reading -/

def shiftEv (k : Nat) : Ev → Ev
  | .deliver i a => .deliver (shiftIx k i) a
  | .fail c a => .fail c a

def shiftLong (k : Nat) (l : Long) : Long := { l with entry := shiftIx k l.entry }

theorem shortLookup_succ (c : Char) : ∀ (ds : List Decl) (i : Nat),
    shortLookup c ds (i + 1) = (shortLookup c ds i).map fun p => (p.1 + 1, p.2) := by
  intro ds
  induction ds with
  | nil => intro i; rfl
  | cons d ds ih =>
    intro i
    unfold shortLookup
    split
    · rfl
    · exact ih (i + 1)

theorem shortLookup_ge (c : Char) : ∀ (ds : List Decl) (i j : Nat) (k : ValKind),
    shortLookup c ds i = some (j, k) → i ≤ j := by
  intro ds
  induction ds with
  | nil => intro i j k h; cases h
  | cons d ds ih =>
    intro i j k h
    unfold shortLookup at h
    split at h
    · cases h; exact Nat.le_refl _
    · have := ih _ _ _ h; omega

theorem shortLookup_ins (c : Char) {d : Decl} (hd : d.short = none) : ∀ (k : Nat) (ds : List Decl),
    k ≤ ds.length → ∀ i, shortLookup c (ins d k ds) i
      = (shortLookup c ds i).map fun p => (shiftIx (i + k) p.1, p.2) := by
  intro k
  induction k with
  | zero =>
    intro ds _ i
    have : shortLookup c (ins d 0 ds) i = shortLookup c ds (i + 1) := by
      simp [ins, shortLookup, hd]
    rw [this, shortLookup_succ]
    cases h : shortLookup c ds i with
    | none => rfl
    | some p =>
      have := shortLookup_ge c ds i p.1 p.2 h
      simp only [Option.map_some, Nat.add_zero, shiftIx]
      rw [if_neg (by omega)]
  | succ k ih =>
    intro ds hk i
    cases ds with
    | nil => simp at hk
    | cons e ds =>
      simp only [ins]
      rw [shortLookup, shortLookup]
      split
      · simp only [Option.map_some, shiftIx]
        rw [if_pos (by omega)]
      · rw [ih ds (by simpa using hk), show i + 1 + k = i + (k + 1) by omega]

theorem longTable_succ (k : Nat) : ∀ (ds : List Decl) (i : Nat), k ≤ i →
    longTable ds (i + 1) = (longTable ds i).map (shiftLong k) := by
  intro ds
  induction ds with
  | nil => intro i _; rfl
  | cons d ds ih =>
    intro i hk
    simp only [longTable, List.map_append, ih (i + 1) (by omega), List.map_map]
    congr 1
    apply List.map_congr_left
    intro a _
    simp only [Function.comp, shiftLong, shiftIx]
    rw [if_neg (by omega)]

theorem longTable_ins {d : Decl} (hd : d.long = none) : ∀ (k : Nat) (ds : List Decl),
    k ≤ ds.length → ∀ i, longTable (ins d k ds) i = (longTable ds i).map (shiftLong (i + k)) := by
  intro k
  induction k with
  | zero =>
    intro ds _ i
    rw [← longTable_succ (i + 0) ds i (by omega)]
    simp [ins, longTable, hd]
  | succ k ih =>
    intro ds hk i
    cases ds with
    | nil => simp at hk
    | cons e ds =>
      simp only [ins, longTable, List.map_append, List.map_map]
      rw [ih ds (by simpa using hk), show i + 1 + k = i + (k + 1) by omega]
      congr 1
      apply List.map_congr_left
      intro a _
      simp only [Function.comp, shiftLong, shiftIx]
      rw [if_pos (by omega)]

theorem resolve_shift (k : Nat) (ls : List Long) (p : CStr) :
    resolve (ls.map (shiftLong k)) p = (resolve ls p).map (shiftLong k) := by
  unfold resolve
  rw [List.find?_map, List.filter_map]
  have e1 : ((fun l : Long => l.name == p) ∘ shiftLong k) = fun l => l.name == p := rfl
  have e2 : ((fun l : Long => p.isPrefixOf l.name) ∘ shiftLong k) = fun l => p.isPrefixOf l.name := rfl
  rw [e1, e2]
  cases ls.find? (fun l => l.name == p) with
  | some l => rfl
  | none =>
    dsimp only [Option.map_none]
    cases ls.filter (fun l => p.isPrefixOf l.name) with
    | nil => rfl
    | cons l rest =>
      simp only [List.map_cons, List.all_map]
      have : ((fun m : Long => m.entry == (shiftLong k l).entry) ∘ shiftLong k)
          = fun m => m.entry == l.entry := by
        funext m
        simp only [Function.comp, shiftLong]
        by_cases h : m.entry = l.entry
        · simp [h]
        · have : shiftIx k m.entry ≠ shiftIx k l.entry := fun e => h (shiftIx_inj.1 e)
          simp [h, this]
      rw [this]
      split <;> rfl

theorem emptyValueError_ins {d : Decl} {k : Nat} {ds : List Decl} (hk : k ≤ ds.length) (i : Nat)
    (v a : CStr) : emptyValueError (ins d k ds) (shiftIx k i) v a
      = (emptyValueError ds i v a).map (shiftEv k) := by
  unfold emptyValueError
  rw [ins_get d k ds hk]
  split <;> rfl

theorem readLong_ins {d : Decl} (hd : d.long = none) {k : Nat} {ds : List Decl} (hk : k ≤ ds.length)
    (w : CStr) (n : Option CStr) (b : CStr) : readLong (ins d k ds) w n b
      = ((readLong ds w n b).1.map (shiftEv k), (readLong ds w n b).2) := by
  unfold readLong
  dsimp only
  rw [longTable_ins hd k ds hk 0, Nat.zero_add, resolve_shift]
  cases resolve (longTable ds 0) (b.takeWhile fun x => decide (x ≠ '=')) with
  | none => rfl
  | some l =>
    obtain ⟨nm, i, kind⟩ := l
    simp only [Option.map_some, shiftLong]
    split
    · rfl
    · simp only [List.map_append, emptyValueError_ins hk]
      rfl
    · cases n with
      | none => rfl
      | some v =>
        simp only [List.map_append, emptyValueError_ins hk]
        rfl
    · rfl

theorem readCluster_ins {d : Decl} (hs : d.short = none) (hd : d.long = none) {k : Nat}
    {ds : List Decl} (hk : k ≤ ds.length) (w : CStr) (n : Option CStr) : ∀ b : CStr,
    readCluster (ins d k ds) w n b
      = (readCluster ds w n b).map fun p => (p.1.map (shiftEv k), p.2) := by
  intro b
  induction b with
  | nil => rfl
  | cons c b ih =>
    rw [readCluster, readCluster]
    split
    · split
      · rfl
      · rw [readLong_ins hd hk]; rfl
    · rw [shortLookup_ins c hs k ds hk 0, Nat.zero_add]
      cases shortLookup c ds 0 with
      | none =>
        simp only [Option.map_none, ih, Option.map_map]
        rfl
      | some p =>
        obtain ⟨i, kind⟩ := p
        cases kind with
        | no =>
          simp only [Option.map_some, ih, Option.map_map]
          rfl
        | req =>
          simp only [Option.map_some]
          split
          · rfl
          · cases n <;> rfl
        | opt => rfl

theorem tokenize_ins {d : Decl} (hs : d.short = none) (hd : d.long = none) {k : Nat}
    {ds : List Decl} (hk : k ≤ ds.length) (posix : Bool) : ∀ (n : Nat) (args : List CStr),
    args.length ≤ n → tokenize (ins d k ds) posix args
      = (tokenize ds posix args).map fun p => (p.1.map (shiftEv k), p.2) := by
  intro n
  induction n with
  | zero =>
    intro args h
    have : args = [] := List.length_eq_zero_iff.1 (by omega)
    subst this
    rfl
  | succ n ih =>
    intro args h
    cases args with
    | nil => rfl
    | cons a rest =>
      simp only [List.length_cons] at h
      rw [tokenize.eq_def, tokenize.eq_def ds]
      dsimp only
      split
      · rfl
      split
      · split
        · rfl
        · rw [ih rest (by omega), Option.map_map, Option.map_map]
          rfl
      · rw [readCluster_ins hs hd hk]
        cases readCluster ds a rest.head? a.tail with
        | none => rfl
        | some p =>
          obtain ⟨evs, u⟩ := p
          cases u with
          | false =>
            simp only [Option.map_some]
            rw [ih rest (by omega), Option.map_map, Option.map_map]
            congr 1
            funext q
            simp
          | true =>
            simp only [Option.map_some]
            cases rest with
            | nil => rfl
            | cons v rest' =>
              simp only [List.length_cons] at h
              dsimp only
              rw [ih rest' (by omega), Option.map_map, Option.map_map]
              congr 1
              funext q
              simp

/-! ### effects -/

/-- An entry without options and functions. -/
structure Inert (h : Hdr σ) : Prop where
  short : h.shortopts = none
  long : h.longopts = none
  reset : h.resetfn = none
  scan : h.scanfn = none
  check : h.checkfn = none

def insS (h : Hdr σ) (k : Nat) (s : List (Hdr σ) × List ErrRec) : List (Hdr σ) × List ErrRec :=
  (ins h k s.1, s.2.map (shiftRec k))

theorem deliver_length {ev : Ev} {s s' : List (Hdr σ) × List ErrRec} (h : deliver s ev = .ok s') :
    s'.1.length = s.1.length := by
  unfold deliver at h
  cases ev with
  | fail c a => cases h; rfl
  | deliver i a =>
    dsimp only at h
    cases h1 : s.1[i]? with
    | none => rw [h1] at h; cases h
    | some e =>
      rw [h1] at h
      dsimp only at h
      cases h2 : e.scanfn with
      | none => rw [h2] at h; cases h; rfl
      | some f =>
        rw [h2] at h
        dsimp only at h
        cases h3 : f e.parent a with
        | error x => rw [h3] at h; cases h
        | ok q => rw [h3] at h; cases h; simp

theorem deliver_ins {h : Hdr σ} {k : Nat} {s : List (Hdr σ) × List ErrRec} (hk : k ≤ s.1.length)
    (ev : Ev) : deliver (insS h k s) (shiftEv k ev) = (deliver s ev).map (insS h k) := by
  cases ev with
  | fail c a => simp [deliver, shiftEv, insS, shiftRec, Except.map]
  | deliver i a =>
    simp only [deliver, shiftEv, insS]
    rw [ins_get h k s.1 hk]
    cases s.1[i]? with
    | none => rfl
    | some e =>
      dsimp only
      cases hs : e.scanfn with
      | none => rfl
      | some f =>
        dsimp only
        cases f e.parent a with
        | error x => rfl
        | ok q =>
          simp only [bind, Except.bind, Except.map, ins_set h k s.1 hk]
          split
          · simp [shiftRec, insS]
          · rfl

theorem deliverAll_ins {h : Hdr σ} {k : Nat} : ∀ (evs : List Ev) (s : List (Hdr σ) × List ErrRec),
    k ≤ s.1.length →
    deliverAll (evs.map (shiftEv k)) (insS h k s) = (deliverAll evs s).map (insS h k) := by
  intro evs
  induction evs with
  | nil => intro s _; rfl
  | cons ev evs ih =>
    intro s hk
    simp only [List.map_cons, deliverAll]
    rw [deliver_ins hk]
    cases hd : deliver s ev with
    | error e => rfl
    | ok s1 =>
      have := deliver_length hd
      exact ih s1 (by omega)

theorem resetAll_ins {h : Hdr σ} (hi : Inert h) : ∀ (k : Nat) (es : List (Hdr σ)), k ≤ es.length →
    resetAll (ins h k es) = (resetAll es).map (ins h k) := by
  intro k
  induction k with
  | zero =>
    intro es _
    have hr := hi.reset
    obtain ⟨_, _, _, _, _, _, _, _, _, rf, _, _, _⟩ := h
    dsimp only at hr
    subst hr
    simp only [ins, resetAll]
    cases resetAll es <;> rfl
  | succ k ih =>
    intro es hk
    cases es with
    | nil => simp at hk
    | cons a es =>
      simp only [ins, resetAll]
      rw [ih es (by simpa using hk)]
      cases a.resetfn with
      | none =>
        dsimp only [bind, Except.bind]
        cases resetAll es <;> rfl
      | some f =>
        dsimp only
        cases f a.parent with
        | error e => rfl
        | ok p =>
          dsimp only [bind, Except.bind]
          cases resetAll es <;> rfl

theorem resetAll_length : ∀ (es es' : List (Hdr σ)), resetAll es = .ok es' →
    es'.length = es.length := by
  intro es
  induction es with
  | nil => intro es' h; cases h; rfl
  | cons a es ih =>
    intro es' h
    unfold resetAll at h
    cases hr : a.resetfn with
    | none =>
      rw [hr] at h
      dsimp only [bind, Except.bind] at h
      cases he : resetAll es with
      | error e => rw [he] at h; cases h
      | ok t => rw [he] at h; cases h; simp [ih t he]
    | some f =>
      rw [hr] at h
      dsimp only [bind, Except.bind] at h
      cases hp : f a.parent with
      | error e => rw [hp] at h; cases h
      | ok p =>
        rw [hp] at h
        dsimp only at h
        cases he : resetAll es with
        | error e => rw [he] at h; cases h
        | ok t => rw [he] at h; cases h; simp [ih t he]

def shiftLast (k : Nat) (l : Option (Int × Nat)) : Option (Int × Nat) :=
  l.map fun p => (p.1, shiftIx k p.2)

theorem leftover_shift (k : Nat) (last : Option (Int × Nat)) (ops : List CStr) :
    leftover (shiftLast k last) ops = (leftover last ops).map (shiftRec k) := by
  unfold leftover
  cases ops with
  | nil => rfl
  | cons a rest =>
    cases last with
    | none => simp [shiftLast, shiftRec]
    | some p => simp [shiftLast, shiftRec]

theorem operands_succ (k : Nat) : ∀ (es : List (Hdr σ)) (i : Nat) (last : Option (Int × Nat))
    (ops : List CStr), k ≤ i → operands es (i + 1) (shiftLast k last) ops
      = (operands es i last ops).map fun s => (s.1, s.2.map (shiftRec k)) := by
  intro es
  induction es with
  | nil =>
    intro i last ops _
    simp only [operands, Except.map, leftover_shift]
  | cons a es ih =>
    intro i last ops hk
    rw [operands, operands]
    split
    · rfl
    split
    · rw [ih (i + 1) last ops (by omega)]
      cases operands es (i + 1) last ops <;> rfl
    · cases hs : a.scanfn with
      | none =>
        dsimp only
        rw [ih (i + 1) last ops (by omega)]
        cases operands es (i + 1) last ops <;> rfl
      | some f =>
        dsimp only
        cases feed f a.parent ops with
        | error e => rfl
        | ok w =>
          dsimp only [bind, Except.bind]
          have := ih (i + 1) (some (w.2.2, i)) w.2.1 (by omega)
          have e : shiftLast k (some (w.2.2, i)) = some (w.2.2, i + 1) := by
            simp only [shiftLast, Option.map_some, shiftIx]
            rw [if_neg (by omega)]
          rw [e] at this
          rw [this]
          cases operands es (i + 1) (some (w.2.2, i)) w.2.1 <;> rfl

theorem operands_ins {h : Hdr σ} (hi : Inert h) : ∀ (k : Nat) (es : List (Hdr σ)), k ≤ es.length →
    ∀ (i : Nat) (last : Option (Int × Nat)) (ops : List CStr),
    operands (ins h k es) i (shiftLast (i + k) last) ops
      = (operands es i last ops).map fun s => (ins h k s.1, s.2.map (shiftRec (i + k))) := by
  intro k
  induction k with
  | zero =>
    intro es _ i last ops
    simp only [ins, Nat.add_zero]
    by_cases h0 : ops = []
    · subst h0
      have : operands es i last [] = .ok (es, []) := by
        cases es with
        | nil => cases last <;> rfl
        | cons a es => rw [operands, if_pos rfl]
      rw [this, operands, if_pos rfl]
      rfl
    · rw [operands, if_neg h0, if_neg (by simp [hi.short, hi.long])]
      rw [hi.scan]
      dsimp only
      rw [operands_succ i es i last ops (Nat.le_refl _)]
      cases operands es i last ops <;> rfl
  | succ k ih =>
    intro es hk i last ops
    cases es with
    | nil => simp at hk
    | cons a es =>
      have hk' : k ≤ es.length := by simpa using hk
      have hik : i + (k + 1) = i + 1 + k := by omega
      simp only [ins]
      rw [operands, operands, hik]
      split
      · rfl
      split
      · rw [ih es hk']
        cases operands es (i + 1) last ops <;> rfl
      · cases hs : a.scanfn with
        | none =>
          dsimp only
          rw [ih es hk']
          cases operands es (i + 1) last ops <;> rfl
        | some f =>
          dsimp only
          cases feed f a.parent ops with
          | error e => rfl
          | ok w =>
            dsimp only [bind, Except.bind]
            have := ih es hk' (i + 1) (some (w.2.2, i)) w.2.1
            have e : shiftLast (i + 1 + k) (some (w.2.2, i)) = some (w.2.2, i) := by
              simp only [shiftLast, Option.map_some, shiftIx]
              rw [if_pos (by omega)]
            rw [e] at this
            rw [this]
            cases operands es (i + 1) (some (w.2.2, i)) w.2.1 <;> rfl

theorem checks_succ (k : Nat) : ∀ (es : List (Hdr σ)) (i : Nat), k ≤ i →
    checks es (i + 1) = (checks es i).map (shiftRec k) := by
  intro es
  induction es with
  | nil => intro i _; rfl
  | cons a es ih =>
    intro i hk
    have := ih (i + 1) (by omega)
    rw [checks, checks]
    cases a.checkfn with
    | none => exact this
    | some f =>
      dsimp only
      split
      · rw [List.map_cons, this]
        simp only [shiftRec, shiftIx]
        rw [if_neg (by omega)]
      · exact this

theorem checks_ins {h : Hdr σ} (hi : Inert h) : ∀ (k : Nat) (es : List (Hdr σ)), k ≤ es.length →
    ∀ i, checks (ins h k es) i = (checks es i).map (shiftRec (i + k)) := by
  intro k
  induction k with
  | zero =>
    intro es _ i
    simp only [ins, checks, hi.check]
    exact checks_succ i es i (Nat.le_refl _)
  | succ k ih =>
    intro es hk i
    cases es with
    | nil => simp at hk
    | cons a es =>
      have hik : i + (k + 1) = i + 1 + k := by omega
      have := ih es (by simpa using hk) (i + 1)
      simp only [ins]
      rw [checks, checks, hik]
      cases a.checkfn with
      | none => exact this
      | some f =>
        dsimp only
        split
        · rw [List.map_cons, this]
          simp only [shiftRec, shiftIx]
          rw [if_pos (by omega)]
        · exact this

theorem deliverAll_length : ∀ (evs : List Ev) (s s' : List (Hdr σ) × List ErrRec),
    deliverAll evs s = .ok s' → s'.1.length = s.1.length := by
  intro evs
  induction evs with
  | nil => intro s s' h; cases h; rfl
  | cons ev evs ih =>
    intro s s' h
    unfold deliverAll at h
    cases hd : deliver s ev with
    | error e => rw [hd] at h; cases h
    | ok s1 => rw [hd] at h; rw [ih s1 s' h, deliver_length hd]

theorem operands_length : ∀ (es : List (Hdr σ)) (i : Nat) (last : Option (Int × Nat))
    (ops : List CStr) (w : List (Hdr σ) × List ErrRec), operands es i last ops = .ok w →
    w.1.length = es.length := by
  intro es
  induction es with
  | nil => intro i last ops w h; cases h; rfl
  | cons a es ih =>
    intro i last ops w h
    unfold operands at h
    split at h
    · cases h; rfl
    split at h
    · cases ht : operands es (i + 1) last ops with
      | error e => rw [ht] at h; cases h
      | ok r => rw [ht] at h; cases h; simp [ih _ _ _ r ht]
    · cases hs : a.scanfn with
      | none =>
        rw [hs] at h
        dsimp only at h
        cases ht : operands es (i + 1) last ops with
        | error e => rw [ht] at h; cases h
        | ok r => rw [ht] at h; cases h; simp [ih _ _ _ r ht]
      | some f =>
        rw [hs] at h
        dsimp only at h
        cases hf : feed f a.parent ops with
        | error e => rw [hf] at h; cases h
        | ok v =>
          rw [hf] at h
          dsimp only [bind, Except.bind] at h
          cases ht : operands es (i + 1) (some (v.2.2, i)) v.2.1 with
          | error e => rw [ht] at h; cases h
          | ok r => rw [ht] at h; cases h; simp [ih _ _ _ r ht]

theorem meaning_length {es : List (Hdr σ)} {evs : List Ev} {ops : List CStr}
    {w : List (Hdr σ) × List ErrRec} (h : meaning es evs ops = .ok w) : w.1.length = es.length := by
  unfold meaning at h
  cases h0 : resetAll es with
  | error e => rw [h0] at h; cases h
  | ok es0 =>
    rw [h0] at h
    dsimp only [bind, Except.bind] at h
    cases h1 : deliverAll evs (es0, []) with
    | error e => rw [h1] at h; cases h
    | ok s1 =>
      rw [h1] at h
      dsimp only at h
      cases h2 : operands s1.1 0 none ops with
      | error e => rw [h2] at h; cases h
      | ok s2 =>
        rw [h2] at h
        cases h
        rw [operands_length _ _ _ _ _ h2, deliverAll_length _ _ _ h1, resetAll_length _ _ h0]

theorem meaning_ins {h : Hdr σ} (hi : Inert h) {k : Nat} {es : List (Hdr σ)} (hk : k ≤ es.length)
    (evs : List Ev) (ops : List CStr) :
    meaning (ins h k es) (evs.map (shiftEv k)) ops = (meaning es evs ops).map (insS h k) := by
  unfold meaning
  rw [resetAll_ins hi k es hk]
  cases h0 : resetAll es with
  | error e => rfl
  | ok es0 =>
    have l0 := resetAll_length _ _ h0
    dsimp only [Except.map, bind, Except.bind]
    have := deliverAll_ins (h := h) (k := k) evs (es0, []) (by dsimp only; omega)
    rw [show insS h k (es0, []) = (ins h k es0, []) from rfl] at this
    rw [this]
    cases h1 : deliverAll evs (es0, []) with
    | error e => rfl
    | ok s1 =>
      have l1 := deliverAll_length _ _ _ h1
      dsimp only [Except.map, insS]
      have := operands_ins hi k s1.1 (by dsimp only at l1; omega) 0 none ops
      rw [show shiftLast (0 + k) none = none from rfl, Nat.zero_add] at this
      rw [this]
      cases h2 : operands s1.1 0 none ops with
      | error e => rfl
      | ok s2 =>
        have l2 := operands_length _ _ _ _ _ h2
        dsimp only [Except.map]
        have := checks_ins hi k s2.1 (by dsimp only at l1; omega) 0
        rw [Nat.zero_add] at this
        rw [this, ← List.map_append]
        by_cases hc : s1.2 ++ s2.2 = []
        · rw [hc]; simp
        · rw [if_neg hc, if_neg (by simpa using hc)]

theorem recorded_shift (k m : Nat) (errs : List ErrRec) :
    recorded m (errs.map (shiftRec k)) = (recorded m errs).map (shiftRec k) := by
  unfold recorded
  rw [List.length_map]
  split
  · rfl
  · rw [List.map_append, List.map_take]
    rfl

end Argtable
