import Verif.Proofs.Ctype
import Verif.Proofs.RexMatch
/-!
# The functions of `<ctype.h>` in arg_rex
-/

namespace Argtable
open Spec

/-! ### compiling -/

/-- `x` is `y` with a result that satisfies `Q`, or it is undefined and `P` does not hold. -/
def GuardR {α : Type} (P : Prop) (Q : α → Prop) (x y : RM α) : Prop :=
  (x = y ∧ ∀ a, y = .ok a → Q a) ∨ (x = .error (.fault ctypeFault) ∧ ¬ P)

theorem GuardR.bind {α β : Type} {P : Prop} {Q : α → Prop} {R : β → Prop} {x y : RM α} {f g : α → RM β} (h : GuardR P Q x y)
    (hf : ∀ a, Q a → GuardR P R (f a) (g a)) : GuardR P R (x >>= f) (y >>= g) := by
  rcases h with ⟨h, hq⟩ | ⟨h, hp⟩
  · rw [h]
    cases hy : y with
    | error e => exact Or.inl ⟨rfl, fun a ha => by cases ha⟩
    | ok a => exact hf a (hq a hy)
  · rw [h]; exact Or.inr ⟨rfl, hp⟩

theorem GuardR.left {α β : Type} {P : Prop} {R : β → Prop} {c : Char} {a : α} {f : α → RM β} {y : RM β} (h : P → c.toNat < 128)
    (hf : GuardR P R (f a) y) : GuardR P R (ctR c a >>= f) y := by
  unfold ctR
  rcases ct_guard h a with h | ⟨h, hp⟩
  · rw [h]; exact hf
  · rw [h]; exact Or.inr ⟨rfl, hp⟩

theorem GuardR.ite {α : Type} {P c : Prop} [Decidable c] {Q : α → Prop} {x y x' y' : RM α} (h : c → GuardR P Q x x')
    (h' : ¬ c → GuardR P Q y y') : GuardR P Q (if c then x else y) (if c then x' else y') := by
  by_cases hc : c
  · rw [if_pos hc, if_pos hc]; exact h hc
  · rw [if_neg hc, if_neg hc]; exact h' hc

theorem GuardR.err {α : Type} {P : Prop} {Q : α → Prop} {e : RErr} : GuardR P Q (.error e) (.error e) :=
  Or.inl ⟨rfl, fun a ha => by cases ha⟩

theorem GuardR.ok {α : Type} {P : Prop} {Q : α → Prop} {a : α} (h : Q a) : GuardR P Q (.ok a) (.ok a) :=
  Or.inl ⟨rfl, fun b hb => by cases hb; exact h⟩

theorem GuardR.mono {α : Type} {P : Prop} {Q R : α → Prop} {x y : RM α} (h : GuardR P Q x y) (hqr : ∀ a, Q a → R a) :
    GuardR P R x y := by
  rcases h with ⟨h, hq⟩ | h
  · exact Or.inl ⟨h, fun a ha => hqr a (hq a ha)⟩
  · exact Or.inr h

/-- The codes of a node may be passed. -/
def GoodNode (n : RNode) : Prop :=
  (∀ d, n.type = .char d → d.toNat < 128) ∧ (n.type = .range → ctypeOk n.left = true ∧ ctypeOk n.right = true)

/-- What is left of the pattern and what has been compiled. -/
structure Tame (P : Prop) (s : RState) : Prop where
  asc : P → Ascii s.p
  good : P → ∀ n ∈ s.nodes, GoodNode n

/-- The nodes keep their types. -/
def Kept (s s' : RState) : Prop := ∀ (k : Nat) (n : RNode), s.nodes[k]? = some n → ∃ n' : RNode, s'.nodes[k]? = some n' ∧ n'.type = n.type

theorem Kept.refl (s : RState) : Kept s s := fun _ n h => ⟨n, h, rfl⟩

theorem Kept.trans {s s1 s2 : RState} (h : Kept s s1) (h' : Kept s1 s2) : Kept s s2 := by
  intro k n hn
  obtain ⟨n1, h1, t1⟩ := h k n hn
  obtain ⟨n2, h2, t2⟩ := h' k n1 h1
  exact ⟨n2, h2, t2.trans t1⟩

/-- The result of a function that compiles a part. -/
def Made (P : Prop) (s : RState) (q : Nat × RState) : Prop := Tame P q.2 ∧ Kept s q.2

theorem modify_kept {s : RState} {i : Nat} {f : RNode → RNode} (hf : ∀ n, (f n).type = n.type) :
    Kept s { s with nodes := s.nodes.modify i f } := by
  intro k n hn
  by_cases h : i = k
  · subst h
    exact ⟨f n, by simp [hn], hf n⟩
  · exact ⟨n, by simp [List.getElem?_modify, h, hn], rfl⟩

theorem setLeft_kept (s : RState) (i : Nat) (v : Int) : Kept s (s.setLeft i v) := modify_kept fun _ => rfl
theorem setRight_kept (s : RState) (i : Nat) (v : Int) : Kept s (s.setRight i v) := modify_kept fun _ => rfl
theorem setNext_kept (s : RState) (i : Nat) (v : Int) : Kept s (s.setNext i v) := modify_kept fun _ => rfl

theorem modify_tame {P : Prop} {s : RState} {i : Nat} {f : RNode → RNode} (h : Tame P s)
    (hf : P → ∀ n, s.nodes[i]? = some n → GoodNode n → GoodNode (f n)) : Tame P { s with nodes := s.nodes.modify i f } where
  asc := h.asc
  good := by
    intro hp n hn
    obtain ⟨k, hk, rfl⟩ := List.mem_iff_getElem.1 hn
    simp only [List.length_modify] at hk
    simp only [List.getElem_modify]
    split
    · next he => subst he; exact hf hp _ (List.getElem?_eq_getElem hk) (h.good hp _ (List.getElem_mem hk))
    · exact h.good hp _ (List.getElem_mem hk)

theorem setNext_tame {P : Prop} {s : RState} (h : Tame P s) (i : Nat) (v : Int) : Tame P (s.setNext i v) :=
  modify_tame h fun _ _ _ g => g

/-- Setting a field of a node that is no range. -/
theorem setLeft_tame {P : Prop} {s : RState} (h : Tame P s) {i : Nat} {v : Int}
    (hi : P → ctypeOk v = true ∨ ∃ n, s.nodes[i]? = some n ∧ n.type ≠ .range) : Tame P (s.setLeft i v) := by
  refine modify_tame h fun hp n hn g => ⟨g.1, fun ht => ?_⟩
  rcases hi hp with hv | ⟨n', h1, h2⟩
  · exact ⟨hv, (g.2 ht).2⟩
  · rw [hn] at h1; cases h1; exact absurd ht h2

theorem setRight_tame {P : Prop} {s : RState} (h : Tame P s) {i : Nat} {v : Int}
    (hi : P → ctypeOk v = true ∨ ∃ n, s.nodes[i]? = some n ∧ n.type ≠ .range) : Tame P (s.setRight i v) := by
  refine modify_tame h fun hp n hn g => ⟨g.1, fun ht => ?_⟩
  rcases hi hp with hv | ⟨n', h1, h2⟩
  · exact ⟨(g.2 ht).1, hv⟩
  · rw [hn] at h1; cases h1; exact absurd ht h2

/-- A part of the pattern is left. -/
theorem Tame.skip {P : Prop} {s : RState} {p : CStr} (h : Tame P s) (hp : p <:+ s.p) : Tame P { s with p := p } :=
  ⟨fun hP => Spec.Ascii.suffix (h.asc hP) hp, h.good⟩

theorem Tame.tail {P : Prop} {s : RState} {c : Char} {p : CStr} (h : Tame P s) (hp : s.p = c :: p) :
    Tame P { s with p := p } := h.skip (by rw [hp]; exact List.suffix_cons _ _)

/-- A new node. -/
theorem newnode_tame {P : Prop} {ty : RType} {s : RState} (h : Tame P s) (ht : P → ∀ d, ty = .char d → d.toNat < 128) :
    GuardR P (fun q => Made P s q ∧ ∃ n, q.2.nodes[q.1]? = some n ∧ n.type = ty) (newnode ty s) (newnode ty s) := by
  refine Or.inl ⟨rfl, ?_⟩
  rintro ⟨i, s'⟩ hn
  unfold newnode at hn
  dsimp only at hn
  generalize (if s.nalloc < s.nodes.length + 1 then s.nalloc * 2 else s.nalloc) = na at hn
  split at hn
  · cases hn
    refine ⟨⟨⟨h.asc, ?_⟩, ?_⟩, _, by simp; rfl, rfl⟩
    · intro hp n hn
      rcases List.mem_append.1 hn with hn | hn
      · exact h.good hp n hn
      · simp only [List.mem_singleton] at hn
        subst hn
        exact ⟨ht hp, fun hr => by dsimp only at hr; subst hr; exact ⟨rfl, rfl⟩⟩
    · intro k n hn
      exact ⟨n, by rw [List.getElem?_append_left (by exact (List.getElem?_eq_some_iff.1 hn).1)]; exact hn, rfl⟩
  · cases hn

theorem Made.skip {P : Prop} {s : RState} {p : CStr} {q : Nat × RState} (h : Made P { s with p := p } q) : Made P s q := h

theorem escapeOf_ascii {c e : Char} (h : escapeOf c = some e) : e.toNat < 128 := (escapeOf_safe h).2

theorem charnodeCt_esc (isclass : Bool) {s : RState} {c : Char} {p : CStr} (hp : s.p = '\\' :: c :: p) : charnodeCt isclass s =
    (match escapeOf c with
    | some e => newnode (.char e) { s with p := p }
    | none =>
      if isClassLetter c then rexCharclass c { s with p := p }
      else if (c = 'b' ∨ c = 'B') ∧ ¬ isclass then do
        let (n, s) ← newnode .wb { s with p := p }
        .ok (n, s.setLeft n (charInt c))
      else newnode (.char c) { s with p := p }) := by
  unfold charnodeCt; rw [hp]; rfl

theorem charnodeCt_plain (isclass : Bool) {s : RState} {c : Char} {p : CStr} (hp : s.p = c :: p) (hc : c ≠ '\\') : charnodeCt isclass s =
    (do
      let b ← ctR c (isPrint c)
      if b then newnode (.char c) { s with p := p } else .error (.bad "letter expected")) := by
  unfold charnodeCt; rw [hp]
  split
  · next he => cases he
  · next he => exact absurd (List.cons.inj he).1 hc
  · next he => exact absurd (List.cons.inj he).1 hc
  · next he => obtain ⟨rfl, rfl⟩ := List.cons.inj he; rfl

theorem charnode_eqEsc (isclass : Bool) {s : RState} {c : Char} {p : CStr} (hp : s.p = '\\' :: c :: p) : charnode isclass s =
    (match escapeOf c with
    | some e => newnode (.char e) { s with p := p }
    | none =>
      if isClassLetter c then rexCharclass c { s with p := p }
      else if (c = 'b' ∨ c = 'B') ∧ ¬ isclass then do
        let (n, s) ← newnode .wb { s with p := p }
        .ok (n, s.setLeft n (charInt c))
      else newnode (.char c) { s with p := p }) := by
  unfold charnode; rw [hp]; rfl

theorem charnode_eqPlain (isclass : Bool) {s : RState} {c : Char} {p : CStr} (hp : s.p = c :: p) (hc : c ≠ '\\') : charnode isclass s =
    (if isPrint c then newnode (.char c) { s with p := p } else .error (.bad "letter expected")) := by
  unfold charnode; rw [hp]
  split
  · next he => cases he
  · next he => exact absurd (List.cons.inj he).1 hc
  · next he => exact absurd (List.cons.inj he).1 hc
  · next he => obtain ⟨rfl, rfl⟩ := List.cons.inj he; rfl

theorem charnodeCt_guard {P : Prop} (isclass : Bool) {s : RState} (h : Tame P s) :
    GuardR P (Made P s) (charnodeCt isclass s) (charnode isclass s) := by
  cases hp : s.p with
  | nil => unfold charnodeCt charnode; rw [hp]; exact .err
  | cons c p =>
    by_cases hc : c = '\\'
    · subst hc
      cases p with
      | nil => unfold charnodeCt charnode; rw [hp]; exact .err
      | cons d p =>
        have hd : P → d.toNat < 128 := fun hP => h.asc hP d (by rw [hp]; simp)
        have ht : Tame P { s with p := p } := h.skip (by rw [hp]; exact (List.suffix_cons _ _).trans (List.suffix_cons _ _))
        rw [charnodeCt_esc _ hp, charnode_eqEsc _ hp]
        cases he : escapeOf d with
        | some e =>
          exact (newnode_tame (ty := .char e) ht fun _ x hx => by cases hx; exact escapeOf_ascii he).mono fun q hq => hq.1
        | none =>
          dsimp only
          refine GuardR.ite (fun _ => ?_) fun _ => ?_
          · unfold rexCharclass
            refine (newnode_tame (ty := .ccls) ht fun _ x hx => by cases hx).bind fun q hq => ?_
            obtain ⟨n, s'⟩ := q
            refine GuardR.ok ⟨setLeft_tame hq.1.1 fun hP => Or.inl (ascii_ok (hd hP)), Kept.trans hq.1.2 (setLeft_kept _ _ _)⟩
          · refine GuardR.ite (fun _ => ?_) fun _ => ?_
            · refine (newnode_tame (ty := .wb) ht fun _ x hx => by cases hx).bind fun q hq => ?_
              obtain ⟨n, s'⟩ := q
              refine GuardR.ok ⟨setLeft_tame hq.1.1 fun hP => Or.inl (ascii_ok (hd hP)), Kept.trans hq.1.2 (setLeft_kept _ _ _)⟩
            · exact (newnode_tame (ty := .char d) ht fun hP x hx => by cases hx; exact hd hP).mono fun q hq => hq.1
    · have hd : P → c.toNat < 128 := fun hP => h.asc hP c (by rw [hp]; simp)
      have ht : Tame P { s with p := p } := h.tail hp
      rw [charnodeCt_plain _ hp hc, charnode_eqPlain _ hp hc]
      refine GuardR.left hd ?_
      refine GuardR.ite (fun _ => ?_) fun _ => .err
      exact (newnode_tame (ty := .char c) ht fun hP x hx => by cases hx; exact hd hP).mono fun q hq => hq.1

theorem escapecharCt_guard {P : Prop} {s : RState} (h : Tame P s) :
    GuardR P (fun q => (P → q.1.toNat < 128) ∧ Tame P q.2 ∧ Kept s q.2) (escapecharCt s) (escapechar s) := by
  unfold escapecharCt escapechar
  cases hp : s.p with
  | nil => exact .err
  | cons c p =>
    by_cases hc : c = '\\'
    · subst hc
      cases p with
      | nil => exact .err
      | cons d p =>
        have hd : P → d.toNat < 128 := fun hP => h.asc hP d (by rw [hp]; simp)
        have ht : Tame P { s with p := p } := h.skip (by rw [hp]; exact (List.suffix_cons _ _).trans (List.suffix_cons _ _))
        refine GuardR.ok ⟨fun hP => ?_, ht, Kept.refl s⟩
        dsimp only
        cases he : escapeOf d with
        | some e => exact escapeOf_ascii he
        | none => exact hd hP
    · have hd : P → c.toNat < 128 := fun hP => h.asc hP c (by rw [hp]; simp)
      have ht : Tame P { s with p := p } := h.tail hp
      split
      · next he => cases he
      · next he => exact absurd (List.cons.inj he).1 hc
      · next he => exact absurd (List.cons.inj he).1 hc
      · next c' p' _ _ he =>
        obtain ⟨rfl, rfl⟩ := List.cons.inj he
        split
        · next he => cases he
        · next he => exact absurd (List.cons.inj he).1 hc
        · next he => exact absurd (List.cons.inj he).1 hc
        · next he =>
          obtain ⟨rfl, rfl⟩ := List.cons.inj he
          refine GuardR.left hd ?_
          refine GuardR.ite (fun _ => ?_) fun _ => .err
          exact .ok ⟨hd, ht, Kept.refl s⟩

theorem classLoopCt_close (fuel : Nat) (first : Option Nat) (chain : Nat) {s : RState} {p : CStr} (hp : s.p = ']' :: p) :
    classLoopCt (fuel + 1) first chain s = .ok (first, chain, s) := by
  rw [classLoopCt.eq_def]; dsimp only; rw [hp]; rfl

theorem classLoopCt_range (fuel f chain : Nat) {s : RState} {p : CStr} (hp : s.p = '-' :: p) : classLoopCt (fuel + 1) (some f) chain s =
    (do
      let s := { s with p := p }
      let (r, s) ← newnode .range s
      let here : Int := match s.p with
        | [] => 0
        | c :: _ => charInt c
      if (f : Int) > here then .error (.bad "invalid range")
      else
        match s.nodes[f]? with
        | none => .error (.fault (.ub "node index out of range"))
        | some fn =>
          if fn.type = .ccls then .error (.bad "cannot use character classes in ranges")
          else do
            let s := s.setLeft r fn.type.code
            let (t, s) ← escapecharCt s
            let s := s.setRight r (charInt t)
            classLoopCt fuel none r (s.setNext chain r)) := by
  rw [classLoopCt.eq_def]; dsimp only; rw [hp]; rfl

theorem classLoopCt_some (fuel f chain : Nat) {s : RState} (h1 : ∀ p, s.p ≠ ']' :: p) (h2 : ∀ p, s.p ≠ '-' :: p) : classLoopCt (fuel + 1) (some f) chain s =
    (do
      let (n, s) ← charnodeCt true (s.setNext chain f)
      classLoopCt fuel (some n) f s) := by
  rw [classLoopCt.eq_def]; dsimp only
  split
  · next he => exact absurd he (h1 _)
  · split
    · next he => exact absurd he (h2 _)
    · next he _ => cases he; rfl
    · next he => cases he

theorem classLoopCt_none (fuel chain : Nat) {s : RState} (h1 : ∀ p, s.p ≠ ']' :: p) : classLoopCt (fuel + 1) none chain s =
    (do
      let (n, s) ← charnodeCt true s
      classLoopCt fuel (some n) chain s) := by
  rw [classLoopCt.eq_def]; dsimp only
  split
  · next he => exact absurd he (h1 _)
  · rfl

theorem classLoop_eqClose (fuel : Nat) (first : Option Nat) (chain : Nat) {s : RState} {p : CStr} (hp : s.p = ']' :: p) :
    classLoop (fuel + 1) first chain s = .ok (first, chain, s) := by
  rw [classLoop.eq_def]; dsimp only; rw [hp]; rfl

theorem classLoop_eqRange (fuel f chain : Nat) {s : RState} {p : CStr} (hp : s.p = '-' :: p) : classLoop (fuel + 1) (some f) chain s =
    (do
      let s := { s with p := p }
      let (r, s) ← newnode .range s
      let here : Int := match s.p with
        | [] => 0
        | c :: _ => charInt c
      if (f : Int) > here then .error (.bad "invalid range")
      else
        match s.nodes[f]? with
        | none => .error (.fault (.ub "node index out of range"))
        | some fn =>
          if fn.type = .ccls then .error (.bad "cannot use character classes in ranges")
          else do
            let s := s.setLeft r fn.type.code
            let (t, s) ← escapechar s
            let s := s.setRight r (charInt t)
            classLoop fuel none r (s.setNext chain r)) := by
  rw [classLoop.eq_def]; dsimp only; rw [hp]; rfl

theorem classLoop_eqSome (fuel f chain : Nat) {s : RState} (h1 : ∀ p, s.p ≠ ']' :: p) (h2 : ∀ p, s.p ≠ '-' :: p) : classLoop (fuel + 1) (some f) chain s =
    (do
      let (n, s) ← charnode true (s.setNext chain f)
      classLoop fuel (some n) f s) := by
  rw [classLoop.eq_def]; dsimp only
  split
  · next he => exact absurd he (h1 _)
  · split
    · next he => exact absurd he (h2 _)
    · next he _ => cases he; rfl
    · next he => cases he

theorem classLoop_eqNone (fuel chain : Nat) {s : RState} (h1 : ∀ p, s.p ≠ ']' :: p) : classLoop (fuel + 1) none chain s =
    (do
      let (n, s) ← charnode true s
      classLoop fuel (some n) chain s) := by
  rw [classLoop.eq_def]; dsimp only
  split
  · next he => exact absurd he (h1 _)
  · rfl

theorem classLoopCt_guard {P : Prop} : ∀ (fuel : Nat) (first : Option Nat) (chain : Nat) {s : RState}, Tame P s →
    GuardR P (fun q => Tame P q.2.2 ∧ Kept s q.2.2) (classLoopCt fuel first chain s) (classLoop fuel first chain s) := by
  intro fuel
  induction fuel with
  | zero => intro first chain s _; exact .err
  | succ fuel ih =>
    intro first chain s h
    have node : ∀ (ch : Nat) (s1 : RState), Tame P s1 → Kept s s1 →
        GuardR P (fun q : Option Nat × Nat × RState => Tame P q.2.2 ∧ Kept s q.2.2)
          (do let (n, s) ← charnodeCt true s1; classLoopCt fuel (some n) ch s)
          (do let (n, s) ← charnode true s1; classLoop fuel (some n) ch s) := by
      intro ch s1 h1 k1
      refine (charnodeCt_guard true h1).bind fun q hq => ?_
      obtain ⟨n, s2⟩ := q
      exact (ih (some n) ch hq.1).mono fun q' hq' => ⟨hq'.1, k1.trans (hq.2.trans hq'.2)⟩
    have range : ∀ (f : Nat) (p : CStr), s.p = '-' :: p →
        GuardR P (fun q : Option Nat × Nat × RState => Tame P q.2.2 ∧ Kept s q.2.2)
          (do
            let s := { s with p := p }
            let (r, s) ← newnode .range s
            let here : Int := match s.p with
              | [] => 0
              | c :: _ => charInt c
            if (f : Int) > here then .error (.bad "invalid range")
            else
              match s.nodes[f]? with
              | none => .error (.fault (.ub "node index out of range"))
              | some fn =>
                if fn.type = .ccls then .error (.bad "cannot use character classes in ranges")
                else do
                  let s := s.setLeft r fn.type.code
                  let (t, s) ← escapecharCt s
                  let s := s.setRight r (charInt t)
                  classLoopCt fuel none r (s.setNext chain r))
          (do
            let s := { s with p := p }
            let (r, s) ← newnode .range s
            let here : Int := match s.p with
              | [] => 0
              | c :: _ => charInt c
            if (f : Int) > here then .error (.bad "invalid range")
            else
              match s.nodes[f]? with
              | none => .error (.fault (.ub "node index out of range"))
              | some fn =>
                if fn.type = .ccls then .error (.bad "cannot use character classes in ranges")
                else do
                  let s := s.setLeft r fn.type.code
                  let (t, s) ← escapechar s
                  let s := s.setRight r (charInt t)
                  classLoop fuel none r (s.setNext chain r)) := by
      intro f p hp
      dsimp only
      refine (newnode_tame (h.tail hp) fun _ x hx => by cases hx).bind fun q hq => ?_
      obtain ⟨r, s1⟩ := q
      obtain ⟨⟨t1, k1⟩, -⟩ := hq
      have k1 : Kept s s1 := k1
      dsimp only at t1 ⊢
      refine GuardR.ite (fun _ => .err) fun _ => ?_
      cases hfn : s1.nodes[f]? with
      | none => exact .err
      | some fn =>
        dsimp only
        refine GuardR.ite (fun _ => .err) fun _ => ?_
        have t2 : Tame P (s1.setLeft r fn.type.code) := by
          refine setLeft_tame t1 fun hP => Or.inl ?_
          have g := t1.good hP fn (List.mem_of_getElem? hfn)
          cases hty : fn.type with
          | char d => exact ascii_ok (g.1 d hty)
          | _ => decide
        refine (escapecharCt_guard t2).bind fun q hq => ?_
        obtain ⟨t, s2⟩ := q
        obtain ⟨ha, t3, k3⟩ := hq
        dsimp only at ha t3 k3 ⊢
        have t4 : Tame P (s2.setRight r (charInt t)) := setRight_tame t3 fun hP => Or.inl (ascii_ok (ha hP))
        refine (ih none r (setNext_tame t4 chain r)).mono fun q' hq' => ⟨hq'.1, ?_⟩
        exact k1.trans ((setLeft_kept _ _ _).trans (k3.trans ((setRight_kept _ _ _).trans ((setNext_kept _ _ _).trans hq'.2))))
    by_cases h1 : ∃ p, s.p = ']' :: p
    · obtain ⟨p, hp⟩ := h1
      rw [classLoopCt_close _ _ _ hp, classLoop_eqClose _ _ _ hp]
      exact .ok ⟨h, Kept.refl s⟩
    · have h1' : ∀ p, s.p ≠ ']' :: p := fun p hp => h1 ⟨p, hp⟩
      cases first with
      | none =>
        rw [classLoopCt_none _ _ h1', classLoop_eqNone _ _ h1']
        exact node chain s h (Kept.refl s)
      | some f =>
        by_cases h2 : ∃ p, s.p = '-' :: p
        · obtain ⟨p, hp⟩ := h2
          rw [classLoopCt_range _ _ _ hp, classLoop_eqRange _ _ _ hp]
          exact range f p hp
        · have h2' : ∀ p, s.p ≠ '-' :: p := fun p hp => h2 ⟨p, hp⟩
          rw [classLoopCt_some _ _ _ h1' h2', classLoop_eqSome _ _ _ h1' h2']
          exact node f (s.setNext chain f) (setNext_tame h _ _) (setNext_kept _ _ _)

theorem rexExpect_made {P : Prop} (c : Char) {s : RState} (h : Tame P s) :
    GuardR P (fun q => Tame P q ∧ Kept s q) (rexExpect c s) (rexExpect c s) := by
  refine Or.inl ⟨rfl, fun q hq => ?_⟩
  unfold rexExpect at hq
  cases hp : s.p with
  | nil => rw [hp] at hq; cases hq
  | cons d p =>
    rw [hp] at hq
    dsimp only at hq
    by_cases hd : d = c
    · rw [if_pos hd] at hq; cases hq; exact ⟨h.tail hp, Kept.refl s⟩
    · rw [if_neg hd] at hq; cases hq

theorem classHead_made {P : Prop} {s : RState} (h : Tame P s) :
    GuardR P (fun q => Made P s q ∧ ∃ n, q.2.nodes[q.1]? = some n ∧ n.type ≠ .range) (classHead s) (classHead s) := by
  unfold classHead
  split
  · next p hp =>
    refine (newnode_tame (ty := .ncls) h fun _ x hx => by cases hx).bind fun q hq => ?_
    obtain ⟨n, s'⟩ := q
    obtain ⟨⟨t, k⟩, m, hm, ht⟩ := hq
    exact GuardR.ok ⟨⟨⟨fun hP => Spec.Ascii.suffix (h.asc hP) (by rw [hp]; exact List.suffix_cons _ _), t.good⟩, k⟩, m, hm,
      by rw [ht]; decide⟩
  · refine (newnode_tame (ty := .cls) h fun _ x hx => by cases hx).mono fun q hq => ?_
    obtain ⟨k, m, hm, ht⟩ := hq
    exact ⟨k, m, hm, by rw [ht]; decide⟩

theorem rexClassCt_guard {P : Prop} {s : RState} (h : Tame P s) : GuardR P (Made P s) (rexClassCt s) (rexClass s) := by
  unfold rexClassCt rexClass
  refine (classHead_made h).bind fun q hq => ?_
  obtain ⟨ret, s1⟩ := q
  obtain ⟨⟨t1, k1⟩, m, hm, ht⟩ := hq
  have k1 : Kept s s1 := k1
  have t1 : Tame P s1 := t1
  have hm : s1.nodes[ret]? = some m := hm
  have main : GuardR P (Made P s)
      (do
        let (first, chain, s) ← classLoopCt (s1.p.length + 1) none ret s1
        let s := match first with
          | some f => s.setNext chain f
          | none => s
        match s.nodes[ret]? with
        | none => .error (.fault (.ub "node index out of range"))
        | some n => .ok (ret, (s.setLeft ret n.next).setNext ret (-1)))
      (do
        let (first, chain, s) ← classLoop (s1.p.length + 1) none ret s1
        let s := match first with
          | some f => s.setNext chain f
          | none => s
        match s.nodes[ret]? with
        | none => .error (.fault (.ub "node index out of range"))
        | some n => .ok (ret, (s.setLeft ret n.next).setNext ret (-1))) := by
    refine (classLoopCt_guard _ none ret t1).bind fun q hq => ?_
    obtain ⟨first, chain, s2⟩ := q
    obtain ⟨t2, k2⟩ := hq
    have t2 : Tame P s2 := t2
    have k2 : Kept s1 s2 := k2
    have fin : ∀ s3 : RState, Tame P s3 → Kept s1 s3 → GuardR P (Made P s)
        (match s3.nodes[ret]? with
        | none => .error (.fault (.ub "node index out of range"))
        | some n => .ok (ret, (s3.setLeft ret n.next).setNext ret (-1)))
        (match s3.nodes[ret]? with
        | none => .error (.fault (.ub "node index out of range"))
        | some n => .ok (ret, (s3.setLeft ret n.next).setNext ret (-1))) := by
      intro s3 t3 k3
      obtain ⟨m', hm', ht'⟩ := k3 _ _ hm
      rw [hm']
      refine GuardR.ok ⟨setNext_tame (setLeft_tame t3 fun _ => Or.inr ⟨m', hm', by rw [ht']; exact ht⟩) _ _, ?_⟩
      exact k1.trans (k3.trans ((setLeft_kept _ _ _).trans (setNext_kept _ _ _)))
    cases first with
    | some f => exact fin _ (setNext_tame t2 _ _) (k2.trans (setNext_kept _ _ _))
    | none => exact fin _ t2 k2
  dsimp only
  by_cases h1 : ∃ p, s1.p = ']' :: p
  · obtain ⟨p, hp⟩ := h1
    rw [hp]; exact .err
  · split
    · next hp => exact absurd ⟨_, hp⟩ h1
    · split
      · next hp => exact absurd ⟨_, hp⟩ h1
      · exact main

theorem parseDigitsCt_guard {P : Prop} : ∀ (p : CStr) (ret pos : Int), (P → Ascii p) →
    GuardR P (fun q => P → Ascii q.2) (parseDigitsCt p ret pos) (parseDigits p ret pos) := by
  intro p
  induction p with
  | nil => intro ret pos h; exact .ok h
  | cons c p ih =>
    intro ret pos h
    rw [parseDigitsCt, parseDigits]
    refine GuardR.left (fun hP => h hP c (by simp)) ?_
    refine GuardR.ite (fun _ => ?_) fun _ => .ok h
    refine GuardR.ite (fun _ => .err) fun _ => ?_
    refine GuardR.ite (fun _ => .err) fun _ => ?_
    exact ih _ _ fun hP => Spec.Ascii.suffix (h hP) (List.suffix_cons _ _)

theorem parseNumberCt_guard {P : Prop} {s : RState} (h : Tame P s) : GuardR P (Made P s) (parseNumberCt s) (parseNumber s) := by
  unfold parseNumberCt parseNumber
  cases hp : s.p with
  | nil => exact .err
  | cons c p =>
    dsimp only
    refine (parseDigitsCt_guard p _ _ (h.tail hp).asc).bind fun q hq => ?_
    obtain ⟨n, p'⟩ := q
    exact GuardR.ok ⟨⟨hq, h.good⟩, Kept.refl s⟩

theorem quantUpperCt_guard {P : Prop} {s : RState} (h : Tame P s) : GuardR P (Made P s) (quantUpperCt s) (quantUpper s) := by
  unfold quantUpperCt quantUpper
  cases hp : s.p with
  | nil => exact .ok ⟨h, Kept.refl s⟩
  | cons c p =>
    dsimp only
    refine GuardR.left (fun hP => h.asc hP c (by rw [hp]; simp)) ?_
    exact GuardR.ite (fun _ => parseNumberCt_guard h) fun _ => .ok ⟨h, Kept.refl s⟩

theorem quantifierCt_guard {P : Prop} {s : RState} (h : Tame P s) :
    GuardR P (fun q => Tame P q.2 ∧ Kept s q.2) (quantifierCt s) (quantifier s) := by
  unfold quantifierCt quantifier
  cases hp : s.p with
  | nil => exact .ok ⟨h, Kept.refl s⟩
  | cons c p =>
    have ht := h.tail hp
    by_cases h1 : c = '*'
    · subst h1; exact .ok ⟨ht, Kept.refl s⟩
    by_cases h2 : c = '+'
    · subst h2; exact .ok ⟨ht, Kept.refl s⟩
    by_cases h3 : c = '?'
    · subst h3; exact .ok ⟨ht, Kept.refl s⟩
    by_cases h4 : c = '{'
    · subst h4
      cases p with
      | nil => exact .err
      | cons d p =>
        refine GuardR.left (a := isDigit d) (fun hP => h.asc hP d (by rw [hp]; simp)) ?_
        refine GuardR.ite (fun _ => .err) fun _ => ?_
        refine (parseNumberCt_guard ht).bind fun q hq => ?_
        obtain ⟨p0, s1⟩ := q
        obtain ⟨t1, k1⟩ := hq
        have t1 : Tame P s1 := t1
        have k1 : Kept s s1 := k1
        cases hp1 : s1.p with
        | nil => dsimp only; rw [hp1]; exact .err
        | cons e p1 =>
          dsimp only
          rw [hp1]
          by_cases h5 : e = '}'
          · subst h5; exact .ok ⟨t1.tail hp1, k1⟩
          by_cases h6 : e = ','
          · subst h6
            refine (quantUpperCt_guard (t1.tail hp1)).bind fun q hq => ?_
            obtain ⟨p1', s2⟩ := q
            obtain ⟨t2, k2⟩ := hq
            have t2 : Tame P s2 := t2
            refine (rexExpect_made _ t2).bind fun s3 h3 => .ok ⟨h3.1, k1.trans (Kept.trans k2 h3.2)⟩
          split
          · next he => exact absurd (List.cons.inj he).1 h5
          · next he => exact absurd (List.cons.inj he).1 h6
          · split
            · next he => exact absurd (List.cons.inj he).1 h5
            · next he => exact absurd (List.cons.inj he).1 h6
            · exact .err
    split
    · next he => exact absurd (List.cons.inj he).1 h1
    · next he => exact absurd (List.cons.inj he).1 h2
    · next he => exact absurd (List.cons.inj he).1 h3
    · next he => exact absurd (List.cons.inj he).1 h4
    · split
      · next he => exact absurd (List.cons.inj he).1 h1
      · next he => exact absurd (List.cons.inj he).1 h2
      · next he => exact absurd (List.cons.inj he).1 h3
      · next he => exact absurd (List.cons.inj he).1 h4
      · exact .ok ⟨h, Kept.refl s⟩

theorem groupHead_made {P : Prop} {s : RState} (h : Tame P s) :
    GuardR P (fun q => Made P s q ∧ ∃ n, q.2.nodes[q.1]? = some n ∧ n.type ≠ .range) (groupHead s) (groupHead s) := by
  unfold groupHead
  split
  · next p hp =>
    refine (rexExpect_made _ (h.tail hp)).bind fun s1 h1 => ?_
    refine (newnode_tame (ty := .nocap) h1.1 fun _ x hx => by cases hx).mono fun q hq => ?_
    obtain ⟨⟨t, k⟩, m, hm, ht⟩ := hq
    exact ⟨⟨t, Kept.trans h1.2 k⟩, m, hm, by rw [ht]; decide⟩
  · refine (newnode_tame (ty := .expr) h fun _ x hx => by cases hx).mono fun q hq => ?_
    obtain ⟨k, m, hm, ht⟩ := hq
    exact ⟨k, m, hm, by rw [ht]; decide⟩

theorem rexAtomCt_guard {P : Prop} {l l' : RState → RM (Nat × RState)} (hl : ∀ s, Tame P s → GuardR P (Made P s) (l s) (l' s))
    {s : RState} (h : Tame P s) : GuardR P (Made P s) (rexAtomCt l s) (rexAtom l' s) := by
  unfold rexAtomCt rexAtom
  cases hp : s.p with
  | nil => exact charnodeCt_guard false h
  | cons c p =>
    have ht := h.tail hp
    by_cases h1 : c = '('
    · subst h1
      refine (groupHead_made ht).bind fun q hq => ?_
      obtain ⟨expr, s1⟩ := q
      obtain ⟨⟨t1, k1⟩, m, hm, hty⟩ := hq
      have t1 : Tame P s1 := t1
      have k1 : Kept s s1 := k1
      refine (hl s1 t1).bind fun q hq => ?_
      obtain ⟨newn, s2⟩ := q
      obtain ⟨t2, k2⟩ := hq
      have t2 : Tame P s2 := t2
      have k2 : Kept s1 s2 := k2
      obtain ⟨m', hm', ht'⟩ := k2 _ _ hm
      have t3 : Tame P (s2.setLeft expr newn) := setLeft_tame t2 fun _ => Or.inr ⟨m', hm', by rw [ht']; exact hty⟩
      refine (rexExpect_made _ t3).bind fun s4 h4 => .ok ⟨h4.1, ?_⟩
      exact k1.trans (k2.trans ((setLeft_kept _ _ _).trans h4.2))
    by_cases h2 : c = '['
    · subst h2
      refine (rexClassCt_guard ht).bind fun q hq => ?_
      obtain ⟨ret, s1⟩ := q
      obtain ⟨t1, k1⟩ := hq
      have t1 : Tame P s1 := t1
      have k1 : Kept s s1 := k1
      exact (rexExpect_made _ t1).bind fun s4 h4 => .ok ⟨h4.1, k1.trans h4.2⟩
    by_cases h3 : c = '$'
    · subst h3
      exact (newnode_tame (ty := .eol) ht fun _ x hx => by cases hx).mono fun q hq => hq.1
    by_cases h4 : c = '.'
    · subst h4
      exact (newnode_tame (ty := .dot) ht fun _ x hx => by cases hx).mono fun q hq => hq.1
    have := charnodeCt_guard false h
    split
    · next he => exact absurd (List.cons.inj he).1 h1
    · next he => exact absurd (List.cons.inj he).1 h2
    · next he => exact absurd (List.cons.inj he).1 h3
    · next he => exact absurd (List.cons.inj he).1 h4
    · split
      · next he => exact absurd (List.cons.inj he).1 h1
      · next he => exact absurd (List.cons.inj he).1 h2
      · next he => exact absurd (List.cons.inj he).1 h3
      · next he => exact absurd (List.cons.inj he).1 h4
      · exact this

theorem wrapGreedy_made {P : Prop} (ret : Nat) (q : Option (Nat × Nat)) {s : RState} (h : Tame P s) :
    GuardR P (Made P s) (wrapGreedy ret q s) (wrapGreedy ret q s) := by
  unfold wrapGreedy
  cases q with
  | none => exact .ok ⟨h, Kept.refl s⟩
  | some q =>
    obtain ⟨p0, p1⟩ := q
    dsimp only
    refine GuardR.ite (fun _ => .err) fun _ => ?_
    refine (newnode_tame (ty := .greedy) h fun _ x hx => by cases hx).bind fun q hq => ?_
    obtain ⟨n, s1⟩ := q
    obtain ⟨⟨t1, k1⟩, m, hm, ht⟩ := hq
    have t1 : Tame P s1 := t1
    have k1 : Kept s s1 := k1
    have hm : s1.nodes[n]? = some m := hm
    have hr : m.type ≠ .range := by rw [ht]; decide
    have t2 := setLeft_tame t1 (v := (ret : Int)) fun _ => Or.inr ⟨m, hm, hr⟩
    obtain ⟨m', hm', ht'⟩ := setLeft_kept s1 n (ret : Int) _ _ hm
    exact GuardR.ok ⟨setRight_tame t2 fun _ => Or.inr ⟨m', hm', by rw [ht']; exact hr⟩,
      k1.trans ((setLeft_kept _ _ _).trans (setRight_kept _ _ _))⟩

theorem listHead_guard {P : Prop} {l l' : RState → RM (Nat × RState)} (hl : ∀ s, Tame P s → GuardR P (Made P s) (l s) (l' s))
    {s : RState} (h : Tame P s) : GuardR P (Made P s) (listHead l s) (listHead l' s) := by
  unfold listHead
  split
  · next p hp =>
    refine (newnode_tame (ty := .bol) (h.tail hp) fun _ x hx => by cases hx).bind fun q hq => ?_
    obtain ⟨b, s1⟩ := q
    obtain ⟨⟨t1, k1⟩, -⟩ := hq
    have t1 : Tame P s1 := t1
    have k1 : Kept s s1 := k1
    refine (hl s1 t1).bind fun q hq => ?_
    obtain ⟨e, s2⟩ := q
    obtain ⟨t2, k2⟩ := hq
    exact GuardR.ok ⟨setNext_tame t2 _ _, k1.trans (Kept.trans k2 (setNext_kept _ _ _))⟩
  · exact hl s h

theorem rexCt_guard {P : Prop} : ∀ fuel : Nat, (∀ s, Tame P s → GuardR P (Made P s) (rexElementCt fuel s) (rexElement fuel s)) ∧
    ∀ s, Tame P s → GuardR P (Made P s) (rexListCt fuel s) (rexList fuel s) := by
  intro fuel
  induction fuel with
  | zero => exact ⟨fun s _ => .err, fun s _ => .err⟩
  | succ fuel ih =>
    obtain ⟨ihe, ihl⟩ := ih
    constructor
    · intro s h
      rw [rexElementCt, rexElement]
      refine (rexAtomCt_guard ihl h).bind fun q hq => ?_
      obtain ⟨ret, s1⟩ := q
      obtain ⟨t1, k1⟩ := hq
      have t1 : Tame P s1 := t1
      have k1 : Kept s s1 := k1
      refine (quantifierCt_guard t1).bind fun q hq => ?_
      obtain ⟨qq, s2⟩ := q
      obtain ⟨t2, k2⟩ := hq
      have t2 : Tame P s2 := t2
      have k2 : Kept s s2 := k1.trans k2
      refine (wrapGreedy_made ret qq t2).bind fun q hq => ?_
      obtain ⟨ret', s3⟩ := q
      obtain ⟨t3, k3⟩ := hq
      have t3 : Tame P s3 := t3
      have k3 : Kept s s3 := k2.trans k3
      dsimp only
      cases s3.p with
      | nil => exact .ok ⟨t3, k3⟩
      | cons c p =>
        dsimp only
        refine GuardR.ite (fun _ => ?_) fun _ => .ok ⟨t3, k3⟩
        refine (ihe s3 t3).bind fun q hq => ?_
        obtain ⟨n, s4⟩ := q
        obtain ⟨t4, k4⟩ := hq
        exact GuardR.ok ⟨setNext_tame t4 _ _, k3.trans (Kept.trans k4 (setNext_kept _ _ _))⟩
    · intro s h
      rw [rexListCt, rexList]
      refine (listHead_guard ihe h).bind fun q hq => ?_
      obtain ⟨ret, s1⟩ := q
      obtain ⟨t1, k1⟩ := hq
      have t1 : Tame P s1 := t1
      have k1 : Kept s s1 := k1
      dsimp only
      cases hp : s1.p with
      | nil => exact .ok ⟨t1, k1⟩
      | cons c p =>
        by_cases hc : c = '|'
        · subst hc
          refine (newnode_tame (ty := .or) (t1.tail hp) fun _ x hx => by cases hx).bind fun q hq => ?_
          obtain ⟨temp, s2⟩ := q
          obtain ⟨⟨t2, k2⟩, m, hm, ht⟩ := hq
          have t2 : Tame P s2 := t2
          have k2 : Kept s s2 := k1.trans k2
          have hm : s2.nodes[temp]? = some m := hm
          have hr : m.type ≠ .range := by rw [ht]; decide
          have t3 := setLeft_tame t2 (v := (ret : Int)) fun _ => Or.inr ⟨m, hm, hr⟩
          obtain ⟨m', hm', ht'⟩ := setLeft_kept s2 temp (ret : Int) _ _ hm
          refine (ihl _ t3).bind fun q hq => ?_
          obtain ⟨tr, s4⟩ := q
          obtain ⟨t4, k4⟩ := hq
          have t4 : Tame P s4 := t4
          obtain ⟨m4, hm4, ht4⟩ := k4 _ _ hm'
          exact GuardR.ok ⟨setRight_tame t4 fun _ => Or.inr ⟨m4, hm4, by rw [ht4, ht']; exact hr⟩,
            k2.trans ((setLeft_kept _ _ _).trans (Kept.trans k4 (setRight_kept _ _ _)))⟩
        · split
          · next he => exact absurd (List.cons.inj he).1 hc
          · split
            · next he => exact absurd (List.cons.inj he).1 hc
            · exact .ok ⟨t1, k1⟩

theorem rexCompileCt_guard {P : Prop} {pat : CStr} (h : P → Ascii pat) :
    (rexCompileCt pat = rexCompile pat ∧ ∀ nodes, rexCompile pat = .ok (some nodes) → P → ∀ n ∈ nodes, GoodNode n) ∨
      (rexCompileCt pat = .error ctypeFault ∧ ¬ P) := by
  have t0 : Tame P ⟨pat, [], pat.length, 0⟩ := ⟨h, fun _ n hn => by cases hn⟩
  have main : GuardR P (fun nodes => P → ∀ n ∈ nodes, GoodNode n)
      (do
        let (first, s) ← newnode .expr ⟨pat, [], pat.length, 0⟩
        let (res, s) ← rexListCt (2 * pat.length + 2) s
        let s := s.setLeft first res
        if s.p ≠ [] then .error (.bad "unexpected character") else .ok s.nodes)
      (do
        let (first, s) ← newnode .expr ⟨pat, [], pat.length, 0⟩
        let (res, s) ← rexList (2 * pat.length + 2) s
        let s := s.setLeft first res
        if s.p ≠ [] then .error (.bad "unexpected character") else .ok s.nodes) := by
    refine (newnode_tame (ty := .expr) t0 fun _ x hx => by cases hx).bind fun q hq => ?_
    obtain ⟨first, s1⟩ := q
    obtain ⟨⟨t1, -⟩, m, hm, ht⟩ := hq
    have t1 : Tame P s1 := t1
    have hm : s1.nodes[first]? = some m := hm
    refine ((rexCt_guard _).2 s1 t1).bind fun q hq => ?_
    obtain ⟨res, s2⟩ := q
    obtain ⟨t2, k2⟩ := hq
    have t2 : Tame P s2 := t2
    obtain ⟨m', hm', ht'⟩ := k2 _ _ hm
    refine GuardR.ite (fun _ => .err) fun _ => .ok ?_
    exact (setLeft_tame t2 fun _ => Or.inr ⟨m', hm', by rw [ht', ht]; decide⟩).good
  unfold rexCompileCt rexCompile
  rcases main with ⟨h1, h2⟩ | ⟨h1, h2⟩
  · refine Or.inl ⟨?_, ?_⟩
    · dsimp only
      dsimp only at h1
      rw [h1]; rfl
    · intro nodes hn
      dsimp only at hn
      split at hn
      · next x hx => cases hn; exact h2 _ hx
      · cases hn
      · cases hn
  · refine Or.inr ⟨?_, h2⟩
    dsimp only
    dsimp only at h1
    rw [h1]

/-! ### matching -/

theorem nodeAt_mem {nodes : List RNode} {i : Int} {n : RNode} (h : nodeAt nodes i = .ok n) : n ∈ nodes := by
  unfold nodeAt at h
  split at h
  · cases h
  · split at h
    · next hn => cases h; exact List.mem_of_getElem? hn
    · cases h

theorem textAt_ascii {text : CStr} {i : Nat} {c : Char} (h : textAt text i = .ok c) (ha : Ascii text) : c.toNat < 128 := by
  unfold textAt at h
  split at h
  · next hi =>
    cases h
    rw [List.getD_eq_getElem?_getD, List.getElem?_eq_getElem hi]
    exact ha _ (List.getElem_mem hi)
  · split at h
    · cases h; decide
    · cases h

theorem matchcclassCt_guard {P : Prop} {cl c : Char} (h : P → c.toNat < 128) :
    Guard P (matchcclassCt cl c) (.ok (matchcclass cl c)) := by
  unfold matchcclassCt
  split
  · exact ct_guard h _
  · exact .rfl

theorem classItemCt_guard {P : Prop} (ic : Bool) {n : RNode} {c : Char} (h : P → c.toNat < 128) (hn : P → GoodNode n) :
    Guard P (classItemCt ic n c) (.ok (classItem ic n c)) := by
  unfold classItemCt classItem
  cases ht : n.type with
  | range =>
    have g1 : P → ctypeOk n.left = true := fun hP => ((hn hP).2 ht).1
    have g2 : P → ctypeOk n.right = true := fun hP => ((hn hP).2 ht).2
    cases ic with
    | false => exact .rfl
    | true =>
      dsimp only
      rw [if_pos rfl, if_pos rfl]
      refine Guard.left (ctInt_guard g1 _) ?_
      have rest : ¬ (charInt c ≥ charInt (toUpper (intChar n.left)) ∧ charInt c ≤ charInt (toUpper (intChar n.right))) →
          Guard P (do
            let lo ← ctInt n.left (charInt (toLower (intChar n.left)))
            if charInt c ≥ lo then do
              let hi ← ctInt n.right (charInt (toLower (intChar n.right)))
              .ok (charInt c ≤ hi : Bool)
            else .ok false)
            (.ok (decide ((charInt c ≥ charInt (toUpper (intChar n.left)) ∧ charInt c ≤ charInt (toUpper (intChar n.right)))
              ∨ (charInt c ≥ charInt (toLower (intChar n.left)) ∧ charInt c ≤ charInt (toLower (intChar n.right)))))) := by
        intro h2
        refine Guard.left (ctInt_guard g1 _) ?_
        by_cases h3 : charInt c ≥ charInt (toLower (intChar n.left))
        · rw [if_pos h3]
          refine Guard.left (ctInt_guard g2 _) ?_
          simp only [h2, h3, true_and, false_or]
          exact .rfl
        · rw [if_neg h3]
          simp only [h2, h3, false_and, false_or, decide_false]
          exact .rfl
      by_cases h1 : charInt c ≥ charInt (toUpper (intChar n.left))
      · rw [if_pos h1]
        refine Guard.left (ctInt_guard g2 _) ?_
        by_cases h2 : charInt c ≤ charInt (toUpper (intChar n.right))
        · show Guard P (if decide (charInt c ≤ charInt (toUpper (intChar n.right))) = true then _ else _) _
          rw [if_pos (by simpa using h2)]
          simp only [h1, h2, and_self, decide_true, true_or]
          exact .rfl
        · show Guard P (if decide (charInt c ≤ charInt (toUpper (intChar n.right))) = true then _ else _) _
          rw [if_neg (by simpa using h2)]
          exact rest fun hh => h2 hh.2
      · rw [if_neg h1]
        exact rest fun hh => h1 hh.1
  | ccls => exact matchcclassCt_guard h
  | char d =>
    have hd : P → d.toNat < 128 := fun hP => (hn hP).1 d ht
    cases ic with
    | false => exact .rfl
    | true =>
      dsimp only
      rw [if_pos rfl, if_pos rfl]
      refine Guard.left (ct_guard hd _) ?_
      by_cases h1 : c = toLower d
      · rw [if_pos h1]
        simp only [← h1, true_or, decide_true]
        exact .rfl
      · rw [if_neg h1]
        refine Guard.left (ct_guard hd _) ?_
        simp only [h1, false_or]
        exact .rfl
  | _ => exact .rfl

theorem matchclassCt_guard {P : Prop} {nodes : List RNode} (ic : Bool) {c : Char} (h : P → c.toNat < 128)
    (hn : P → ∀ n ∈ nodes, GoodNode n) :
    ∀ k node, Guard P (matchclassCt nodes ic c k node) (matchclass nodes ic c k node) := by
  intro k
  induction k with
  | zero => intro node; exact .rfl
  | succ k ih =>
    intro node
    rw [matchclassCt, matchclass]
    refine Guard.bind .rfl fun n hm => ?_
    refine Guard.left (classItemCt_guard ic h fun hP => hn hP n (nodeAt_mem hm)) ?_
    refine Guard.ite (fun _ => .rfl) fun _ => ?_
    exact Guard.ite (fun _ => ih _) fun _ => .rfl

theorem wordEndCt_guard {P : Prop} {text : CStr} (h : P → Ascii text) (str : Nat) : Guard P (wordEndCt text str) (wordEnd text str) := by
  unfold wordEndCt wordEnd
  refine Guard.ite (fun _ => ?_) fun _ => .rfl
  refine Guard.bind .rfl fun p hp => ?_
  exact Guard.left (ct_guard (fun hP => textAt_ascii hp (h hP)) _) .rfl

theorem wordBoundaryCt_guard {P : Prop} {text : CStr} (h : P → Ascii text) (str : Nat) :
    Guard P (wordBoundaryCt text str) (wordBoundary text str) := by
  unfold wordBoundaryCt wordBoundary
  refine Guard.bind .rfl fun c hc => ?_
  have ha : P → c.toNat < 128 := fun hP => textAt_ascii hc (h hP)
  have rest : Guard P
      (do
        let atEnd ← wordEndCt text str
        if atEnd then .ok true
        else do
          let b ← ct c (isSpace c)
          let d ← textAt text (str + 1)
          let e ← ct d (isSpace d)
          .ok (b != e))
      (do
        let atEnd ← wordEnd text str
        if atEnd then .ok true
        else do
          let d ← textAt text (str + 1)
          .ok (isSpace c != isSpace d)) := by
    refine Guard.bind (wordEndCt_guard h str) fun e _ => ?_
    refine Guard.ite (fun _ => .rfl) fun _ => ?_
    refine Guard.left (ct_guard ha _) ?_
    refine Guard.bind .rfl fun d hd => ?_
    exact Guard.left (ct_guard (fun hP => textAt_ascii hd (h hP)) _) .rfl
  dsimp only
  by_cases h0 : str = 0
  · rw [if_pos h0]
    refine Guard.left (ct_guard ha _) ?_
    by_cases h1 : isSpace c = true
    · rw [if_neg (by rw [h1]; decide), if_neg (fun hh => hh.2 h1)]
      exact rest
    · rw [if_pos (by simpa using h1), if_pos ⟨h0, h1⟩]; exact .rfl
  · rw [if_neg h0, if_neg fun hh => h0 hh.1]
    exact rest

/-- Two matchers. -/
def GuardM (P : Prop) (m m' : Matcher) : Prop := ∀ i s x, Guard P (m i s x) (m' i s x)

section
variable {P : Prop} {nodes : List RNode}

theorem greedyStopTest_guard {m m' : Matcher} (h : GuardM P m m') (g x : Option Int) (s : Nat) :
    Guard P (greedyStopTest nodes m g x s) (greedyStopTest nodes m' g x s) := by
  cases g with
  | none => exact .rfl
  | some g =>
    unfold greedyStopTest
    refine Guard.bind .rfl fun gn _ => ?_
    refine Guard.ite (fun _ => ?_) fun _ => .rfl
    exact Guard.bind .rfl fun gx _ => Guard.bind (h _ _ _) fun _ _ => .rfl

theorem greedyLoop_guard {m m' : Matcher} (h : GuardM P m m') {eol p0 p1 : Nat} {left : Int} {g x : Option Int} :
    ∀ k nm s good, Guard P (greedyLoop nodes eol m p0 p1 left g x k nm s good) (greedyLoop nodes eol m' p0 p1 left g x k nm s good) := by
  intro k
  induction k with
  | zero => intro nm s good; exact .rfl
  | succ k ih =>
    intro nm s good
    rw [greedyLoop, greedyLoop]
    refine Guard.ite (fun _ => ?_) fun _ => .rfl
    refine Guard.bind (h _ _ _) fun r _ => ?_
    cases r with
    | none => exact .rfl
    | some s' =>
      dsimp only
      refine Guard.bind (greedyStopTest_guard h _ _ _) fun stop _ => ?_
      refine Guard.ite (fun _ => .rfl) fun _ => ?_
      exact Guard.ite (fun _ => .rfl) fun _ => ih _ _ _

theorem orChain_guard {m m' : Matcher} (h : GuardM P m m') :
    ∀ k t s, Guard P (orChain nodes m k t s) (orChain nodes m' k t s) := by
  intro k
  induction k with
  | zero => intro t s; exact .rfl
  | succ k ih =>
    intro t s
    rw [orChain, orChain]
    refine Guard.bind (h _ _ _) fun r _ => ?_
    cases r with
    | none => exact .rfl
    | some s' =>
      refine Guard.bind .rfl fun n _ => ?_
      exact Guard.ite (fun _ => ih _ _) fun _ => .rfl

theorem exprChain_guard {m m' : Matcher} (h : GuardM P m m') {x : Option Int} :
    ∀ k i s, Guard P (exprChain nodes m x k i s) (exprChain nodes m' x k i s) := by
  intro k
  induction k with
  | zero => intro i s; exact .rfl
  | succ k ih =>
    intro i s
    rw [exprChain, exprChain]
    refine Guard.bind .rfl fun n _ => ?_
    dsimp only
    refine Guard.bind (h _ _ _) fun r _ => ?_
    cases r with
    | none => exact .rfl
    | some s' => exact Guard.ite (fun _ => ih _ _) fun _ => .rfl

theorem matchnodeCt_guard (ic : Bool) {text : CStr} (ha : P → Ascii text) (hn : P → ∀ n ∈ nodes, GoodNode n) :
    ∀ d, GuardM P (matchnodeCt nodes ic text d) (matchnode nodes ic text d) := by
  intro d
  induction d with
  | zero => intro i s x; exact .rfl
  | succ d ih =>
    intro i s x
    rw [matchnodeCt, matchnode]
    refine Guard.bind .rfl fun n hm => ?_
    dsimp only
    cases ht : n.type with
    | greedy => exact Guard.bind (greedyLoop_guard ih _ _ _ _) fun _ _ => .rfl
    | or =>
      dsimp only
      refine Guard.bind (orChain_guard ih _ _ _) fun r _ => ?_
      cases r with
      | some s' => exact .rfl
      | none => exact orChain_guard ih _ _ _
    | expr => exact exprChain_guard ih _ _ _
    | nocap => exact exprChain_guard ih _ _ _
    | wb =>
      dsimp only
      refine Guard.bind (wordBoundaryCt_guard ha s) fun b _ => ?_
      exact Guard.ite (fun _ => .rfl) fun _ => .rfl
    | ncls =>
      dsimp only
      refine Guard.bind .rfl fun c hc => ?_
      exact Guard.bind (matchclassCt_guard ic (fun hP => textAt_ascii hc (ha hP)) hn _ _) fun _ _ => .rfl
    | cls =>
      dsimp only
      refine Guard.bind .rfl fun c hc => ?_
      exact Guard.bind (matchclassCt_guard ic (fun hP => textAt_ascii hc (ha hP)) hn _ _) fun _ _ => .rfl
    | ccls =>
      dsimp only
      refine Guard.bind .rfl fun c hc => ?_
      exact Guard.left (matchcclassCt_guard fun hP => textAt_ascii hc (ha hP)) .rfl
    | char e =>
      have hd : P → e.toNat < 128 := fun hP => (hn hP n (nodeAt_mem hm)).1 e ht
      dsimp only
      refine Guard.bind .rfl fun c hc => ?_
      cases ic with
      | false => exact .rfl
      | true =>
        rw [if_pos rfl, if_pos rfl]
        refine Guard.left (ct_guard hd _) ?_
        by_cases h1 : c ≠ toLower e
        · rw [if_pos h1]
          refine Guard.left (ct_guard hd _) ?_
          simp [h1]
          exact .rfl
        · rw [if_neg h1]
          simp [h1]
          exact .rfl
    | _ => exact .rfl

end

theorem rexMatchCt_guard {P : Prop} {nodes : List RNode} (ic : Bool) {text : CStr} (ha : P → Ascii text)
    (hn : P → ∀ n ∈ nodes, GoodNode n) : Guard P (rexMatchCt nodes ic text) (rexMatch nodes ic text) := by
  unfold rexMatchCt rexMatch
  exact Guard.bind (matchnodeCt_guard ic ha hn _ _ _ _) fun _ _ => .rfl

theorem rexScanCt_guard {P : Prop} {pat a : CStr} (hp : P → Ascii pat) (ha : P → Ascii a) (ic : Bool) (mx : Int) (o : StrObj) :
    Guard P (rexScanCt pat ic mx o (some a)) (rexScan pat ic mx o (some a)) := by
  unfold rexScanCt rexScan
  refine Guard.ite (fun _ => .rfl) fun _ => ?_
  dsimp only
  rcases rexCompileCt_guard hp with ⟨h1, h2⟩ | ⟨h1, h2⟩
  · rw [h1]
    refine Guard.bind .rfl fun r hr => ?_
    cases r with
    | none => exact .rfl
    | some nodes =>
      dsimp only
      refine Guard.bind (rexMatchCt_guard ic ha (h2 nodes hr)) fun b _ => ?_
      exact Guard.ite (fun _ => .rfl) fun _ => .rfl
  · rw [h1]; exact Or.inr ⟨rfl, h2⟩

end Argtable
