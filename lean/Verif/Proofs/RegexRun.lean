import Verif.Spec.RegexRun
import Verif.Proofs.RegexExact
/-!
# Helper lemmas: the matcher follows the walk
-/

namespace Argtable
open Spec

/-- The outcome of the matcher. -/
def _root_.Argtable.Spec.Move.out : Move → M (Option Nat)
  | .beyond => .error PastEnd
  | .no => .ok none
  | .upto j => .ok (some j)

/-- The outcome of the test of what follows a repetition. -/
def _root_.Argtable.Spec.Move.hit : Move → M Bool
  | .beyond => .error PastEnd
  | .no => .ok false
  | .upto _ => .ok true

/-- Up to a lack of fuel. -/
def Agrees {α : Type} (x y : M α) : Prop := x = .error .fuel ∨ x = y

theorem Agrees.rfl {α : Type} {x : M α} : Agrees x x := Or.inr (Eq.refl x)

theorem Agrees.bind {α β : Type} {x y : M α} {f g : α → M β} (h : Agrees x y) (hf : ∀ a, Agrees (f a) (g a)) :
    Agrees (x >>= f) (y >>= g) := by
  rcases h with h | h
  · rw [h]; exact Or.inl (Eq.refl _)
  · rw [h]
    cases y with
    | error e => exact .rfl
    | ok a => exact hf a

theorem greedyOk_iff {q : Quant} (h1 : q ≠ .once) (hq : q.Ok) {nm : Nat} :
    greedyOk (quantBounds q).1 (quantBounds q).2 nm = true ↔ q.Allows nm := by
  refine ⟨allows_of_greedyOk h1 hq, fun h => ?_⟩
  unfold greedyOk
  rw [decide_eq_true_iff]
  cases q with
  | once => exact absurd (Eq.refl _) h1
  | star => simp [quantBounds]
  | plus => have : 1 ≤ nm := h; simp [quantBounds]; omega
  | opt => have : nm ≤ 1 := h; simp [quantBounds]; omega
  | exactly k => have : nm = k := h; simp [quantBounds]; omega
  | atLeast k => have : k ≤ nm := h; simp [quantBounds]; omega
  | between k m => have : k ≤ nm ∧ nm ≤ m := h; simp [quantBounds]; omega
  | raw lo hi =>
    have h : bound lo ≤ nm ∧ (upperBound lo hi = 65535 ∨ nm ≤ upperBound lo hi) := h
    simp only [quantBounds]
    omega

theorem goesOn_iff {q : Quant} (h1 : q ≠ .once) (hq : q.Ok) {nm : Nat} (h : nm ≤ q.most) :
    (nm = 65535 ∨ nm < (quantBounds q).2) ↔ nm < q.most := by
  cases q with
  | once => exact absurd (Eq.refl _) h1
  | star => simp [quantBounds, Quant.most] at h ⊢; omega
  | plus => simp [quantBounds, Quant.most] at h ⊢; omega
  | opt => simp [quantBounds, Quant.most] at h ⊢; omega
  | exactly k => have : k < 32768 := hq; simp [quantBounds, Quant.most] at h ⊢; omega
  | atLeast k => simp [quantBounds, Quant.most] at h ⊢; omega
  | between k m => have : k < 32768 ∧ m < 65535 := hq; simp [quantBounds, Quant.most] at h ⊢; omega
  | raw lo hi =>
    have hlt := upperBound_lt lo hi
    simp only [quantBounds, Quant.most] at h ⊢
    by_cases hu : upperBound lo hi = 65535
    · rw [if_pos hu] at h ⊢; omega
    · rw [if_neg hu] at h ⊢; omega

theorem bounds_zero {q : Quant} (h1 : q ≠ .once) : (quantBounds q).1 = 0 ↔ q.Allows 0 := by
  cases q with
  | once => exact absurd (Eq.refl _) h1
  | star => simp [quantBounds, Quant.Allows]
  | plus => simp [quantBounds, Quant.Allows]
  | opt => simp [quantBounds, Quant.Allows]
  | exactly k => simp [quantBounds, Quant.Allows, eq_comm]
  | atLeast k => simp [quantBounds, Quant.Allows]
  | between k m => simp [quantBounds, Quant.Allows]
  | raw lo hi => simp [quantBounds, Quant.Allows]

section
variable {nodes : List RNode} {ic : Bool} {text : CStr}

/-- The node `x`, if any, is what `after` says follows. -/
def WalkNext (nodes : List RNode) (ic : Bool) (text : CStr) (x : Option Int) (after : Nat → Move) : Prop :=
  ∀ fuel nxt s, nxt = none ∨ nxt = x →
    Agrees (greedyStopTest nodes (matchnode nodes ic text fuel) x nxt s) (after s).hit

theorem follows_none : WalkNext nodes ic text none nothing := fun _ _ _ _ => .rfl

theorem stopped_out {q : Quant} (h1 : q ≠ .once) (hq : q.Ok) (n i : Nat) :
    (if greedyOk (quantBounds q).1 (quantBounds q).2 n = true then .ok (some i) else .ok none : M (Option Nat)) =
      (stopped q n i).out := by
  unfold stopped
  by_cases h : q.Allows n
  · rw [if_pos h, if_pos ((greedyOk_iff h1 hq).2 h)]; rfl
  · rw [if_neg h, if_neg fun h' => h ((greedyOk_iff h1 hq).1 h')]; rfl

theorem pieces_agrees {q : Quant} (h1 : q ≠ .once) (hq : q.Ok) {fuel : Nat} {left : Int} {g x : Option Int} {piece after : Nat → Move}
    (hp : ∀ s, Agrees (matchnode nodes ic text fuel left s g) (piece s).out) (hx : x = none ∨ x = g)
    (ha : WalkNext nodes ic text g after) : ∀ {k nm s d : Nat}, nm + d = q.most →
    Agrees (greedyLoop nodes text.length (matchnode nodes ic text fuel) (quantBounds q).1 (quantBounds q).2 left g x k nm s s >>=
      fun p => if greedyOk (quantBounds q).1 (quantBounds q).2 p.1 = true then .ok (some p.2) else .ok none)
      (pieces text.length q piece after d nm s).out := by
  intro k
  induction k with
  | zero => intro nm s d _; exact Or.inl rfl
  | succ k ih =>
    intro nm s d hd
    have hgo := goesOn_iff h1 hq (nm := nm) (by omega)
    rw [greedyLoop]
    cases d with
    | zero =>
      rw [if_neg (by rw [hgo]; omega), bind_ok]
      rw [stopped_out h1 hq]
      exact .rfl
    | succ d =>
      rw [if_pos (hgo.2 (by omega)), bind_assoc]
      unfold pieces
      rcases hp s with h | h
      · rw [h]; exact Or.inl rfl
      · rw [h]
        cases piece s with
        | beyond => exact .rfl
        | no =>
          show Agrees (if greedyOk (quantBounds q).1 (quantBounds q).2 nm = true then _ else _) _
          rw [stopped_out h1 hq]
          exact .rfl
        | upto j =>
          show Agrees (_ >>= _) _
          dsimp only
          rw [show (Move.out (.upto j)) = .ok (some j) from rfl, bind_ok]
          dsimp only
          rw [bind_assoc]
          rcases ha fuel x j hx with h | h
          · rw [h]; exact Or.inl rfl
          · rw [h]
            cases after j with
            | beyond => exact .rfl
            | no =>
              rw [show (Move.hit .no) = .ok false from rfl, bind_ok]
              dsimp only
              rw [if_neg (by simp)]
              by_cases hj : text.length ≤ j
              · rw [if_pos hj, if_pos hj, bind_ok, stopped_out h1 hq]
                exact .rfl
              · rw [if_neg hj, if_neg hj]
                exact ih (by omega)
            | upto j' =>
              rw [show (Move.hit (.upto j')) = .ok true from rfl, bind_ok]
              dsimp only
              by_cases hq' : q.Allows (nm + 1)
              · rw [if_pos ⟨rfl, (greedyOk_iff h1 hq).2 hq'⟩, if_pos (Or.inl hq'), bind_ok, stopped_out h1 hq]
                exact .rfl
              · rw [if_neg fun h => hq' ((greedyOk_iff h1 hq).1 h.2)]
                by_cases hj : text.length ≤ j
                · rw [if_pos hj, if_pos (Or.inr hj), bind_ok, stopped_out h1 hq]
                  exact .rfl
                · rw [if_neg hj, if_neg (by tauto)]
                  exact ih (by omega)

/-- What following the walk means for an atom, an element, a sequence, a pattern. -/
def AtomW (nodes : List RNode) (ic : Bool) (text : CStr) (a : Atom) : Prop :=
  ∀ {lo hi i : Nat} {nx : Int} {x : Option Int} {after : Nat → Move} {fuel s : Nat}, a.Ok → RepAtom nodes a lo hi i nx →
    WalkNext nodes ic text x after → Agrees (matchnode nodes ic text fuel i s x) (a.Go ic text after s).out

/-- A chain of nodes: a group or an alternative. -/
inductive ChainW (nodes : List RNode) (m : Matcher) (x : Option Int) : Bool → (Nat → Int → Nat → M (Option Nat)) → Prop
  | seq : ChainW nodes m x false (exprChain nodes m x)
  | alt : x = none → ChainW nodes m x true (orChain nodes m)

def ElemsW (nodes : List RNode) (ic : Bool) (text : CStr) (es : Elems) : Prop :=
  ∀ {lo hi i : Nat}, es.Ok → RepElems nodes es lo hi i →
    WalkNext nodes ic text (some (i : Int)) (es.Head ic text) ∧
    ∀ {x : Option Int} {after : Nat → Move} {fuel k s : Nat} {inAlt : Bool} {ch : Nat → Int → Nat → M (Option Nat)},
      WalkNext nodes ic text x after → ChainW nodes (matchnode nodes ic text fuel) x inAlt ch →
      Agrees (ch k i s) (es.Go ic text inAlt after s).out
def ReW (nodes : List RNode) (ic : Bool) (text : CStr) (r : Re) : Prop :=
  ∀ {lo hi i : Nat} {x : Option Int} {after : Nat → Move} {fuel k s : Nat} {inAlt : Bool} {ch : Nat → Int → Nat → M (Option Nat)},
    r.Ok → RepRe nodes r lo hi i → WalkNext nodes ic text x after → ChainW nodes (matchnode nodes ic text fuel) x inAlt ch →
      Agrees (ch k i s) (r.Go ic text inAlt after s).out

theorem textAt_take (P : Char → Prop) (s : Nat) {f : Char → M (Option Nat)}
    (h1 : ∀ c, P c → Agrees (f c) (.ok (some (s + 1)))) (h2 : ∀ c, ¬ P c → Agrees (f c) (.ok none)) :
    Agrees (textAt text s >>= f) (take text P s).out := by
  unfold textAt take
  by_cases hlt : text.length < s
  · rw [if_pos hlt, if_neg (by omega), if_neg (by omega)]
    exact .rfl
  · rw [if_neg hlt]
    have key : ∀ c, Agrees (f c) (Move.out (open Classical in if P c then .upto (s + 1) else .no)) := by
      intro c
      by_cases h : P c
      · rw [if_pos h]; exact h1 c h
      · rw [if_neg h]; exact h2 c h
    by_cases hlt' : s < text.length
    · rw [if_pos hlt', bind_ok, List.getD_eq_getElem?_getD]
      exact key _
    · have : s = text.length := by omega
      rw [if_neg hlt', if_pos this, bind_ok, List.getElem?_eq_none (by omega)]
      exact key _

theorem atomW_chr (l : Lit) : AtomW nodes ic text (.chr l) := by
  intro lo hi i nx x after fuel s hok hrep hf
  unfold RepAtom at hrep
  obtain ⟨_, _, n, hn, _, ht⟩ := hrep
  cases fuel with
  | zero => exact Or.inl rfl
  | succ fuel =>
    rw [matchnode, nodeAt_eq hn, bind_ok]
    dsimp only
    rw [ht]
    unfold Atom.Go
    refine textAt_take _ s (fun c hc => ?_) (fun c hc => ?_)
    · have hc := (sameLetter_iff ic).2 hc
      unfold SameChar at hc
      cases ic with
      | true =>
        rw [if_pos rfl] at hc ⊢
        rw [if_neg (by tauto)]
        exact .rfl
      | false =>
        rw [if_neg (by simp)] at hc ⊢
        rw [if_neg (by tauto)]
        exact .rfl
    · have hc := mt (sameLetter_iff ic).1 hc
      unfold SameChar at hc
      cases ic with
      | true =>
        rw [if_pos rfl] at hc ⊢
        rw [if_pos (by tauto)]
        exact .rfl
      | false =>
        rw [if_neg (by simp)] at hc ⊢
        rw [if_pos (by tauto)]
        exact .rfl

theorem atomW_cls (l : Char) : AtomW nodes ic text (.cls l) := by
  intro lo hi i nx x after fuel s hok hrep hf
  unfold RepAtom at hrep
  obtain ⟨_, _, n, hn, _, ht, hl⟩ := hrep
  unfold Atom.Ok at hok
  cases fuel with
  | zero => exact Or.inl rfl
  | succ fuel =>
    rw [matchnode, nodeAt_eq hn, bind_ok]
    dsimp only
    rw [ht]
    unfold Atom.Go
    refine textAt_take _ s (fun c hc => ?_) (fun c hc => ?_)
    · rw [hl, intChar_charInt, if_pos ((matchcclass_iff hok c).2 hc)]
      exact .rfl
    · rw [hl, intChar_charInt, if_neg (mt (matchcclass_iff hok c).1 hc)]
      exact .rfl

theorem atomW_any : AtomW nodes ic text .any := by
  intro lo hi i nx x after fuel s hok hrep hf
  unfold RepAtom at hrep
  obtain ⟨_, _, n, hn, _, ht⟩ := hrep
  cases fuel with
  | zero => exact Or.inl rfl
  | succ fuel =>
    rw [matchnode, nodeAt_eq hn, bind_ok]
    dsimp only
    rw [ht]
    unfold Atom.Go
    exact .rfl

theorem atomW_eol : AtomW nodes ic text .eol := by
  intro lo hi i nx x after fuel s hok hrep hf
  unfold RepAtom at hrep
  obtain ⟨_, _, n, hn, _, ht⟩ := hrep
  cases fuel with
  | zero => exact Or.inl rfl
  | succ fuel =>
    rw [matchnode, nodeAt_eq hn, bind_ok]
    dsimp only
    rw [ht]
    unfold Atom.Go
    dsimp only
    by_cases h : s = text.length
    · rw [if_pos h, if_pos h]; exact .rfl
    · rw [if_neg h, if_neg h]; exact .rfl

theorem matchclass_outcome {c : Char} {lo hi : Nat} {xs : List SetItem} {v : Int} {k : Nat} (hne : xs ≠ [])
    (hok : ∀ x ∈ xs, x.Ok) (hrep : RepItems nodes lo hi xs v) :
    matchclass nodes ic c k v = .error .fuel ∨ ∃ b, matchclass nodes ic c k v = .ok b ∧ (b = true ↔ ∃ x ∈ xs, x.Has ic c) := by
  have : ∀ {xs : List SetItem} {v : Int} {k : Nat}, xs ≠ [] → RepItems nodes lo hi xs v →
      matchclass nodes ic c k v = .error .fuel ∨ ∃ b, matchclass nodes ic c k v = .ok b := by
    intro xs
    induction xs with
    | nil => intro v k h; exact absurd rfl h
    | cons x xs ih =>
      intro v k _ hrep
      obtain ⟨j, n, rfl, h1, h2, h3, h4, h5⟩ := hrep
      cases k with
      | zero => exact Or.inl rfl
      | succ k =>
        rw [matchclass, nodeAt_eq h3, bind_ok]
        by_cases hc : classItem ic n c = true
        · rw [if_pos hc]; exact Or.inr ⟨_, rfl⟩
        · rw [if_neg hc]
          cases xs with
          | nil =>
            have hnx : n.next = -1 := h5
            rw [hnx, if_neg (by simp)]
            exact Or.inr ⟨_, rfl⟩
          | cons y ys =>
            obtain ⟨j', n', hj', _⟩ := id h5
            rw [if_pos (by rw [hj']; omega)]
            exact ih (by simp) h5
  rcases this (k := k) hne hrep with h | ⟨b, h⟩
  · exact Or.inl h
  · exact Or.inr ⟨b, h, matchclass_rep hne hok hrep h⟩

theorem atomW_set (neg : Bool) (y : SetItem) (ys : List SetItem) : AtomW nodes ic text (.set neg y ys) := by
  intro lo hi i nx x after fuel s hok hrep hf
  unfold RepAtom at hrep
  obtain ⟨_, _, n, hn, _, ht, hit⟩ := hrep
  unfold Atom.Ok at hok
  cases fuel with
  | zero => exact Or.inl rfl
  | succ fuel =>
    rw [matchnode, nodeAt_eq hn, bind_ok]
    dsimp only
    rw [ht]
    unfold Atom.Go
    cases neg with
    | true =>
      simp only [if_true]
      refine textAt_take _ s (fun c hc => ?_) (fun c hc => ?_)
      · rcases matchclass_outcome (c := c) (k := nodes.length + 1) (by simp) hok.1 hit with h | ⟨b, h, hb⟩
        · rw [h]; exact Or.inl rfl
        · have : b = false := by cases b with | false => rfl | true => exact absurd (hb.1 rfl) hc
          rw [h, bind_ok, this]
          exact .rfl
      · rcases matchclass_outcome (c := c) (k := nodes.length + 1) (by simp) hok.1 hit with h | ⟨b, h, hb⟩
        · rw [h]; exact Or.inl rfl
        · have : b = true := by cases b with | true => rfl | false => exact (hc fun h => by cases hb.2 h).elim
          rw [h, bind_ok, this]
          exact .rfl
    | false =>
      simp only [Bool.false_eq_true, if_false]
      refine textAt_take _ s (fun c hc => ?_) (fun c hc => ?_)
      · rcases matchclass_outcome (c := c) (k := nodes.length + 1) (by simp) hok.1 hit with h | ⟨b, h, hb⟩
        · rw [h]; exact Or.inl rfl
        · have : b = true := hb.2 hc
          rw [h, bind_ok, this]
          exact .rfl
      · rcases matchclass_outcome (c := c) (k := nodes.length + 1) (by simp) hok.1 hit with h | ⟨b, h, hb⟩
        · rw [h]; exact Or.inl rfl
        · have : b = false := by cases b with | false => rfl | true => exact absurd (hb.1 rfl) hc
          rw [h, bind_ok, this]
          exact .rfl

theorem atomW_edge (neg : Bool) : AtomW nodes ic text (.edge neg) := by
  intro lo hi i nx x after fuel s hok hrep hf
  unfold RepAtom at hrep
  obtain ⟨_, _, n, hn, _, ht, hl⟩ := hrep
  cases fuel with
  | zero => exact Or.inl rfl
  | succ fuel =>
    rw [matchnode, nodeAt_eq hn, bind_ok]
    dsimp only
    rw [ht]
    unfold Atom.Go
    dsimp only
    by_cases hb : text.length < s ∨ s = text.length ∧ BlankAt text (s - 1)
    · rw [if_pos hb]
      have : wordBoundary text s = .error PastEnd := by
        unfold wordBoundary
        by_cases hlt : text.length < s
        · have : textAt text s = .error PastEnd := by
            unfold textAt; rw [if_neg (by omega), if_neg (by omega)]; rfl
          rw [this]; rfl
        · obtain ⟨h0, c, hc, hsp⟩ := hb.resolve_left hlt
          have hpos := lt_of_getElem? hc
          have h1 : textAt text s = .ok '\x00' := by
            unfold textAt; rw [if_neg (by omega), if_pos h0]
          have h2 := textAt_get hc
          have h3 : isSpace c = true := (matchcclass_iff (l := 's') (by decide) c).2 hsp
          have h4 : textAt text (s + 1) = .error PastEnd := by
            unfold textAt; rw [if_neg (by omega), if_neg (by omega)]; rfl
          rw [h1, bind_ok, if_neg (by omega)]
          unfold wordEnd
          rw [if_pos h0, h2, bind_ok, h3, bind_ok, if_neg (by simp), h4]
          rfl
      rw [this]
      exact .rfl
    · rw [if_neg hb]
      have hle : s ≤ text.length := by omega
      obtain ⟨c, hc, hcn⟩ := textAt_eq (text := text) hle
      obtain ⟨b, hw⟩ : ∃ b, wordBoundary text s = .ok b := by
        unfold wordBoundary
        rw [hc, bind_ok]
        by_cases h0 : s = 0 ∧ ¬ isSpace c = true
        · rw [if_pos h0]; exact ⟨_, rfl⟩
        · rw [if_neg h0]
          unfold wordEnd
          by_cases hl : s = text.length
          · rw [if_pos hl]
            obtain ⟨p, hp, -⟩ := textAt_eq (text := text) (s := s - 1) (by omega)
            have hnb : ¬ BlankAt text (s - 1) := fun h => hb (Or.inr ⟨hl, h⟩)
            rw [blankAt_iff hp] at hnb
            rw [hp, bind_ok, bind_ok, if_pos (by simpa using hnb)]
            exact ⟨_, rfl⟩
          · rw [if_neg hl, bind_ok, if_neg (by simp)]
            obtain ⟨d, hd, -⟩ := textAt_eq (text := text) (s := s + 1) (by omega)
            rw [hd, bind_ok]
            exact ⟨_, rfl⟩
      have hw' := wordBoundary_iff hw
      rw [hw, bind_ok, hl, intChar_charInt]
      cases b <;> cases neg <;> simp_all [Agrees, Move.out]

theorem atomW_group (capture : Bool) (r : Re) (ih : ReW nodes ic text r) : AtomW nodes ic text (.group capture r) := by
  intro lo hi i nx x after fuel s hok hrep hf
  unfold RepAtom at hrep
  obtain ⟨_, _, n, hn, _, ht, k, hk, hre⟩ := hrep
  unfold Atom.Ok at hok
  cases fuel with
  | zero => exact Or.inl rfl
  | succ fuel =>
    rw [matchnode, nodeAt_eq hn, bind_ok]
    dsimp only
    rw [ht, hk]
    unfold Atom.Go
    have := ih (fuel := fuel) (k := nodes.length + 1) (s := s) hok.1 hre hf .seq
    cases capture with
    | true => exact this
    | false => exact this

theorem elementW {a : Atom} (ha : AtomW nodes ic text a) {q : Quant} (hok : a.Ok) (hq : q.Ok) {lo hi i : Nat} {nx : Int}
    (hrep : RepQ nodes (RepAtom nodes a) q lo hi i nx) {x : Option Int} {inAlt : Bool} {after : Nat → Move} {fuel s : Nat}
    (hx : x = none ∨ x = if nx ≠ -1 then some nx else x) (hx' : inAlt = true → x = none)
    (hx'' : inAlt = false → x = if nx ≠ -1 then some nx else x)
    (hf : WalkNext nodes ic text (if nx ≠ -1 then some nx else x) after) :
    Agrees (matchnode nodes ic text fuel i s x) (element text.length (a.Go ic text) q inAlt after s).out := by
  unfold RepQ at hrep
  unfold element
  split at hrep
  · rename_i h1
    rw [if_pos h1]
    refine ha hok hrep ?_
    cases inAlt with
    | true => rw [if_pos rfl, hx' rfl]; exact follows_none
    | false => rw [if_neg (by simp), hx'' rfl]; exact hf
  · rename_i h1
    rw [if_neg h1]
    obtain ⟨_, _, n, hn, hnx, ht, hb, k, hk, hat⟩ := hrep
    obtain ⟨b1, b2⟩ := greedy_bounds hq hb
    cases fuel with
    | zero => exact Or.inl rfl
    | succ fuel =>
      rw [matchnode, nodeAt_eq hn, bind_ok]
      dsimp only
      rw [ht, hk, b1, b2, hnx]
      exact pieces_agrees h1 hq (fun s => ha hok hat hf) hx hf (by omega)

/-- The first element as seen by a repetition. -/
theorem headW {a : Atom} (ha : AtomW nodes ic text a) {q : Quant} (hok : a.Ok) (hq : q.Ok) {lo hi i : Nat} {nx : Int}
    (hrep : RepQ nodes (RepAtom nodes a) q lo hi i nx) {after : Nat → Move}
    (hf : WalkNext nodes ic text (if nx ≠ -1 then some nx else none) after) :
    WalkNext nodes ic text (some (i : Int)) (open Classical in fun s =>
      if q.Allows 0 then .no else element text.length (a.Go ic text) q false after s) := by
  intro fuel nxt s hnxt
  obtain ⟨n, hn, hnx⟩ := repQ_node hrep
  unfold greedyStopTest
  dsimp only
  rw [nodeAt_eq hn, bind_ok]
  have hty : (n.type ≠ .greedy ∨ n.p0 ≠ 0) ↔ ¬ q.Allows 0 := by
    unfold RepQ at hrep
    split at hrep
    · rename_i h1
      subst h1
      have : n.type ≠ .greedy := by
        cases a <;> (unfold RepAtom at hrep; obtain ⟨_, _, n', hn', _, ht⟩ := hrep; rw [hn] at hn'; cases hn')
        · rw [ht]; simp
        · rw [ht.1]; simp
        · rw [ht]; simp
        · rw [ht.1]; split <;> simp
        · rw [ht]; simp
        · rw [ht.1]; simp
        · rw [ht.1]; split <;> simp
      simp [this, Quant.Allows]
    · rename_i h1
      obtain ⟨_, _, n', hn', _, ht, hb, _⟩ := hrep
      rw [hn] at hn'; cases hn'
      rw [(greedy_bounds hq hb).1, ht]
      simp [bounds_zero h1]
  by_cases h0 : q.Allows 0
  · rw [if_pos h0, if_neg (by rw [hty]; simpa using h0)]
    exact .rfl
  · rw [if_neg h0, if_pos (hty.2 h0)]
    have hg : greedyNext nodes n nxt = .ok (if nx ≠ -1 then some nx else none) := by
      unfold greedyNext
      rw [hnx]
      by_cases h : nx ≠ -1
      · rw [if_pos h, if_pos h]
      · rw [if_neg h, if_neg h]
        rcases hnxt with h' | h'
        · rw [h']
        · rw [h']
          dsimp only
          rw [nodeAt_eq hn, bind_ok, hnx, if_neg h]
    rw [hg, bind_ok]
    have := elementW ha hok hq hrep (x := if nx ≠ -1 then some nx else none) (inAlt := false) (after := after) (fuel := fuel) (s := s)
      (by right; split <;> simp_all) (by simp) (by intro _; split <;> simp_all) (by
        have : (if nx ≠ -1 then some nx else if nx ≠ -1 then some nx else none) = if nx ≠ -1 then some nx else none := by
          split <;> simp_all
        rw [this]; exact hf)
    rcases this with h | h
    · rw [h]; exact Or.inl rfl
    · rw [h]
      cases element text.length (a.Go ic text) q false after s <;> exact .rfl

theorem elemsW_last (a : Atom) (q : Quant) (ha : AtomW nodes ic text a) : ElemsW nodes ic text (.last a q) := by
  intro lo hi i hok hrep
  unfold Elems.Ok at hok
  unfold RepElems at hrep
  obtain ⟨n, hn, hnx⟩ := repQ_node hrep
  constructor
  · have := headW ha hok.1 hok.2 hrep (after := nothing) (by rw [if_neg (by simp)]; exact follows_none)
    intro fuel nxt s h
    unfold Elems.Head
    exact this fuel nxt s h
  · intro x after fuel k s inAlt ch hf hch
    unfold Elems.Go
    have key := fun (h : inAlt = true → x = none) => elementW ha hok.1 hok.2 hrep (x := x) (inAlt := inAlt) (after := after)
      (fuel := fuel) (s := s) (by right; simp) h (by simp) (by rw [if_neg (by simp)]; exact hf)
    cases k with
    | zero => cases hch <;> exact Or.inl rfl
    | succ k =>
      cases hch with
      | seq =>
        rw [exprChain, nodeAt_eq hn, bind_ok]
        dsimp only
        rw [hnx, if_neg (by simp)]
        rcases key (by simp) with h | h
        · rw [h]; exact Or.inl rfl
        · rw [h]
          cases element text.length (a.Go ic text) q false after s <;> exact .rfl
      | alt hx =>
        subst hx
        rw [orChain]
        rcases key (by simp) with h | h
        · rw [h]; exact Or.inl rfl
        · rw [h]
          cases element text.length (a.Go ic text) q true after s with
          | beyond => exact .rfl
          | no => exact .rfl
          | upto j =>
            rw [show (Move.out (.upto j)) = .ok (some j) from rfl, bind_ok]
            dsimp only
            rw [nodeAt_eq hn, bind_ok, hnx, if_neg (by simp)]
            exact .rfl

theorem elemsW_more (a : Atom) (q : Quant) (es : Elems) (ha : AtomW nodes ic text a) (hes : ElemsW nodes ic text es) :
    ElemsW nodes ic text (.more a q es) := by
  intro lo hi i hok hrep
  unfold Elems.Ok at hok
  unfold RepElems at hrep
  obtain ⟨m, k', _, _, hq, hre⟩ := hrep
  obtain ⟨n, hn, hnx⟩ := repQ_node hq
  obtain ⟨e1, e2⟩ := hes hok.2.2.1 hre
  have hne : (k' : Int) ≠ -1 := by omega
  constructor
  · have := headW ha hok.1 hok.2.1 hq (after := es.Head ic text) (by rw [if_pos hne]; exact e1)
    intro fuel nxt s h
    unfold Elems.Head
    exact this fuel nxt s h
  · intro x after fuel k s inAlt ch hf hch
    unfold Elems.Go
    cases k with
    | zero => cases hch <;> exact Or.inl rfl
    | succ k =>
      cases hch with
      | seq =>
        rw [exprChain, nodeAt_eq hn, bind_ok]
        dsimp only
        rw [hnx, if_pos hne]
        have key := elementW ha hok.1 hok.2.1 hq (x := some (k' : Int)) (inAlt := false) (after := es.Head ic text)
          (fuel := fuel) (s := s) (by right; rw [if_pos hne]) (by simp) (by rw [if_pos hne]; simp) (by rw [if_pos hne]; exact e1)
        rcases key with h | h
        · rw [h]; exact Or.inl rfl
        · rw [h]
          cases element text.length (a.Go ic text) q false (es.Head ic text) s with
          | beyond => exact .rfl
          | no => exact .rfl
          | upto j =>
            rw [show (Move.out (.upto j)) = .ok (some j) from rfl, bind_ok]
            dsimp only
            rw [if_pos hne]
            exact e2 hf .seq
      | alt hx =>
        subst hx
        rw [orChain]
        have key := elementW ha hok.1 hok.2.1 hq (x := none) (inAlt := true) (after := es.Head ic text)
          (fuel := fuel) (s := s) (by left; rfl) (by simp) (by simp) (by rw [if_pos hne]; exact e1)
        rcases key with h | h
        · rw [h]; exact Or.inl rfl
        · rw [h]
          cases element text.length (a.Go ic text) q true (es.Head ic text) s with
          | beyond => exact .rfl
          | no => exact .rfl
          | upto j =>
            rw [show (Move.out (.upto j)) = .ok (some j) from rfl, bind_ok]
            dsimp only
            rw [nodeAt_eq hn, bind_ok, hnx, if_pos hne]
            exact e2 hf (.alt rfl)

theorem branchW {es : Elems} (hes : ElemsW nodes ic text es) {bol : Bool} (hok : es.Ok) {lo hi i : Nat}
    (hrep : RepBranch nodes (RepElems nodes es) bol lo hi i) {x : Option Int} {after : Nat → Move} {fuel k s : Nat}
    {inAlt : Bool} {ch : Nat → Int → Nat → M (Option Nat)} (hf : WalkNext nodes ic text x after)
    (hch : ChainW nodes (matchnode nodes ic text fuel) x inAlt ch) :
    Agrees (ch k i s) (if bol = true ∧ s ≠ 0 then Move.no else es.Go ic text inAlt after s).out := by
  unfold RepBranch at hrep
  split at hrep
  · rename_i hb
    obtain ⟨_, _, n, hn, ht, k', hk, hre⟩ := hrep
    have hne : n.next ≠ -1 := by rw [hk]; omega
    have hbol : ∀ f y, Agrees (matchnode nodes ic text f i s y) (.ok (if s = 0 then some s else none)) := by
      intro f y
      cases f with
      | zero => exact Or.inl rfl
      | succ f =>
        rw [matchnode, nodeAt_eq hn, bind_ok]
        dsimp only
        rw [ht]
        exact .rfl
    cases k with
    | zero => cases hch <;> exact Or.inl rfl
    | succ k =>
      have key : ∀ {k}, Agrees (ch k k' s) (es.Go ic text inAlt after s).out := fun {k} => (hes hok hre).2 hf hch
      by_cases h0 : s = 0
      · rw [if_neg (by simp [h0])]
        cases hch with
        | seq =>
          rw [exprChain, nodeAt_eq hn, bind_ok]
          dsimp only
          rcases hbol fuel (if n.next ≠ -1 then some n.next else x) with h | h
          · rw [h]; exact Or.inl rfl
          · rw [h, if_pos h0, bind_ok]
            dsimp only
            rw [if_pos hne, hk]
            exact key
        | alt hx =>
          rw [orChain]
          rcases hbol fuel none with h | h
          · rw [h]; exact Or.inl rfl
          · rw [h, if_pos h0, bind_ok]
            dsimp only
            rw [nodeAt_eq hn, bind_ok, if_pos hne, hk]
            exact key
      · rw [if_pos ⟨hb, h0⟩]
        cases hch with
        | seq =>
          rw [exprChain, nodeAt_eq hn, bind_ok]
          dsimp only
          rcases hbol fuel (if n.next ≠ -1 then some n.next else x) with h | h
          · rw [h]; exact Or.inl rfl
          · rw [h, if_neg h0, bind_ok]; exact .rfl
        | alt hx =>
          rw [orChain]
          rcases hbol fuel none with h | h
          · rw [h]; exact Or.inl rfl
          · rw [h, if_neg h0, bind_ok]; exact .rfl
  · rename_i hb
    rw [if_neg fun h => hb h.1]
    exact (hes hok hrep).2 hf hch

theorem reW_branch (bol : Bool) (es : Elems) (hes : ElemsW nodes ic text es) : ReW nodes ic text (.branch bol es) := by
  intro lo hi i x after fuel k s inAlt ch hok hrep hf hch
  unfold Re.Ok at hok
  unfold RepRe at hrep
  unfold Re.Go
  exact branchW hes hok.1 hrep hf hch

theorem reW_alt (bol : Bool) (es : Elems) (r : Re) (hes : ElemsW nodes ic text es) (hr : ReW nodes ic text r) :
    ReW nodes ic text (.alt bol es r) := by
  intro lo hi i x after fuel k s inAlt ch hok hrep hf hch
  unfold Re.Ok at hok
  unfold RepRe at hrep
  unfold Re.Go
  obtain ⟨n, hn, ht, hx, _, _, k1, k2, hk1, hk2, hb, hre⟩ := hrep
  have key : ∀ y, Agrees (matchnode nodes ic text fuel i s y) (((if bol = true ∧ s ≠ 0 then Move.no else es.Go ic text true nothing s).or
      (r.Go ic text true nothing s)).out) := by
    intro y
    cases fuel with
    | zero => exact Or.inl rfl
    | succ fuel =>
      rw [matchnode, nodeAt_eq hn, bind_ok]
      dsimp only
      rw [ht, hk1, hk2]
      dsimp only
      rcases branchW (fuel := fuel) (k := nodes.length + 1) (s := s) hes hok.1 hb follows_none (.alt rfl) with h | h
      · rw [h]; exact Or.inl rfl
      · rw [h]
        cases (if bol = true ∧ s ≠ 0 then Move.no else es.Go ic text true nothing s) with
        | beyond => exact .rfl
        | no => exact hr hok.2.1 hre follows_none (.alt rfl)
        | upto j => exact .rfl
  cases k with
  | zero => cases hch <;> exact Or.inl rfl
  | succ k =>
    cases hch with
    | seq =>
      rw [exprChain, nodeAt_eq hn, bind_ok]
      dsimp only
      rw [hx, if_neg (by simp)]
      rcases key x with h | h
      · rw [h]; exact Or.inl rfl
      · rw [h]
        cases ((if bol = true ∧ s ≠ 0 then Move.no else es.Go ic text true nothing s).or (r.Go ic text true nothing s)) <;> exact .rfl
    | alt h0 =>
      rw [orChain]
      rcases key none with h | h
      · rw [h]; exact Or.inl rfl
      · rw [h]
        cases ((if bol = true ∧ s ≠ 0 then Move.no else es.Go ic text true nothing s).or (r.Go ic text true nothing s)) with
        | beyond => exact .rfl
        | no => exact .rfl
        | upto j =>
          rw [show (Move.out (.upto j)) = .ok (some j) from rfl, bind_ok]
          dsimp only
          rw [nodeAt_eq hn, bind_ok, hx, if_neg (by simp)]
          exact .rfl

mutual
theorem atom_walk (nodes : List RNode) (ic : Bool) (text : CStr) : ∀ a : Atom, AtomW nodes ic text a
  | .chr l => atomW_chr l
  | .cls l => atomW_cls l
  | .any => atomW_any
  | .eol => atomW_eol
  | .edge neg => atomW_edge neg
  | .set neg x xs => atomW_set neg x xs
  | .group capture r => atomW_group capture r (re_walk nodes ic text r)
theorem elems_walk (nodes : List RNode) (ic : Bool) (text : CStr) : ∀ es : Elems, ElemsW nodes ic text es
  | .last a q => elemsW_last a q (atom_walk nodes ic text a)
  | .more a q es => elemsW_more a q es (atom_walk nodes ic text a) (elems_walk nodes ic text es)
theorem re_walk (nodes : List RNode) (ic : Bool) (text : CStr) : ∀ r : Re, ReW nodes ic text r
  | .branch bol es => reW_branch bol es (elems_walk nodes ic text es)
  | .alt bol es r => reW_alt bol es r (elems_walk nodes ic text es) (re_walk nodes ic text r)
end

/-- The matcher follows the walk. -/
theorem rexMatch_walk {r : Re} (hok : r.Ok) (hfit : r.Compiles) (text : CStr) : ∃ nodes : List RNode,
    rexCompile r.text = .ok (some nodes) ∧ rexMatch nodes ic text =
      (match r.Walk ic text with
      | .beyond => .error PastEnd
      | .no => .ok false
      | .upto j => .ok (decide (j = text.length))) := by
  rcases rexCompile_rep (E := False) hok (Or.inr hfit) with ⟨h, _⟩ | ⟨-, nodes, n, k, hc, h0, ht, hl, hx, hrep⟩
  · exact h.elim
  · refine ⟨nodes, hc, ?_⟩
    have hnf := rexMatch_not_fuel ic text hc
    unfold rexMatch at hnf ⊢
    obtain ⟨fl, hfl⟩ : ∃ fl, (nodes.length + 1) * (nodes.length + 1) = fl + 1 := ⟨_, (Nat.succ_pred (by positivity)).symm⟩
    have h0' : nodeAt nodes 0 = .ok n := nodeAt_eq (i := 0) h0
    rw [hfl, matchnode, h0', bind_ok] at hnf ⊢
    dsimp only at hnf ⊢
    rw [ht, hl] at hnf ⊢
    rcases re_walk nodes ic text r (fuel := fl) (k := nodes.length + 1) (s := 0) hok hrep follows_none .seq with h | h
    · rw [h] at hnf; exact absurd rfl hnf
    · dsimp only at hnf ⊢
      rw [h]
      unfold Re.Walk
      cases r.Go ic text false nothing 0 with
      | beyond => rfl
      | no => rfl
      | upto j =>
        show Except.ok _ = Except.ok _
        congr 1
        simp

end

/-! ### other ways to write a pattern -/

theorem long_allows (q : Quant) (n : Nat) : q.long.Allows n ↔ q.Allows n := by
  cases q with
  | once => exact Iff.rfl
  | star => show 0 ≤ n ↔ True; simp
  | plus => exact Iff.rfl
  | opt => show 0 ≤ n ∧ n ≤ 1 ↔ n ≤ 1; simp
  | exactly k => show k ≤ n ∧ n ≤ k ↔ n = k; omega
  | atLeast k => exact Iff.rfl
  | between k m => exact Iff.rfl
  | raw lo hi => exact Iff.rfl

theorem long_most (q : Quant) : q.long.most = q.most := by cases q <;> rfl

theorem long_once (q : Quant) : q.long = .once ↔ q = .once := by cases q <;> simp [Quant.long]

theorem long_stopped (q : Quant) (n i : Nat) : stopped q.long n i = stopped q n i := by
  unfold stopped
  by_cases h : q.Allows n
  · rw [if_pos h, if_pos ((long_allows q n).2 h)]
  · rw [if_neg h, if_neg (mt (long_allows q n).1 h)]

theorem long_pieces (len : Nat) (q : Quant) (piece after : Nat → Move) : ∀ k n i : Nat,
    pieces len q.long piece after k n i = pieces len q piece after k n i := by
  intro k
  induction k with
  | zero => intro n i; exact long_stopped q n i
  | succ k ih =>
    intro n i
    unfold pieces
    cases piece i with
    | beyond => rfl
    | no => exact long_stopped q n i
    | upto j =>
      dsimp only
      cases after j with
      | beyond => rfl
      | no => dsimp only; rw [long_stopped, ih]
      | upto _ =>
        dsimp only
        rw [long_stopped, ih]
        by_cases h : q.Allows (n + 1) ∨ len ≤ j
        · rw [if_pos h, if_pos (by rw [long_allows]; exact h)]
        · rw [if_neg h, if_neg (by rw [long_allows]; exact h)]

theorem long_element (len : Nat) (f : (Nat → Move) → Nat → Move) (q : Quant) (inAlt : Bool) (after : Nat → Move) (i : Nat) :
    element len f q.long inAlt after i = element len f q inAlt after i := by
  unfold element
  by_cases h : q = .once
  · rw [if_pos h, if_pos ((long_once q).2 h)]
  · rw [if_neg h, if_neg (mt (long_once q).1 h), long_pieces, long_most]

theorem bare_has (ic : Bool) (x : SetItem) (c : Char) : x.bare.Has ic c ↔ x.Has ic c := by
  cases x <;> exact Iff.rfl

theorem single_go {r : Re} {a : Atom} (h : r.single = some a) (ic : Bool) (text : CStr) (after : Nat → Move) (i : Nat) :
    a.Go ic text after i = r.Go ic text false after i := by
  cases r with
  | alt bol es r => cases h
  | branch bol es =>
    cases bol with
    | true => cases h
    | false =>
      cases es with
      | more a q es => cases h
      | last b q =>
        cases q <;> cases h
        unfold Re.Go Elems.Go element
        rfl

mutual
theorem plain_atom (ic : Bool) (text : CStr) : ∀ a : Atom, a.plain.Go ic text = a.Go ic text
  | .chr l => by funext after i; unfold Atom.plain Atom.Go; rfl
  | .cls l => by unfold Atom.plain; rfl
  | .any => by unfold Atom.plain; rfl
  | .eol => by unfold Atom.plain; rfl
  | .edge neg => by unfold Atom.plain; rfl
  | .set neg x xs => by
    funext after i
    unfold Atom.plain Atom.Go
    have : ∀ c, (∃ y ∈ x.bare :: xs.map SetItem.bare, y.Has ic c) ↔ ∃ y ∈ x :: xs, y.Has ic c := by
      intro c
      rw [← List.map_cons]
      simp only [List.mem_map, exists_exists_and_eq_and, bare_has]
    simp only [this]
  | .group capture r => by
    funext after i
    unfold Atom.plain
    have ih := plain_re ic text r
    have h1 : (Atom.group capture r).Go ic text after i = r.plain.Go ic text false after i := by
      rw [ih]; unfold Atom.Go; rfl
    rw [h1]
    cases hs : r.plain.single with
    | some a => exact single_go hs ic text after i
    | none =>
      show (Atom.group false r.plain).Go ic text after i = _
      unfold Atom.Go
      rfl
theorem plain_elems (ic : Bool) (text : CStr) : ∀ es : Elems, es.plain.Go ic text = es.Go ic text ∧ es.plain.Head ic text = es.Head ic text
  | .last a q => by
    constructor
    · funext inAlt after i
      unfold Elems.plain Elems.Go
      rw [plain_atom ic text a, long_element]
    · funext i
      unfold Elems.plain Elems.Head
      rw [plain_atom ic text a, long_element]
      by_cases h : q.Allows 0
      · rw [if_pos h, if_pos ((long_allows q 0).2 h)]
      · rw [if_neg h, if_neg (mt (long_allows q 0).1 h)]
  | .more a q es => by
    have ih := plain_elems ic text es
    constructor
    · funext inAlt after i
      unfold Elems.plain Elems.Go
      rw [plain_atom ic text a, long_element, ih.1, ih.2]
    · funext i
      unfold Elems.plain Elems.Head
      rw [plain_atom ic text a, long_element, ih.2]
      by_cases h : q.Allows 0
      · rw [if_pos h, if_pos ((long_allows q 0).2 h)]
      · rw [if_neg h, if_neg (mt (long_allows q 0).1 h)]
theorem plain_re (ic : Bool) (text : CStr) : ∀ r : Re, r.plain.Go ic text = r.Go ic text
  | .branch bol es => by
    funext inAlt after i
    unfold Re.plain Re.Go
    rw [(plain_elems ic text es).1]
  | .alt bol es r => by
    funext inAlt after i
    unfold Re.plain Re.Go
    rw [(plain_elems ic text es).1, plain_re ic text r]
end

theorem walk_plain {r r' : Re} (h : r.plain = r'.plain) (ic : Bool) (text : CStr) : r.Walk ic text = r'.Walk ic text := by
  unfold Re.Walk
  rw [← plain_re ic text r, ← plain_re ic text r', h]

end Argtable
