import Verif.Proofs.RexCompile
/-!
# The regular expression matcher

On a properly laid out node array the matcher terminates within its fuel, touches only existing nodes,
and the only fault possible is reading the text past its end.
-/

namespace Argtable
open Spec

/-- The only fault of the matcher. -/
def PastEnd : Fault := .ub "read past the end of the text"

/-- Outcome of a matching function: `Q` of the result, or, unless `P`, the fault `PastEnd`. -/
def MPost {α : Type} (P : Prop) (Q : α → Prop) : M α → Prop
  | .ok a => Q a
  | .error f => f = PastEnd ∧ ¬ P

theorem MPost.bind {α β : Type} {P : Prop} {Q : α → Prop} {R : β → Prop} {x : M α} {f : α → M β}
    (h : MPost P Q x) (hf : ∀ a, Q a → MPost P R (f a)) : MPost P R (x >>= f) := by
  cases x with
  | error e => exact h
  | ok a => exact hf a h

theorem MPost.mono {α : Type} {P : Prop} {Q R : α → Prop} {x : M α} (h : MPost P Q x)
    (hqr : ∀ a, Q a → R a) : MPost P R x := by
  cases x with
  | error e => exact h
  | ok a => exact hqr a h

theorem MPost.ite {α : Type} {P : Prop} {Q : α → Prop} {c : Prop} [Decidable c] {x y : M α}
    (h1 : c → MPost P Q x) (h2 : ¬ c → MPost P Q y) : MPost P Q (if c then x else y) := by
  split
  · exact h1 ‹_›
  · exact h2 ‹_›

/-- A position that, if `P`, is inside the text. -/
def InText (P : Prop) (text : CStr) : Option Nat → Prop
  | none => True
  | some s => P → s ≤ text.length

theorem nodeAt_eq {nodes : List RNode} {i : Nat} {n : RNode} (h : nodes[i]? = some n) :
    nodeAt nodes (i : Int) = .ok n := by
  unfold nodeAt
  rw [if_neg (by omega)]
  simp only [Int.toNat_natCast, h]

theorem textAt_post {P : Prop} {text : CStr} {pos : Nat} (h : P → pos ≤ text.length) :
    MPost P (fun c => P → pos < text.length ∨ (pos = text.length ∧ c = '\x00')) (textAt text pos) := by
  unfold textAt
  refine MPost.ite (fun h1 _ => Or.inl h1) fun h1 => ?_
  refine MPost.ite (fun h2 _ => Or.inr ⟨h2, rfl⟩) fun h2 => ?_
  exact ⟨rfl, fun hP => by have := h hP; omega⟩

theorem case_range {d : Char} (h : 0 < d.toNat ∧ d.toNat < 128) :
    (0 < (toLower d).toNat ∧ (toLower d).toNat < 128) ∧
    (0 < (toUpper d).toNat ∧ (toUpper d).toNat < 128) := by
  have key : ∀ n : Fin 128, 0 < n.val →
      (0 < (toLower (Char.ofNat n.val)).toNat ∧ (toLower (Char.ofNat n.val)).toNat < 128) ∧
      (0 < (toUpper (Char.ofNat n.val)).toNat ∧ (toUpper (Char.ofNat n.val)).toNat < 128) := by
    decide
  have := key ⟨d.toNat, h.2⟩ h.1
  simpa [Char.ofNat_toNat] using this

theorem ne_nul {d : Char} (h : 0 < d.toNat) : ('\x00' : Char) ≠ d := by
  rintro rfl
  exact absurd h (by decide)

theorem charInt_pos {d : Char} (h : 0 < d.toNat ∧ d.toNat < 128) : 0 < charInt d := by
  unfold charInt
  rw [if_pos h.2]
  omega

theorem classItem_safe {n : RNode} (h : SafeNode n) (icase : Bool) :
    classItem icase n '\x00' = false := by
  unfold SafeNode at h
  unfold classItem
  split
  · rename_i ht
    rw [ht] at h
    simp only at h
    rcases h with ⟨h1, h2⟩ | ⟨h1, h2⟩
    · rw [h1, h2]
      cases icase <;> decide
    · have hr : 0 < (intChar n.left).toNat ∧ (intChar n.left).toNat < 128 := by
        unfold intChar
        rw [if_neg (by omega)]
        have h3 : n.left.toNat < 128 := by omega
        have h4 : 0 < n.left.toNat := by omega
        generalize n.left.toNat = k at h3 h4
        have key : ∀ k : Fin 128, 0 < k.val →
            0 < (Char.ofNat k.val).toNat ∧ (Char.ofNat k.val).toNat < 128 := by decide
        exact key ⟨k, h3⟩ h4
      have h0 : charInt '\x00' = 0 := by decide
      have hc := case_range hr
      have h3 := charInt_pos hc.1
      have h4 := charInt_pos hc.2
      cases icase
      · simp only [Bool.false_eq_true, if_false, decide_eq_false_iff_not]
        rw [h0]; omega
      · simp only [if_true, decide_eq_false_iff_not]
        rw [h0]; omega
  · rename_i ht
    rw [ht] at h
    exact h
  · rename_i d ht
    rw [ht] at h
    simp only at h
    have hc := case_range h
    cases icase
    · simp only [Bool.false_eq_true, if_false, decide_eq_false_iff_not]
      exact ne_nul h.1
    · simp only [if_true, decide_eq_false_iff_not]
      rintro (h | h)
      · exact ne_nul hc.1.1 h
      · exact ne_nul hc.2.1 h
  · rfl

theorem matchclass_post {nodes : List RNode} {P : Prop} (icase : Bool) (c : Char)
    (hsafe : P → AllSafe nodes) {hi lo k : Nat} (h : Items nodes hi lo k) :
    ∀ fuel, hi - lo ≤ fuel → MPost P (fun b => P → c = '\x00' → b = false)
      (matchclass nodes icase c fuel k) := by
  induction h with
  | last h1 h2 h3 h4 =>
    intro fuel hf
    obtain ⟨fuel, rfl⟩ : ∃ f, fuel = f + 1 := ⟨fuel - 1, by omega⟩
    rw [matchclass, nodeAt_eq h3]
    show MPost P _ (if _ then _ else _)
    refine MPost.ite (fun hi => ?_) fun _ => ?_
    · intro hP hc
      rw [hc, classItem_safe (hsafe hP _ (List.mem_of_getElem? h3))] at hi
      exact absurd hi (by decide)
    · rw [if_neg (by rw [h4]; decide)]
      intro _ _; rfl
  | cons h1 h2 h3 h4 h5 ih =>
    intro fuel hf
    have hb := h5.bounds
    obtain ⟨fuel, rfl⟩ : ∃ f, fuel = f + 1 := ⟨fuel - 1, by omega⟩
    rw [matchclass, nodeAt_eq h3]
    show MPost P _ (if _ then _ else _)
    refine MPost.ite (fun hi => ?_) fun _ => ?_
    · intro hP hc
      rw [hc, classItem_safe (hsafe hP _ (List.mem_of_getElem? h3))] at hi
      exact absurd hi (by decide)
    · rw [if_pos (by rw [h4]; omega), h4]
      exact ih fuel (by omega)

/-! ### the main induction -/

/-- What the `next` argument of `trex_matchnode` can be for the head `i` of a chain that occupies the
nodes up to `hi`.  `c` says how much may still be descended: `c - lo` bounds the depth of the call for
a chain that begins at `lo`. -/
def NextOK (nodes : List RNode) (c hi i : Nat) (x : Option Int) : Prop :=
  x = none ∨ (∃ n j, nodes[i]? = some n ∧ n.next = ((j : Nat) : Int) ∧ x = some (j : Int)) ∨
  (∃ (lo' hi' j c' : Nat), hi ≤ lo' ∧ hi' ≤ c' ∧ c' + hi ≤ c + lo' ∧ Seg nodes true lo' hi' j ∧ x = some (j : Int))

/-- The claim about `trex_matchnode` with some amount of fuel. -/
def MatchOK (nodes : List RNode) (icase : Bool) (text : CStr) (P : Prop) (fuel : Nat) : Prop :=
  ∀ (lo hi c i : Nat) (str : Nat) (x : Option Int), Seg nodes true lo hi i → hi ≤ c → NextOK nodes c hi i x →
    c ≤ fuel + lo → (P → str ≤ text.length) →
    MPost P (InText P text) (matchnode nodes icase text fuel i str x)

/-- The same, for every chain that needs less depth than `c0 - lo0`. -/
def SubOK (nodes : List RNode) (text : CStr) (P : Prop) (m : Matcher) (lo0 c0 : Nat) : Prop :=
  ∀ (lo hi c i : Nat) (str : Nat) (x : Option Int), Seg nodes true lo hi i → hi ≤ c → NextOK nodes c hi i x →
    c + lo0 < c0 + lo → (P → str ≤ text.length) →
    MPost P (InText P text) (m i str x)

theorem MatchOK.sub {nodes : List RNode} {icase : Bool} {text : CStr} {P : Prop} {fuel lo0 c0 : Nat}
    (h : MatchOK nodes icase text P fuel) (hf : c0 ≤ fuel + 1 + lo0) :
    SubOK nodes text P (matchnode nodes icase text fuel) lo0 c0 := by
  intro lo hi c i str x hs hc hx hlt hp
  exact h lo hi c i str x hs hc hx (by omega) hp

/-- The head of a chain and what its `next` says. -/
theorem Seg.head {nodes : List RNode} {lo hi i : Nat} (h : Seg nodes true lo hi i) :
    ∃ n m, nodes[i]? = some n ∧ Seg nodes false lo m i ∧ m ≤ hi ∧
      ((n.next = -1 ∧ m = hi) ∨ ∃ j : Nat, n.next = (j : Int) ∧ Seg nodes true m hi j) := by
  cases h with
  | last h1 h2 h3 => exact ⟨_, _, h2, h1, Nat.le_refl _, Or.inl ⟨h3, rfl⟩⟩
  | cons h1 h2 h3 h4 =>
    have := h4.bounds
    exact ⟨_, _, h2, h1, by omega, Or.inr ⟨_, h3, h4⟩⟩

theorem orChain_post {nodes : List RNode} {text : CStr} {P : Prop} {m : Matcher} {lo0 c0 : Nat}
    (hm : SubOK nodes text P m lo0 c0) :
    ∀ (k lo hi c i str : Nat), Seg nodes true lo hi i → hi ≤ c → c + lo0 < c0 + lo →
      hi - lo ≤ k → (P → str ≤ text.length) →
      MPost P (InText P text) (orChain nodes m k i str) := by
  intro k
  induction k with
  | zero => intro lo hi c i str hs _ _ hk; have := hs.bounds; omega
  | succ k ih =>
    intro lo hi c i str hs hc hlt hk hp
    rw [orChain]
    refine MPost.bind (hm lo hi c i str none hs hc (Or.inl rfl) hlt hp) ?_
    intro r hr
    cases r with
    | none => trivial
    | some s =>
      obtain ⟨n, m', h1, h2, h3, h4⟩ := hs.head
      dsimp only
      rw [nodeAt_eq h1]
      show MPost P _ (if _ then _ else _)
      have hb := h2.bounds
      rcases h4 with ⟨h4, _⟩ | ⟨j, h4, h5⟩
      · rw [if_neg (by rw [h4]; decide)]
        exact hr
      · rw [if_pos (by rw [h4]; omega), h4]
        exact ih m' hi c j s h5 hc (by omega) (by omega) hr

theorem exprChain_post {nodes : List RNode} {text : CStr} {P : Prop} {m : Matcher} {lo0 c0 : Nat}
    (hm : SubOK nodes text P m lo0 c0) {x : Option Int} {c hi : Nat} (hc : hi ≤ c)
    (hx : x = none ∨ ∃ (lo' hi' j c' : Nat), hi ≤ lo' ∧ hi' ≤ c' ∧ c' + hi ≤ c + lo' ∧ Seg nodes true lo' hi' j ∧ x = some (j : Int)) :
    ∀ (k lo i str : Nat), Seg nodes true lo hi i → c + lo0 < c0 + lo →
      hi - lo ≤ k → (P → str ≤ text.length) →
      MPost P (InText P text) (exprChain nodes m x k i str) := by
  intro k
  induction k with
  | zero => intro lo i str hs _ hk; have := hs.bounds; omega
  | succ k ih =>
    intro lo i str hs hlt hk hp
    obtain ⟨n, m', h1, h2, h3, h4⟩ := hs.head
    have hb := h2.bounds
    rw [exprChain, nodeAt_eq h1]
    show MPost P _ (m i str _ >>= _)
    rcases h4 with ⟨h4, _⟩ | ⟨j, h4, h5⟩
    · rw [if_neg (by rw [h4]; decide)]
      refine MPost.bind (hm lo hi c i str x hs hc ?_ hlt hp) ?_
      · rcases hx with hx | hx
        · exact Or.inl hx
        · exact Or.inr (Or.inr hx)
      · intro r hr
        cases r with
        | none => trivial
        | some s =>
          dsimp only
          rw [if_neg (by rw [h4]; decide)]
          exact hr
    · have hne : n.next ≠ -1 := by rw [h4]; omega
      rw [if_pos hne]
      refine MPost.bind (hm lo hi c i str (some n.next) hs hc
        (Or.inr (Or.inl ⟨n, j, h1, h4, by rw [h4]⟩)) hlt hp) ?_
      intro r hr
      cases r with
      | none => trivial
      | some s =>
        dsimp only
        rw [if_pos hne, h4]
        exact ih m' j s h5 (by omega) (by omega) hr

/-- The `greedystop` of a greedy node and its own `next` argument. -/
structure StopOK (nodes : List RNode) (c0 e : Nat) (g x : Option Int) : Prop where
  ok : g = none ∨ ∃ (lo hi j c : Nat), e ≤ lo ∧ hi ≤ c ∧ c + e ≤ c0 + lo ∧ Seg nodes true lo hi j ∧ g = some (j : Int) ∧
    ∃ n, nodes[j]? = some n ∧ (n.next = -1 →
      x = none ∨ x = g ∨ ∃ (lo' hi' j' c' : Nat), hi ≤ lo' ∧ hi' ≤ c' ∧ c' + hi ≤ c + lo' ∧ Seg nodes true lo' hi' j' ∧
        x = some (j' : Int))

theorem greedyStopTest_post {nodes : List RNode} {text : CStr} {P : Prop} {m : Matcher}
    {lo0 c0 e : Nat} (hm : SubOK nodes text P m lo0 c0) {g x : Option Int}
    (hg : StopOK nodes c0 e g x) (he : lo0 < e) {s : Nat} (hp : P → s ≤ text.length) :
    MPost P (fun _ => True) (greedyStopTest nodes m g x s) := by
  unfold greedyStopTest
  rcases hg.ok with rfl | ⟨lo, hi, j, c, h1, hc, hd, h2, rfl, n, h3, h4⟩
  · trivial
  · dsimp only
    rw [nodeAt_eq h3]
    show MPost P _ (if _ then _ else _)
    refine MPost.ite (fun _ => ?_) (fun _ => trivial)
    refine MPost.bind (Q := fun y : Option Int => NextOK nodes c hi j y) ?_ ?_
    · unfold greedyNext
      refine MPost.ite (fun hne => ?_) (fun hne => ?_)
      · obtain ⟨n', m', k1, k2, k3, k4⟩ := h2.head
        rw [h3] at k1; cases k1
        rcases k4 with ⟨k4, _⟩ | ⟨j', k4, k5⟩
        · exact absurd k4 hne
        · exact Or.inr (Or.inl ⟨n, j', h3, k4, by rw [k4]⟩)
      · simp only [ne_eq, not_not] at hne
        rcases h4 hne with rfl | rfl | ⟨lo', hi', j', c', q1, qc, qd, q2, rfl⟩
        · exact Or.inl rfl
        · dsimp only
          rw [nodeAt_eq h3]
          show MPost P _ (Except.ok (if _ then _ else _))
          rw [if_neg (by rw [hne]; decide)]
          exact Or.inl rfl
        · obtain ⟨n', m', k1, k2, k3, k4⟩ := q2.head
          dsimp only
          rw [nodeAt_eq k1]
          show MPost P _ (Except.ok (if _ then _ else _))
          rcases k4 with ⟨k4, _⟩ | ⟨j'', k4, k5⟩
          · rw [if_neg (by rw [k4]; decide)]
            exact Or.inl rfl
          · rw [if_pos (by rw [k4]; omega), k4]
            have := k2.bounds
            exact Or.inr (Or.inr ⟨m', hi', j'', c', by omega, qc, by omega, k5, rfl⟩)
    · intro y hy
      refine MPost.bind (hm lo hi c j s y h2 hc hy (by omega) hp) ?_
      intro r _
      trivial

theorem greedyLoop_post {nodes : List RNode} {text : CStr} {P : Prop} {m : Matcher}
    {lo0 i0 c0 : Nat} (hm : SubOK nodes text P m lo0 c0) {l : Nat} (hl : Seg nodes true lo0 i0 l) (hi0 : i0 < c0)
    {g x : Option Int} (hg : StopOK nodes c0 (i0 + 1) g x) {p0 p1 : Nat} (hp1 : p1 ≤ 65535) :
    ∀ (k nm s good : Nat), nm ≤ 65536 → 65537 - nm ≤ k → (P → s ≤ text.length) →
      (P → good ≤ text.length) →
      MPost P (fun r : Nat × Nat => P → r.2 ≤ text.length)
        (greedyLoop nodes text.length m p0 p1 l g x k nm s good) := by
  have hb := hl.bounds
  have hgn : NextOK nodes (c0 - 1) i0 l g := by
    rcases hg.ok with h | ⟨lo, hi, j, c, h1, hc, hd, h2, h3, _⟩
    · exact Or.inl h
    · exact Or.inr (Or.inr ⟨lo, hi, j, c, by omega, hc, by omega, h2, h3⟩)
  intro k
  induction k with
  | zero => intro nm s good h1 h2; omega
  | succ k ih =>
    intro nm s good h1 h2 hs hgood
    rw [greedyLoop]
    refine MPost.ite (fun hc => ?_) (fun _ => hgood)
    refine MPost.bind (hm lo0 i0 (c0 - 1) l s g hl (by omega) hgn (by omega) hs) ?_
    intro r hr
    cases r with
    | none => exact hgood
    | some s' =>
      have hr : P → s' ≤ text.length := hr
      dsimp only
      refine MPost.bind (greedyStopTest_post hm hg (by omega) hr) ?_
      intro stop _
      refine MPost.ite (fun _ => hr) fun _ => ?_
      refine MPost.ite (fun _ => hr) fun _ => ?_
      exact ih (nm + 1) s' s' (by omega) (by omega) hr hr

theorem RNode.p1_le (n : RNode) : n.p1 ≤ 65535 := by
  unfold RNode.p1
  omega

theorem matchnode_ok {nodes : List RNode} {icase : Bool} {text : CStr} {P : Prop}
    (hsafe : P → AllSafe nodes) : ∀ fuel, MatchOK nodes icase text P fuel := by
  intro fuel
  induction fuel with
  | zero => intro lo hi c i str x hs hc _ h; have := hs.bounds; omega
  | succ fuel ih =>
    intro lo hi c i str x hs hc hx hf hp
    obtain ⟨n, e, h1, h2, h3, h4⟩ := hs.head
    have hb := h2.bounds
    have hsub := ih.sub (lo0 := lo) (c0 := c) hf
    rw [matchnode, nodeAt_eq h1]
    refine MPost.bind (Q := fun r => r = n) rfl ?_
    intro n' hn'
    rw [hn']
    clear hn' n'
    dsimp only
    -- where what follows this element begins
    have hx' : x = none ∨ ∃ (lo' hi' j c' : Nat), e ≤ lo' ∧ hi' ≤ c' ∧ c' + e ≤ c + lo' ∧ Seg nodes true lo' hi' j ∧
        x = some (j : Int) := by
      rcases hx with hx | ⟨n', j, q1, q2, q3⟩ | ⟨lo', hi', j, c', q1, qc, qd, q2, q3⟩
      · exact Or.inl hx
      · rw [h1] at q1; cases q1
        rcases h4 with ⟨h4, _⟩ | ⟨j', h4, h5⟩
        · rw [q2] at h4; omega
        · rw [q2] at h4
          have : j = j' := by omega
          subst this
          exact Or.inr ⟨e, hi, j, c, Nat.le_refl _, hc, Nat.le_refl _, h5, q3⟩
      · exact Or.inr ⟨lo', hi', j, c', by omega, qc, by omega, q2, q3⟩
    have hsn : P → SafeNode n := fun hP => hsafe hP n (List.mem_of_getElem? h1)
    cases h2 with
    | leaf k1 k2 =>
      rw [h1] at k1; cases k1
      cases ht : n.type <;> rw [ht] at k2 <;> try cases k2
      · rename_i d
        dsimp only
        refine MPost.bind (textAt_post hp) ?_
        intro c hc
        have hend : P → (0 < d.toNat ∧ d.toNat < 128) := fun hP => by
          have := hsn hP; unfold SafeNode at this; rw [ht] at this; exact this
        refine MPost.ite (fun _ => ?_) (fun _ => ?_)
        · show InText P text (if _ then _ else _)
          split
          · trivial
          · rename_i hne
            intro hP
            rcases hc hP with hc | ⟨hc1, hc2⟩
            · exact hc
            · exfalso
              have := case_range (hend hP)
              exact hne ⟨by rw [hc2]; exact ne_nul this.1.1, by rw [hc2]; exact ne_nul this.2.1⟩
        · show InText P text (if _ then _ else _)
          split
          · trivial
          · rename_i hne
            intro hP
            rcases hc hP with hc | ⟨hc1, hc2⟩
            · exact hc
            · exfalso
              simp only [ne_eq, not_not] at hne
              exact ne_nul (hend hP).1 (by rw [← hc2]; exact hne)
      · dsimp only
        intro hP
        have := hsn hP; unfold SafeNode at this; rw [ht] at this; exact this.elim
      · dsimp only
        refine MPost.bind (textAt_post hp) ?_
        intro c hc
        show InText P text (if _ then _ else _)
        split
        · rename_i hm
          intro hP
          rcases hc hP with hc | ⟨hc1, hc2⟩
          · exact hc
          · have := hsn hP; unfold SafeNode at this; rw [ht] at this
            simp only at this
            rw [hc2, this] at hm
            cases hm
        · trivial
      · trivial
      · dsimp only
        show InText P text (if _ then _ else _)
        split
        · exact hp
        · trivial
      · dsimp only
        show InText P text (if _ then _ else _)
        split
        · exact hp
        · trivial
      · dsimp only
        have hnP : ¬ P := fun hP => by
          have := hsn hP; unfold SafeNode at this; rw [ht] at this; exact this
        refine MPost.bind (Q := fun _ => True) ?_ ?_
        · have hta : ∀ k, MPost P (fun _ => True) (textAt text k) := fun k =>
            (textAt_post (P := P) (pos := k) (fun h => absurd h hnP)).mono fun _ _ => trivial
          unfold wordBoundary
          refine MPost.bind (hta _) fun c _ => ?_
          refine MPost.ite (fun _ => trivial) fun _ => ?_
          refine MPost.bind (Q := fun _ => True) ?_ fun b _ => ?_
          · unfold wordEnd
            refine MPost.ite (fun _ => ?_) (fun _ => trivial)
            exact MPost.bind (hta _) fun _ _ => trivial
          · refine MPost.ite (fun _ => trivial) fun _ => ?_
            exact MPost.bind (hta _) fun _ _ => trivial
        · intro b _
          refine MPost.ite (fun _ => ?_) (fun _ => ?_)
          · show InText P text (if _ then _ else _)
            split
            · exact hp
            · trivial
          · show InText P text (if _ then _ else _)
            split
            · trivial
            · exact hp
    | cls k1 k2 k3 k4 k5 =>
      rw [h1] at k1; cases k1
      rename_i k
      have hk : ∀ c, MPost P (fun b => P → c = '\x00' → b = false)
          (matchclass nodes icase c (nodes.length + 1) n.left) := fun c => by
        rw [k3]; exact matchclass_post icase c hsafe k4 _ (by omega)
      rcases k2 with ht | ht
      · rw [ht]
        dsimp only
        refine MPost.bind (textAt_post hp) fun c hc => ?_
        refine MPost.bind (hk c) fun b hb => ?_
        show InText P text (if _ then _ else _)
        split
        · rename_i hbt
          intro hP
          rcases hc hP with hc | ⟨hc1, hc2⟩
          · exact hc
          · rw [hb hP hc2] at hbt; cases hbt
        · trivial
      · have hnP : ¬ P := fun hP => by
          have := hsn hP; unfold SafeNode at this; rw [ht] at this; exact this
        rw [ht]
        dsimp only
        refine MPost.bind (textAt_post hp) fun c hc => ?_
        refine MPost.bind (hk c) fun b hb => ?_
        show InText P text (if _ then _ else _)
        split
        · trivial
        · exact fun hP => absurd hP hnP
    | expr k1 k2 k3 k4 =>
      rw [h1] at k1; cases k1
      have := exprChain_post hsub (c := c) (by omega) hx' (nodes.length + 1) (lo + 1) _ str k4 (by omega)
        (by omega) hp
      rcases k2 with ht | ht <;> rw [ht] <;> dsimp only <;> rw [k3] <;> exact this
    | greedy k1 k2 k3 k4 =>
      rw [h1] at k1; cases k1
      rw [k2]
      dsimp only
      rw [k3]
      have hstop : StopOK nodes c (i + 1) (if n.next ≠ -1 then some n.next else x) x := by
        constructor
        rcases h4 with ⟨h4, h5⟩ | ⟨j, h4, h5⟩
        · rw [if_neg (by rw [h4]; decide)]
          rcases hx' with hx' | ⟨lo', hi', j, c', q1, qc, qd, q2, q3⟩
          · exact Or.inl hx'
          · obtain ⟨n', m', r1, _⟩ := q2.head
            exact Or.inr ⟨lo', hi', j, c', q1, qc, qd, q2, q3, n', r1, fun _ => Or.inr (Or.inl rfl)⟩
        · rw [if_pos (by rw [h4]; omega)]
          obtain ⟨n', m', r1, _⟩ := h5.head
          refine Or.inr ⟨i + 1, hi, j, c, Nat.le_refl _, hc, Nat.le_refl _, h5, by rw [h4], n', r1, ?_⟩
          intro _
          rcases hx with hx | ⟨n'', j', q1, q2, q3⟩ | ⟨lo', hi', j', c', q1, qc, qd, q2, q3⟩
          · exact Or.inl hx
          · rw [h1] at q1; cases q1
            exact Or.inr (Or.inl (by rw [q3, q2]))
          · exact Or.inr (Or.inr ⟨lo', hi', j', c', q1, qc, qd, q2, q3⟩)
      refine MPost.bind (greedyLoop_post hsub k4 (by omega) hstop n.p1_le 65537 0 str str (by omega) (by omega) hp hp) ?_
      rintro ⟨nm, good⟩ hgood
      dsimp only
      refine MPost.ite (fun _ => hgood) (fun _ => trivial)
    | or k1 k2 k3 k4 k5 k6 =>
      rw [h1] at k1; cases k1
      rw [k2]
      dsimp only
      rw [k3, k4]
      have hb5 := k5.bounds
      have hb6 := k6.bounds
      refine MPost.bind (orChain_post hsub (nodes.length + 1) lo i (c - 1) _ str k5
        (by omega) (by omega) (by omega) hp) ?_
      intro r hr
      cases r with
      | some s => exact hr
      | none =>
        exact orChain_post hsub (nodes.length + 1) (i + 1) _ c _ str k6
          (by omega) (by omega) (by omega) hp

/-- `trex_match` on compiled nodes. -/
theorem rexMatch_post {nodes : List RNode} (icase : Bool) (text : CStr) {P : Prop}
    (hs : Seg nodes true 0 nodes.length 0) (hsafe : P → AllSafe nodes) :
    MPost P (fun _ => True) (rexMatch nodes icase text) := by
  unfold rexMatch
  refine MPost.bind (matchnode_ok hsafe _ 0 nodes.length nodes.length 0 0 none hs (Nat.le_refl _) (Or.inl rfl) ?_
    (fun _ => Nat.zero_le _)) fun _ _ => trivial
  rw [Nat.add_mul nodes.length 1 (nodes.length + 1)]
  omega

/-- Matching with the result of a successful compilation never runs out of fuel. -/
theorem rexMatch_not_fuel {pattern : CStr} {nodes : List RNode} (icase : Bool) (text : CStr)
    (hc : rexCompile pattern = .ok (some nodes)) : rexMatch nodes icase text ≠ .error .fuel := by
  have hne : pattern ≠ [] := by rintro rfl; cases hc
  have h := rexCompile_post hne
  rw [hc] at h
  have h2 := rexMatch_post (P := False) icase text h.1 (fun h => h.elim)
  intro he
  rw [he] at h2
  cases h2.1

end Argtable
