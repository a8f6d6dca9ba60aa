import Verif.Spec.RegexDet
import Verif.Proofs.RegexMatch
/-!
# Deterministic patterns are matched exactly
-/

namespace Argtable
open Spec

/-! ### matching stays inside the text -/

/-- What the matcher needs to know about the nodes it visits, for a set of nodes `S` closed under links. -/
def CleanNode (nodes : List RNode) (ic : Bool) (S : Int → Prop) (n : RNode) : Prop :=
  (n.next = -1 ∨ S n.next) ∧
  match n.type with
  | .greedy => S n.left
  | .or => S n.left ∧ S n.right
  | .expr => S n.left
  | .nocap => S n.left
  | .bol => True
  | .eol => True
  | .char c => 0 < c.toNat
  | .ccls => matchcclass (intChar n.left) '\x00' = false
  | .cls => ∀ fuel b, matchclass nodes ic '\x00' fuel n.left = .ok b → b = false
  | _ => False

def Clean (nodes : List RNode) (ic : Bool) (S : Int → Prop) : Prop :=
  ∀ i n, S i → nodeAt nodes i = .ok n → CleanNode nodes ic S n

/-- Does not read past the end. -/
def NP {α : Type} (x : M α) : Prop := x ≠ .error PastEnd

theorem NP.bind {α β : Type} {x : M α} {f : α → M β} (h : NP x) (hf : ∀ a, x = .ok a → NP (f a)) : NP (x >>= f) := by
  cases x with
  | error e => intro h'; exact h (by cases h'; rfl)
  | ok a => exact hf a rfl

theorem np_ok {α : Type} (a : α) : NP (.ok a : M α) := by intro h; cases h

theorem nodeAt_np (nodes : List RNode) (i : Int) : NP (nodeAt nodes i) := by
  unfold NP nodeAt PastEnd
  split
  · simp
  · split <;> simp

theorem matchclass_np (nodes : List RNode) (ic : Bool) (c : Char) : ∀ (fuel : Nat) (i : Int), NP (matchclass nodes ic c fuel i) := by
  intro fuel
  induction fuel with
  | zero => intro i; unfold matchclass NP PastEnd; simp
  | succ fuel ih =>
    intro i
    rw [matchclass]
    refine NP.bind (nodeAt_np _ _) fun n _ => ?_
    split
    · exact np_ok _
    · split
      · exact ih _
      · exact np_ok _

section
variable {nodes : List RNode} {ic : Bool} {text : CStr} {S : Int → Prop}

theorem orChain_pos (hS : Clean nodes ic S) {fuel : Nat}
    (hm : ∀ i s x s', S i → s ≤ text.length → matchnode nodes ic text fuel i s x = .ok (some s') → s' ≤ text.length) :
    ∀ {k : Nat} {i : Int} {s s' : Nat}, S i → s ≤ text.length →
    orChain nodes (matchnode nodes ic text fuel) k i s = .ok (some s') → s' ≤ text.length := by
  intro k
  induction k with
  | zero => intro i s s' _ _ h; cases h
  | succ k ih =>
    intro i s s' hi hs h
    rw [orChain] at h
    obtain ⟨r, h1, h2⟩ := bind_some_ok h
    cases r with
    | none => cases h2
    | some s1 =>
      obtain ⟨n, h3, h4⟩ := bind_some_ok h2
      have p1 := hm _ _ _ _ hi hs h1
      split at h4
      · rename_i hne
        exact ih ((hS i n hi h3).1.resolve_left hne) p1 h4
      · cases h4; exact p1

theorem exprChain_pos (hS : Clean nodes ic S) {fuel : Nat} {x : Option Int}
    (hm : ∀ i s x s', S i → s ≤ text.length → matchnode nodes ic text fuel i s x = .ok (some s') → s' ≤ text.length) :
    ∀ {k : Nat} {i : Int} {s s' : Nat}, S i → s ≤ text.length →
    exprChain nodes (matchnode nodes ic text fuel) x k i s = .ok (some s') → s' ≤ text.length := by
  intro k
  induction k with
  | zero => intro i s s' _ _ h; cases h
  | succ k ih =>
    intro i s s' hi hs h
    rw [exprChain] at h
    obtain ⟨n, h3, h2⟩ := bind_some_ok h
    dsimp only at h2
    obtain ⟨r, h1, h4⟩ := bind_some_ok h2
    cases r with
    | none => cases h4
    | some s1 =>
      have p1 := hm _ _ _ _ hi hs h1
      dsimp only at h4
      split at h4
      · rename_i hne
        exact ih ((hS i n hi h3).1.resolve_left hne) p1 h4
      · cases h4; exact p1

theorem greedyLoop_pos {fuel p0 p1 : Nat} {left : Int} {g x : Option Int} (hl : S left)
    (hm : ∀ i s x s', S i → s ≤ text.length → matchnode nodes ic text fuel i s x = .ok (some s') → s' ≤ text.length) :
    ∀ {k nm s nm' good : Nat}, s ≤ text.length →
    greedyLoop nodes text.length (matchnode nodes ic text fuel) p0 p1 left g x k nm s s = .ok (nm', good) →
    good ≤ text.length := by
  intro k
  induction k with
  | zero => intro nm s nm' good _ h; cases h
  | succ k ih =>
    intro nm s nm' good hs h
    rw [greedyLoop] at h
    split at h
    · obtain ⟨r, h1, h2⟩ := bind_some_ok h
      cases r with
      | none => cases h2; exact hs
      | some s1 =>
        have q1 := hm _ _ _ _ hl hs h1
        dsimp only at h2
        obtain ⟨stop, h3, h4⟩ := bind_some_ok h2
        split at h4
        · cases h4; exact q1
        · split at h4
          · cases h4; exact q1
          · exact ih q1 h4
    · cases h; exact hs

theorem textAt_eq {s : Nat} (hs : s ≤ text.length) : ∃ c, textAt text s = .ok c ∧ (s < text.length ∨ c = '\x00') := by
  unfold textAt
  by_cases h : s < text.length
  · rw [if_pos h]; exact ⟨_, rfl, Or.inl h⟩
  · rw [if_neg h, if_pos (by omega)]; exact ⟨_, rfl, Or.inr rfl⟩

theorem clean_pos (hS : Clean nodes ic S) : ∀ (fuel : Nat) (i : Int) (s : Nat) (x : Option Int) (s' : Nat), S i → s ≤ text.length →
    matchnode nodes ic text fuel i s x = .ok (some s') → s' ≤ text.length := by
  intro fuel
  induction fuel with
  | zero => intro i s x s' _ _ h; cases h
  | succ fuel ih =>
    intro i s x s' hi hs h
    rw [matchnode] at h
    obtain ⟨n, hn, h⟩ := bind_some_ok h
    have hc := (hS i n hi hn).2
    obtain ⟨c, ht, hend⟩ := textAt_eq (text := text) hs
    dsimp only at h
    have hnz : c ≠ '\x00' → s + 1 ≤ text.length := fun h => by rcases hend with h1 | h1 <;> [omega; exact absurd h1 h]
    cases hty : n.type <;> rw [hty] at h hc <;> dsimp only at h hc
    all_goals first | exact hc.elim | skip
    · -- char
      rw [ht, bind_ok] at h
      have hr := case_pos hc
      split at h
      · split at h
        · cases h
        · rename_i hne
          cases h
          refine hnz ?_
          rintro rfl
          exact hne ⟨ne_nul hr.1, ne_nul hr.2⟩
      · split at h
        · cases h
        · rename_i hne
          cases h
          refine hnz ?_
          rintro rfl
          exact hne (ne_nul hc)
    · obtain ⟨⟨nm, good⟩, h1, h2⟩ := bind_some_ok h
      dsimp only at h2
      split at h2
      · cases h2; exact greedyLoop_pos hc ih hs h1
      · cases h2
    · -- or
      obtain ⟨o, h1, h2⟩ := bind_some_ok h
      cases o with
      | some s1 => cases h2; exact orChain_pos hS ih hc.1 hs h1
      | none => exact orChain_pos hS ih hc.2 hs h2
    · exact exprChain_pos hS ih hc hs h
    · exact exprChain_pos hS ih hc hs h
    · rw [ht, bind_ok] at h
      obtain ⟨b, h1, h2⟩ := bind_some_ok h
      cases b with
      | false => cases h2
      | true =>
        cases h2
        refine hnz ?_
        rintro rfl
        cases hc _ _ h1
    · rw [ht, bind_ok] at h
      split at h
      · rename_i hm
        cases h
        refine hnz ?_
        rintro rfl
        rw [hc] at hm; cases hm
      · cases h
    · split at h
      · cases h; exact hs
      · cases h
    · split at h
      · cases h; exact hs
      · cases h

theorem orChain_np (hS : Clean nodes ic S) {fuel : Nat}
    (hm : ∀ i s x, S i → (∀ g, x = some g → S g) → s ≤ text.length → NP (matchnode nodes ic text fuel i s x)) :
    ∀ {k : Nat} {i : Int} {s : Nat}, S i → s ≤ text.length → NP (orChain nodes (matchnode nodes ic text fuel) k i s) := by
  intro k
  induction k with
  | zero => intro i s _ _; unfold orChain NP PastEnd; simp
  | succ k ih =>
    intro i s hi hs
    rw [orChain]
    refine NP.bind (hm _ _ _ hi (by simp) hs) fun r hr => ?_
    cases r with
    | none => exact np_ok _
    | some s1 =>
      refine NP.bind (nodeAt_np _ _) fun n hn => ?_
      have p1 := clean_pos hS _ _ _ _ _ hi hs hr
      split
      · rename_i hne
        exact ih ((hS i n hi hn).1.resolve_left hne) p1
      · exact np_ok _

theorem exprChain_np (hS : Clean nodes ic S) {fuel : Nat} {x : Option Int} (hx : ∀ g, x = some g → S g)
    (hm : ∀ i s x, S i → (∀ g, x = some g → S g) → s ≤ text.length → NP (matchnode nodes ic text fuel i s x)) :
    ∀ {k : Nat} {i : Int} {s : Nat}, S i → s ≤ text.length → NP (exprChain nodes (matchnode nodes ic text fuel) x k i s) := by
  intro k
  induction k with
  | zero => intro i s _ _; unfold exprChain NP PastEnd; simp
  | succ k ih =>
    intro i s hi hs
    rw [exprChain]
    refine NP.bind (nodeAt_np _ _) fun n hn => ?_
    have hnx := (hS i n hi hn).1
    dsimp only
    refine NP.bind (hm _ _ _ hi ?_ hs) fun r hr => ?_
    · intro g hg
      split at hg
      · rename_i hne; cases hg; exact hnx.resolve_left hne
      · exact hx g hg
    · cases r with
      | none => exact np_ok _
      | some s1 =>
        have p1 := clean_pos hS _ _ _ _ _ hi hs hr
        dsimp only
        split
        · rename_i hne
          exact ih (hnx.resolve_left hne) p1
        · exact np_ok _

theorem greedyLoop_np (hS : Clean nodes ic S) {fuel p0 p1 : Nat} {left : Int} {g x : Option Int} (hl : S left)
    (hg : ∀ y, g = some y → S y) (hx : ∀ y, x = some y → S y)
    (hm : ∀ i s x, S i → (∀ g, x = some g → S g) → s ≤ text.length → NP (matchnode nodes ic text fuel i s x)) :
    ∀ {k nm s good : Nat}, s ≤ text.length →
    NP (greedyLoop nodes text.length (matchnode nodes ic text fuel) p0 p1 left g x k nm s good) := by
  intro k
  induction k with
  | zero => intro nm s good _; unfold greedyLoop NP PastEnd; simp
  | succ k ih =>
    intro nm s good hs
    rw [greedyLoop]
    split
    · refine NP.bind (hm _ _ _ hl hg hs) fun r hr => ?_
      cases r with
      | none => exact np_ok _
      | some s1 =>
        have q1 := clean_pos hS _ _ _ _ _ hl hs hr
        dsimp only
        refine NP.bind ?_ fun stop _ => ?_
        · unfold greedyStopTest
          cases g with
          | none => exact np_ok _
          | some y =>
            dsimp only
            refine NP.bind (nodeAt_np _ _) fun gn hgn => ?_
            have hy := hg y rfl
            split
            · refine NP.bind ?_ fun gnext hgx => NP.bind (hm _ _ _ hy ?_ q1) fun _ _ => np_ok _
              · unfold greedyNext
                split
                · exact np_ok _
                · cases x with
                  | none => exact np_ok _
                  | some z => exact NP.bind (nodeAt_np _ _) fun _ _ => np_ok _
              · intro w hw
                unfold greedyNext at hgx
                split at hgx
                · rename_i hne
                  cases hgx; cases hw
                  exact (hS _ _ hy hgn).1.resolve_left hne
                · cases x with
                  | none => cases hgx; cases hw
                  | some z =>
                    obtain ⟨zn, hz, hz2⟩ := bind_some_ok hgx
                    split at hz2
                    · rename_i hne
                      cases hz2; cases hw
                      exact (hS _ _ (hx z rfl) hz).1.resolve_left hne
                    · cases hz2; cases hw
            · exact np_ok _
        · split
          · exact np_ok _
          · split
            · exact np_ok _
            · exact ih q1
    · exact np_ok _

theorem clean_np (hS : Clean nodes ic S) : ∀ (fuel : Nat) (i : Int) (s : Nat) (x : Option Int), S i → (∀ g, x = some g → S g) →
    s ≤ text.length → NP (matchnode nodes ic text fuel i s x) := by
  intro fuel
  induction fuel with
  | zero => intro i s x _ _ _; unfold matchnode NP PastEnd; simp
  | succ fuel ih =>
    intro i s x hi hx hs
    rw [matchnode]
    refine NP.bind (nodeAt_np _ _) fun n hn => ?_
    obtain ⟨hnx, hc⟩ := hS i n hi hn
    obtain ⟨c, ht, hend⟩ := textAt_eq (text := text) hs
    dsimp only
    cases hty : n.type <;> rw [hty] at hc <;> dsimp only at hc ⊢
    all_goals first | exact hc.elim | skip
    · rw [ht, bind_ok]
      split <;> exact np_ok _
    · refine NP.bind (greedyLoop_np hS hc ?_ hx ih hs) fun r _ => ?_
      · intro g hg
        split at hg
        · rename_i hne; cases hg; exact hnx.resolve_left hne
        · exact hx g hg
      · split <;> exact np_ok _
    · refine NP.bind (orChain_np hS ih hc.1 hs) fun r _ => ?_
      cases r with
      | some s1 => exact np_ok _
      | none => exact orChain_np hS ih hc.2 hs
    · exact exprChain_np hS hx ih hc hs
    · exact exprChain_np hS hx ih hc hs
    · rw [ht, bind_ok]
      exact NP.bind (matchclass_np _ _ _ _ _) fun _ _ => np_ok _
    · rw [ht, bind_ok]
      exact np_ok _
    · exact np_ok _
    · exact np_ok _

/-! ### the nodes of a tree are clean -/

/-- The nodes of some clean set. -/
def CleanAt (nodes : List RNode) (ic : Bool) (i : Int) : Prop := ∃ S : Int → Prop, S i ∧ Clean nodes ic S

theorem CleanNode.mono {S T : Int → Prop} (h : ∀ i, S i → T i) {n : RNode} (hn : CleanNode nodes ic S n) : CleanNode nodes ic T n := by
  obtain ⟨h1, h2⟩ := hn
  refine ⟨h1.imp_right (h _), ?_⟩
  cases hty : n.type <;> rw [hty] at h2 <;> dsimp only at h2 ⊢ <;>
    first | exact h2 | exact h _ h2 | exact ⟨h _ h2.1, h _ h2.2⟩

theorem cleanAt_clean : Clean nodes ic (CleanAt nodes ic) := by
  rintro i n ⟨S, h1, h2⟩ hn
  exact (h2 i n h1 hn).mono fun j hj => ⟨S, hj, h2⟩

theorem CleanAt.intro {i : Int} {n : RNode} (hn : nodeAt nodes i = .ok n) (h : CleanNode nodes ic (CleanAt nodes ic) n) :
    CleanAt nodes ic i := by
  refine ⟨fun j => CleanAt nodes ic j ∨ j = i, Or.inr rfl, ?_⟩
  rintro j m (hj | rfl) hm
  · exact (cleanAt_clean j m hj hm).mono fun k hk => Or.inl hk
  · rw [hn] at hm; cases hm
    exact h.mono fun k hk => Or.inl hk

theorem sameLetter_nul {d : Char} (h : 0 < d.toNat) : ¬ SameLetter ic '\x00' d := by
  have hr := case_pos h
  unfold SameLetter
  split
  · intro he
    have : toLower '\x00' = '\x00' := by decide
    rw [this] at he
    exact ne_nul hr.1 he
  · exact ne_nul h

theorem item_spare {x : SetItem} (hok : x.Ok) (h : x.Spare) : ¬ x.Has ic '\x00' := by
  cases x with
  | one l =>
    have hl : LitOk true l := hok
    exact sameLetter_nul (Lit.range_of hl)
  | cls l => exact h
  | range a b =>
    obtain ⟨ha, -⟩ := hok
    have ra := Lit.range_of (b := true) ha
    have hz : charInt '\x00' = 0 := rfl
    have h0 : 0 < charInt a.char := by rw [charInt_ascii h]; omega
    unfold SetItem.Has Between
    dsimp only
    rw [hz, toUpper_int, toLower_int]
    split
    · split <;> split <;> omega
    · omega

theorem items_clean {x : SetItem} {xs : List SetItem} (hok : ∀ y ∈ x :: xs, y.Ok) (h : ∀ y ∈ x :: xs, y.Spare) {lo hi : Nat} {v : Int}
    (hrep : RepItems nodes lo hi (x :: xs) v) (fuel : Nat) (b : Bool) (hm : matchclass nodes ic '\x00' fuel v = .ok b) : b = false := by
  have hiff := matchclass_rep (by simp) hok hrep hm
  cases b with
  | false => rfl
  | true =>
    obtain ⟨y, hy, h1⟩ := hiff.1 rfl
    exact absurd h1 (item_spare (hok y hy) (h y hy))

/-- The link leads to a clean node. -/
def LinkOk (nodes : List RNode) (ic : Bool) (nx : Int) : Prop := nx = -1 ∨ CleanAt nodes ic nx

def AtomL (nodes : List RNode) (ic : Bool) (a : Atom) : Prop := ∀ {lo hi i : Nat} {nx : Int}, a.Ok → a.Spare →
  RepAtom nodes a lo hi i nx → LinkOk nodes ic nx → CleanAt nodes ic i
def ElemsL (nodes : List RNode) (ic : Bool) (es : Elems) : Prop := ∀ {lo hi i : Nat}, es.Ok → es.Spare →
  RepElems nodes es lo hi i → CleanAt nodes ic i
def ReL (nodes : List RNode) (ic : Bool) (r : Re) : Prop := ∀ {lo hi i : Nat}, r.Ok → r.Spare →
  RepRe nodes r lo hi i → CleanAt nodes ic i

theorem atomL_chr (l : Lit) : AtomL nodes ic (.chr l) := by
  intro lo hi i nx hok hsp hrep hl
  unfold RepAtom at hrep
  obtain ⟨_, _, n, hn, hx, ht⟩ := hrep
  unfold Atom.Ok at hok
  refine .intro (nodeAt_eq hn) ⟨by rw [hx]; exact hl, ?_⟩
  rw [ht]
  exact Lit.range_of (b := false) hok

theorem atomL_cls (l : Char) : AtomL nodes ic (.cls l) := by
  intro lo hi i nx hok hsp hrep hl
  unfold RepAtom at hrep
  obtain ⟨_, _, n, hn, hx, ht, hlf⟩ := hrep
  unfold Atom.Ok at hok
  unfold Atom.Spare at hsp
  refine .intro (nodeAt_eq hn) ⟨by rw [hx]; exact hl, ?_⟩
  rw [ht]
  show matchcclass (intChar n.left) '\x00' = false
  rw [hlf, intChar_charInt]
  cases hb : matchcclass l '\x00' with
  | false => rfl
  | true => exact absurd ((matchcclass_iff hok _).1 hb) hsp

theorem atomL_eol : AtomL nodes ic .eol := by
  intro lo hi i nx hok hsp hrep hl
  unfold RepAtom at hrep
  obtain ⟨_, _, n, hn, hx, ht⟩ := hrep
  refine .intro (nodeAt_eq hn) ⟨by rw [hx]; exact hl, ?_⟩
  rw [ht]
  trivial

theorem atomL_set (neg : Bool) (x : SetItem) (xs : List SetItem) : AtomL nodes ic (.set neg x xs) := by
  intro lo hi i nx hok hsp hrep hl
  unfold RepAtom at hrep
  obtain ⟨_, _, n, hn, hx, ht, hit⟩ := hrep
  unfold Atom.Ok at hok
  unfold Atom.Spare at hsp
  obtain ⟨rfl, hsp⟩ := hsp
  refine .intro (nodeAt_eq hn) ⟨by rw [hx]; exact hl, ?_⟩
  rw [ht]
  exact fun fuel b hm => items_clean hok.1 hsp hit fuel b hm

theorem atomL_group (capture : Bool) (r : Re) (ih : ReL nodes ic r) : AtomL nodes ic (.group capture r) := by
  intro lo hi i nx hok hsp hrep hl
  unfold RepAtom at hrep
  obtain ⟨_, _, n, hn, hx, ht, k, hk, hre⟩ := hrep
  unfold Atom.Ok at hok
  unfold Atom.Spare at hsp
  refine .intro (nodeAt_eq hn) ⟨by rw [hx]; exact hl, ?_⟩
  have := ih hok.1 hsp hre
  rw [← hk] at this
  rw [ht]
  cases capture <;> exact this

theorem quantL {a : Atom} (ha : AtomL nodes ic a) {q : Quant} {lo hi i : Nat} {nx : Int} (hok : a.Ok) (hsp : a.Spare)
    (hrep : RepQ nodes (RepAtom nodes a) q lo hi i nx) (hl : LinkOk nodes ic nx) : CleanAt nodes ic i := by
  unfold RepQ at hrep
  split at hrep
  · exact ha hok hsp hrep hl
  · obtain ⟨_, _, n, hn, hx, ht, hb, k, hk, hat⟩ := hrep
    refine .intro (nodeAt_eq hn) ⟨by rw [hx]; exact hl, ?_⟩
    rw [ht]
    show CleanAt nodes ic n.left
    rw [hk]
    exact ha hok hsp hat (Or.inl rfl)

theorem branchL {es : Elems} (hes : ElemsL nodes ic es) {bol : Bool} {lo hi i : Nat} (hok : es.Ok) (hsp : es.Spare)
    (hrep : RepBranch nodes (RepElems nodes es) bol lo hi i) : CleanAt nodes ic i := by
  unfold RepBranch at hrep
  split at hrep
  · obtain ⟨_, _, n, hn, ht, k, hk, hre⟩ := hrep
    refine .intro (nodeAt_eq hn) ⟨Or.inr (by rw [hk]; exact hes hok hsp hre), ?_⟩
    rw [ht]
    trivial
  · exact hes hok hsp hrep

mutual
theorem atom_clean (nodes : List RNode) (ic : Bool) : ∀ a : Atom, AtomL nodes ic a
  | .chr l => atomL_chr l
  | .cls l => atomL_cls l
  | .any => fun _ hsp => absurd hsp (by unfold Atom.Spare; exact id)
  | .eol => atomL_eol
  | .edge _ => fun _ hsp => absurd hsp (by unfold Atom.Spare; exact id)
  | .set neg x xs => atomL_set neg x xs
  | .group capture r => atomL_group capture r (re_clean nodes ic r)
theorem elems_clean (nodes : List RNode) (ic : Bool) : ∀ es : Elems, ElemsL nodes ic es
  | .last a q => fun hok hsp hrep => by
    unfold Elems.Ok at hok; unfold Elems.Spare at hsp; unfold RepElems at hrep
    exact quantL (atom_clean nodes ic a) hok.1 hsp hrep (Or.inl rfl)
  | .more a q es => fun hok hsp hrep => by
    unfold Elems.Ok at hok; unfold Elems.Spare at hsp; unfold RepElems at hrep
    obtain ⟨m, k, _, _, hq, hre⟩ := hrep
    exact quantL (atom_clean nodes ic a) hok.1 hsp.1 hq (Or.inr (elems_clean nodes ic es hok.2.2.1 hsp.2 hre))
theorem re_clean (nodes : List RNode) (ic : Bool) : ∀ r : Re, ReL nodes ic r
  | .branch bol es => fun hok hsp hrep => by
    unfold Re.Ok at hok; unfold Re.Spare at hsp; unfold RepRe at hrep
    exact branchL (elems_clean nodes ic es) hok.1 hsp hrep
  | .alt bol es r => fun hok hsp hrep => by
    unfold Re.Ok at hok; unfold Re.Spare at hsp; unfold RepRe at hrep
    obtain ⟨n, hn, ht, hx, _, _, k1, k2, hk1, hk2, hb, hre⟩ := hrep
    refine .intro (nodeAt_eq hn) ⟨Or.inl hx, ?_⟩
    rw [ht]
    show CleanAt nodes ic n.left ∧ CleanAt nodes ic n.right
    rw [hk1, hk2]
    exact ⟨branchL (elems_clean nodes ic es) hok.1 hsp.1 hb, re_clean nodes ic r hok.2.1 hsp.2 hre⟩
end

theorem runs_pos {i s s' : Nat} (h : CleanAt nodes ic i) (hr : Runs nodes ic text i s s') (hs : s ≤ text.length) : s' ≤ text.length := by
  obtain ⟨fuel, x, hr⟩ := hr
  exact clean_pos cleanAt_clean fuel i s x s' h hs hr

end

/-! ### lengths and first characters -/

section
variable {ic : Bool} {text : CStr}

theorem iter_le {R : Nat → Nat → Prop} (hR : ∀ i j, R i j → i ≤ j) : ∀ {n i j : Nat}, Iter R n i j → i ≤ j := by
  intro n
  induction n with
  | zero => rintro i j rfl; exact Nat.le_refl _
  | succ n ih => rintro i j ⟨k, h1, h2⟩; have := hR _ _ h1; have := ih h2; omega

theorem iter_lt {R : Nat → Nat → Prop} (hR : ∀ i j, R i j → i < j) : ∀ {n i j : Nat}, Iter R n i j → i + n ≤ j := by
  intro n
  induction n with
  | zero => rintro i j rfl; exact Nat.le_refl _
  | succ n ih => rintro i j ⟨k, h1, h2⟩; have := hR _ _ h1; have := ih h2; omega

/-- `i ≤ j`, and if not empty then inside the text. -/
def Span (text : CStr) (e : Prop) (i j : Nat) : Prop := i ≤ j ∧ (i < j → j ≤ text.length) ∧ (e → i < j)

theorem oneChar_span {P : Char → Prop} {e : Prop} {i j : Nat} (h : OneChar text P i j) : Span text e i j := by
  obtain ⟨c, h1, -, rfl⟩ := h
  have := lt_of_getElem? h1
  exact ⟨by omega, fun _ => by omega, fun _ => by omega⟩

theorem iter_span {R : Nat → Nat → Prop} {e : Prop} (hR : ∀ i j, R i j → Span text e i j) :
    ∀ {n i j : Nat}, Iter R n i j → Span text (n ≠ 0 ∧ e) i j := by
  intro n
  induction n with
  | zero => rintro i j rfl; exact ⟨Nat.le_refl _, fun h => absurd h (by omega), fun h => absurd rfl h.1⟩
  | succ n ih =>
    rintro i j ⟨k, h1, h2⟩
    have a1 := hR _ _ h1
    have a2 := ih h2
    have b1 := a1.1
    have b2 := a2.1
    refine ⟨by omega, fun h => ?_, fun h => ?_⟩
    · by_cases hk : k < j
      · exact a2.2.1 hk
      · have := a1.2.1 (by omega); omega
    · have := a1.2.2 h.2; omega

theorem repeated_span {q : Quant} {R : Nat → Nat → Prop} {e : Prop} (hR : ∀ i j, R i j → Span text e i j) {i j : Nat}
    (h : Repeated q R i j) : Span text (¬ q.Allows 0 ∧ e) i j := by
  obtain ⟨n, h1, h2⟩ := h
  have := iter_span hR h2
  refine ⟨this.1, this.2.1, fun he => this.2.2 ⟨?_, he.2⟩⟩
  rintro rfl
  exact he.1 h1

mutual
theorem atom_span (ic : Bool) (text : CStr) : ∀ (a : Atom) {i j : Nat}, a.Matches ic text i j → Span text a.Eats i j
  | .chr l, i, j, h => by unfold Atom.Matches at h; exact oneChar_span h
  | .cls l, i, j, h => by unfold Atom.Matches at h; exact oneChar_span h
  | .any, i, j, h => by unfold Atom.Matches at h; exact oneChar_span h
  | .set neg x xs, i, j, h => by unfold Atom.Matches at h; exact oneChar_span h
  | .eol, i, j, h => by
    unfold Atom.Matches at h; unfold Atom.Eats
    exact ⟨by omega, fun _ => by omega, fun h => h.elim⟩
  | .edge neg, i, j, h => by
    unfold Atom.Matches at h; unfold Atom.Eats
    have := h.1
    exact ⟨by omega, fun _ => by omega, fun h => h.elim⟩
  | .group b r, i, j, h => by
    unfold Atom.Matches at h; unfold Atom.Eats
    exact re_span ic text r h
theorem elems_span (ic : Bool) (text : CStr) : ∀ (es : Elems) {i j : Nat}, es.Matches ic text i j → Span text es.Eats i j
  | .last a q, i, j, h => by
    unfold Elems.Matches at h; unfold Elems.Eats
    exact repeated_span (fun i j h => atom_span ic text a h) h
  | .more a q es, i, j, h => by
    unfold Elems.Matches at h; unfold Elems.Eats
    obtain ⟨k, h1, h2⟩ := h
    have a1 := repeated_span (fun i j h => atom_span ic text a h) h1
    have a2 := elems_span ic text es h2
    have b1 := a1.1
    have b2 := a2.1
    refine ⟨by omega, fun h => ?_, fun h => ?_⟩
    · by_cases hk : k < j
      · exact a2.2.1 hk
      · have := a1.2.1 (by omega); omega
    · rcases h with h | h
      · have := a1.2.2 h; omega
      · have := a2.2.2 h; omega
theorem re_span (ic : Bool) (text : CStr) : ∀ (r : Re) {i j : Nat}, r.Matches ic text i j → Span text r.Eats i j
  | .branch bol es, i, j, h => by
    unfold Re.Matches at h; unfold Re.Eats
    exact elems_span ic text es h.2
  | .alt bol es r, i, j, h => by
    unfold Re.Matches at h; unfold Re.Eats
    rcases h with h | h
    · have := elems_span ic text es h.2; exact ⟨this.1, this.2.1, fun h => this.2.2 h.1⟩
    · have := re_span ic text r h; exact ⟨this.1, this.2.1, fun h => this.2.2 h.2⟩
end

/-- The text goes on with a character in `F`. -/
def Goes (text : CStr) (F : Char → Prop) (i : Nat) : Prop := ∃ c, text[i]? = some c ∧ F c

theorem Goes.mono {F G : Char → Prop} {i : Nat} (h : Goes text F i) (hfg : ∀ c, F c → G c) : Goes text G i := by
  obtain ⟨c, h1, h2⟩ := h; exact ⟨c, h1, hfg c h2⟩

theorem Goes.disjoint {F G : Char → Prop} {i : Nat} (h : Goes text F i) (h' : Goes text G i) (hd : ∀ c, ¬ (F c ∧ G c)) : False := by
  obtain ⟨c, h1, h2⟩ := h
  obtain ⟨d, h3, h4⟩ := h'
  rw [h1] at h3; cases h3
  exact hd c ⟨h2, h4⟩

theorem Goes.lt {F : Char → Prop} {i : Nat} (h : Goes text F i) : i < text.length := by
  obtain ⟨c, h1, -⟩ := h; exact lt_of_getElem? h1

theorem elemDet_eats {first : Char → Prop} {eats : Prop} {det : (Char → Prop) → Prop} {q : Quant} {F : Char → Prop}
    (h : ElemDet first eats det q F) (hq : q ≠ .once) : eats := by
  unfold ElemDet at h
  cases q with
  | once => exact absurd rfl hq
  | _ => exact h.1

theorem elemDet_det {first : Char → Prop} {eats : Prop} {det : (Char → Prop) → Prop} {q : Quant} {F : Char → Prop}
    (h : ElemDet first eats det q F) : ∃ G, det G := by
  unfold ElemDet at h
  cases q with
  | once => exact ⟨_, h⟩
  | exactly n => exact ⟨_, h.2⟩
  | _ => exact ⟨_, h.2.1⟩

/-- The first character of a non-empty repetition. -/
theorem repeated_first {a : Atom} {q : Quant} {F : Char → Prop} (hd : ElemDet (a.First ic) a.Eats (a.Det ic) q F)
    (ha : ∀ {i j : Nat}, a.Matches ic text i j → i < j → Goes text (a.First ic) i) {i j : Nat}
    (h : Repeated q (a.Matches ic text) i j) (hlt : i < j) : Goes text (a.First ic) i := by
  obtain ⟨n, h1, h2⟩ := h
  cases n with
  | zero => cases h2; omega
  | succ n =>
    obtain ⟨k, h3, h4⟩ := h2
    have hs := atom_span ic text a h3
    by_cases hq : q = .once
    · subst hq
      have : n = 0 := by have : n + 1 = 1 := h1; omega
      subst this
      cases h4
      exact ha h3 hlt
    · exact ha h3 (hs.2.2 (elemDet_eats hd hq))

mutual
theorem atom_first (ic : Bool) (text : CStr) : ∀ (a : Atom) {F : Char → Prop} {i j : Nat}, a.Det ic F → a.Matches ic text i j → i < j →
    Goes text (a.First ic) i
  | .chr l, F, i, j, hd, h, hlt => by
    unfold Atom.Matches at h; obtain ⟨c, h1, h2, -⟩ := h
    exact ⟨c, h1, by unfold Atom.First; exact h2⟩
  | .cls l, F, i, j, hd, h, hlt => by
    unfold Atom.Matches at h; obtain ⟨c, h1, h2, -⟩ := h
    exact ⟨c, h1, by unfold Atom.First; exact h2⟩
  | .any, F, i, j, hd, h, hlt => by
    unfold Atom.Matches at h; obtain ⟨c, h1, h2, -⟩ := h
    exact ⟨c, h1, by unfold Atom.First; exact h2⟩
  | .set neg x xs, F, i, j, hd, h, hlt => by
    unfold Atom.Matches at h; obtain ⟨c, h1, h2, -⟩ := h
    exact ⟨c, h1, by unfold Atom.First; exact h2⟩
  | .eol, F, i, j, hd, h, hlt => by unfold Atom.Matches at h; omega
  | .edge neg, F, i, j, hd, h, hlt => by unfold Atom.Det at hd; exact hd.elim
  | .group b r, F, i, j, hd, h, hlt => by
    unfold Atom.Matches at h; unfold Atom.Det at hd
    exact (re_first ic text r hd.2 h hlt).mono fun c hc => by unfold Atom.First; exact hc
theorem elems_first (ic : Bool) (text : CStr) : ∀ (es : Elems) {F : Char → Prop} {i j : Nat}, es.Det ic F → es.Matches ic text i j → i < j →
    Goes text (es.First ic) i
  | .last a q, F, i, j, hd, h, hlt => by
    unfold Elems.Matches at h; unfold Elems.Det at hd
    obtain ⟨G, hG⟩ := elemDet_det hd
    exact (repeated_first hd (fun h hlt => atom_first ic text a hG h hlt) h hlt).mono fun c hc => by
      unfold Elems.First; exact hc
  | .more a q es, F, i, j, hd, h, hlt => by
    unfold Elems.Matches at h; unfold Elems.Det at hd
    obtain ⟨G, hG⟩ := elemDet_det hd.1
    obtain ⟨k, h1, h2⟩ := h
    have hs1 := repeated_span (fun i j h => atom_span ic text a h) h1
    have hs2 := elems_span ic text es h2
    have b1 := hs1.1
    have b2 := hs2.1
    by_cases hk : i < k
    · exact (repeated_first hd.1 (fun h hlt => atom_first ic text a hG h hlt) h1 hk).mono fun c hc => by
        unfold Elems.First; exact Or.inl hc
    · have : k = i := by omega
      subst this
      refine (elems_first ic text es hd.2 h2 hlt).mono fun c hc => ?_
      unfold Elems.First
      refine Or.inr ⟨?_, hc⟩
      by_cases h0 : q.Allows 0
      · exact h0
      · exfalso
        have hne : ¬ a.Eats := fun he => by have := hs1.2.2 ⟨h0, he⟩; omega
        have hone : q = .once := by
          by_contra hq; exact hne (elemDet_eats hd.1 hq)
        subst hone
        have hG' : a.Det ic (fun c => es.First ic c ∨ ¬ es.Eats ∧ F c) := hd.1
        obtain ⟨n, hn, hit⟩ := h1
        have : n = 1 := hn
        subst this
        obtain ⟨k', hm, hk'⟩ := hit
        have hk'' : k' = k := hk'
        subst hk''
        cases a with
        | eol => unfold Atom.Matches at hm; have := hs2.2.1 hlt; omega
        | edge neg => unfold Atom.Det at hG'; exact hG'
        | group b r => unfold Atom.Det at hG'; unfold Atom.Eats at hne; exact hne hG'.1
        | _ => unfold Atom.Eats at hne; exact hne trivial
theorem re_first (ic : Bool) (text : CStr) : ∀ (r : Re) {F : Char → Prop} {i j : Nat}, r.Det ic F → r.Matches ic text i j → i < j →
    Goes text (r.First ic) i
  | .branch bol es, F, i, j, hd, h, hlt => by
    unfold Re.Matches at h; unfold Re.Det at hd
    exact (elems_first ic text es hd h.2 hlt).mono fun c hc => by unfold Re.First; exact hc
  | .alt bol es r, F, i, j, hd, h, hlt => by
    unfold Re.Matches at h; unfold Re.Det at hd
    rcases h with h | h
    · exact (elems_first ic text es hd.2.1 h.2 hlt).mono fun c hc => by unfold Re.First; exact Or.inl hc
    · exact (re_first ic text r hd.2.2.1 h hlt).mono fun c hc => by unfold Re.First; exact Or.inr hc
end

end

/-! ### completeness -/

section
variable {nodes : List RNode} {ic : Bool} {text : CStr}

/-- The node `x` after a repetition matches only at the end of the text or before a character in `F`. -/
def Halts (nodes : List RNode) (ic : Bool) (text : CStr) (x : Option Int) (F : Char → Prop) : Prop :=
  ∀ (g : Int) (n : RNode), x = some g → nodeAt nodes g = .ok n → (n.type ≠ .greedy ∨ n.p0 ≠ 0) →
    ∀ s s', s ≤ text.length → Runs nodes ic text g s s' → s = text.length ∨ Goes text F s

theorem halts_none {F : Char → Prop} : Halts nodes ic text none F := by
  intro g n h; cases h

theorem Halts.mono {x : Option Int} {F G : Char → Prop} (h : Halts nodes ic text x F) (hfg : ∀ c, F c → G c) : Halts nodes ic text x G := by
  intro g n h1 h2 h3 s s' h4 h5
  exact (h g n h1 h2 h3 s s' h4 h5).imp_right fun h => h.mono hfg

theorem allows_zero {q : Quant} (h : q.Allows 0) : (quantBounds q).1 = 0 := by
  cases q with
  | once => cases h
  | star => rfl
  | plus => have : 1 ≤ 0 := h; omega
  | opt => rfl
  | exactly n => have : 0 = n := h; exact this.symm
  | atLeast n => have : n ≤ 0 := h; show n = 0; omega
  | between n m => have : n ≤ 0 ∧ _ := h; show n = 0; omega
  | raw lo hi => have : bound lo ≤ 0 ∧ _ := h; show bound lo = 0; omega

theorem atom_empty {a : Atom} {F : Char → Prop} (hd : a.Det ic F) {s : Nat} (h : a.Matches ic text s s) : s = text.length := by
  have hs := atom_span ic text a h
  cases a with
  | eol => unfold Atom.Matches at h; exact h.2
  | edge neg => unfold Atom.Det at hd; exact hd.elim
  | group b r => unfold Atom.Det at hd; have := hs.2.2 (by unfold Atom.Eats; exact hd.1); omega
  | _ => have := hs.2.2 (by unfold Atom.Eats; trivial); omega

theorem halts_quant {a : Atom} {q : Quant} {F : Char → Prop} {lo hi i : Nat} {nx : Int} (hok : a.Ok) (hq : q.Ok)
    (hd : ElemDet (a.First ic) a.Eats (a.Det ic) q F) (hrep : RepQ nodes (RepAtom nodes a) q lo hi i nx)
    (hcl : CleanAt nodes ic i) : Halts nodes ic text (some (i : Int)) (a.First ic) := by
  intro g n hg hn hnt s s' hs hr
  cases hg
  have hpos := runs_pos hcl hr hs
  have hrs := (quant_snd (atom_snd nodes ic text a) hok hq hrep hr).2 hpos
  have hsp := repeated_span (fun i j h => atom_span ic text a h) hrs
  obtain ⟨G, hG⟩ := elemDet_det hd
  by_cases hlt : s < s'
  · exact Or.inr (repeated_first hd (fun h hlt => atom_first ic text a hG h hlt) hrs hlt)
  · left
    have : s' = s := by have := hsp.1; omega
    subst this
    by_cases ho : q = .once
    · subst ho
      obtain ⟨m, hm, hit⟩ := hrs
      have : m = 1 := hm
      subst this
      obtain ⟨k, hk, hk'⟩ := hit
      have : k = s' := hk'
      subst this
      exact atom_empty hG hk
    · exfalso
      unfold RepQ at hrep
      rw [if_neg ho] at hrep
      obtain ⟨_, _, n', hn', _, ht, hb, -⟩ := hrep
      rw [nodeAt_eq hn'] at hn
      cases hn
      rcases hnt with h | h
      · exact h ht
      · rw [(greedy_bounds hq hb).1] at h
        have := hsp.2.2 ⟨fun h0 => h (allows_zero h0), elemDet_eats hd ho⟩
        omega

theorem halts_elems {es : Elems} {F : Char → Prop} {lo hi i : Nat} (hok : es.Ok) (hsp : es.Spare) (hd : es.Det ic F)
    (hrep : RepElems nodes es lo hi i) : Halts nodes ic text (some (i : Int)) (es.First ic) := by
  have hcl := elems_clean nodes ic es hok hsp hrep
  cases es with
  | last a q =>
    unfold Elems.Ok at hok; unfold Elems.Det at hd; unfold RepElems at hrep
    exact (halts_quant hok.1 hok.2 hd hrep hcl).mono fun c hc => by unfold Elems.First; exact hc
  | more a q es =>
    unfold Elems.Ok at hok; unfold Elems.Det at hd; unfold RepElems at hrep
    obtain ⟨m, k, _, _, hq, hre⟩ := hrep
    exact (halts_quant hok.1 hok.2.1 hd.1 hq hcl).mono fun c hc => by unfold Elems.First; exact Or.inl hc

theorem stopTest_true {m : Matcher} {g x : Option Int} {s : Nat} (h : greedyStopTest nodes m g x s = .ok true) :
    ∃ (i : Int) (n : RNode) (y : Option Int) (s' : Nat), g = some i ∧ nodeAt nodes i = .ok n ∧ (n.type ≠ .greedy ∨ n.p0 ≠ 0) ∧
      m i s y = .ok (some s') := by
  unfold greedyStopTest at h
  cases g with
  | none => cases h
  | some i =>
    dsimp only at h
    obtain ⟨n, h1, h2⟩ := bind_some_ok h
    split at h2
    · rename_i hc
      obtain ⟨y, h3, h4⟩ := bind_some_ok h2
      obtain ⟨o, h5, h6⟩ := bind_some_ok h4
      cases o with
      | none => cases h6
      | some s' => exact ⟨i, n, y, s', rfl, h1, hc, h5⟩
    · cases h2

theorem greedyLoop_exact {R : Nat → Nat → Prop} {A F : Char → Prop} {fuel p0 p1 n j : Nat} {left : Int} {g x : Option Int}
    (hstep : ∀ s k r, s ≤ text.length → R s k → (k = text.length ∨ Goes text (fun c => A c ∨ F c) k) →
      matchnode nodes ic text fuel left s g = .ok r → r = some k)
    (hsnd : ∀ s s', s ≤ text.length → Runs nodes ic text left s s' → R s s')
    (heat : ∀ i k, R i k → i < k ∧ k ≤ text.length) (hfirst : ∀ i k, R i k → Goes text A i)
    (hstop : Halts nodes ic text g F) (hend : j = text.length ∨ Goes text F j)
    (hdis : (p0 = p1 ∧ p0 = n ∧ n < 65535) ∨ ∀ c, ¬ (A c ∧ F c)) (hn : n ≤ p1) (hn2 : n ≤ 65535) :
    ∀ {m k nm s nm' good : Nat}, Iter R m s j → nm + m = n → s ≤ text.length →
      greedyLoop nodes text.length (matchnode nodes ic text fuel) p0 p1 left g x k nm s s = .ok (nm', good) →
      nm' = n ∧ good = j := by
  intro m
  induction m with
  | zero =>
    intro k nm s nm' good hit hnm hs h
    have : s = j := hit
    subst this
    cases k with
    | zero => cases h
    | succ k =>
      rw [greedyLoop] at h
      split at h
      · rename_i hc
        obtain ⟨r, h1, h2⟩ := bind_some_ok h
        cases r with
        | none => cases h2; exact ⟨by omega, rfl⟩
        | some s1 =>
          exfalso
          have hR := hsnd s s1 hs ⟨_, _, h1⟩
          have hf := hfirst _ _ hR
          have he := heat _ _ hR
          rcases hdis with hdis | hdis
          · omega
          · rcases hend with hend | hend
            · omega
            · exact hf.disjoint hend hdis
      · cases h; exact ⟨by omega, rfl⟩
  | succ m ih =>
    intro k nm s nm' good hit hnm hs h
    obtain ⟨s1, hR, hrest⟩ := hit
    cases k with
    | zero => cases h
    | succ k =>
      rw [greedyLoop, if_pos (by omega)] at h
      obtain ⟨r, h1, h2⟩ := bind_some_ok h
      have he := heat _ _ hR
      -- the next iteration starts with a character of the atom
      have hmore : m ≠ 0 → Goes text A s1 := by
        intro hm
        cases m with
        | zero => exact absurd rfl hm
        | succ m => obtain ⟨s2, hR2, -⟩ := hrest; exact hfirst _ _ hR2
      have hgo : s1 = text.length ∨ Goes text (fun c => A c ∨ F c) s1 := by
        by_cases hm : m = 0
        · subst hm
          have : s1 = j := hrest
          subst this
          exact hend.imp_right fun h => h.mono fun c hc => Or.inr hc
        · exact Or.inr ((hmore hm).mono fun c hc => Or.inl hc)
      have := hstep s s1 r hs hR hgo h1
      subst this
      dsimp only at h2
      obtain ⟨stop, h3, h4⟩ := bind_some_ok h2
      have hdone : m = 0 → s1 = j := by
        rintro rfl; exact hrest
      split at h4
      · rename_i hst
        obtain ⟨hst, hgk⟩ := hst
        cases h4
        rw [hst] at h3
        obtain ⟨i, gn, y, s2, hg, hgn, hty, hrun⟩ := stopTest_true h3
        have hh := hstop i gn hg hgn hty _ s2 he.2 ⟨_, _, hrun⟩
        have hm : m = 0 := by
          by_contra hm
          have hA := hmore hm
          rcases hdis with hdis | hdis
          · unfold greedyOk at hgk
            rw [decide_eq_true_iff] at hgk
            omega
          · rcases hh with hh | hh
            · have := hA.lt; omega
            · exact hA.disjoint hh hdis
        exact ⟨by omega, hdone hm⟩
      · split at h4
        · rename_i hge
          cases h4
          have hm : m = 0 := by
            by_contra hm
            have := (hmore hm).lt; omega
          exact ⟨by omega, hdone hm⟩
        · exact ih hrest (by omega) he.2 h4

/-- The two ways of matching a chain of nodes. -/
def IsChain (nodes : List RNode) (m : Matcher) (x : Option Int) (ch : Nat → Int → Nat → M (Option Nat)) : Prop :=
  (∀ i s r, ch 0 i s ≠ .ok r) ∧ ∀ k i s r n, ch (k + 1) i s = .ok r → nodeAt nodes i = .ok n → ∃ (y : Option Int) (o : Option Nat),
    (y = none ∨ (n.next ≠ -1 ∧ y = some n.next) ∨ (n.next = -1 ∧ y = x)) ∧ m i s y = .ok o ∧
    match o with
    | none => r = none
    | some s1 => if n.next ≠ -1 then ch k n.next s1 = .ok r else r = some s1

theorem exprChain_isChain (m : Matcher) (x : Option Int) : IsChain nodes m x (exprChain nodes m x) := by
  refine ⟨fun i s r h => (by cases h), fun k i s r n h h1 => ?_⟩
  rw [exprChain, h1, bind_ok] at h
  dsimp only at h
  obtain ⟨o, h3, h4⟩ := bind_some_ok h
  refine ⟨_, o, ?_, h3, ?_⟩
  · by_cases hn : n.next ≠ -1
    · rw [if_pos hn]; exact Or.inr (Or.inl ⟨hn, rfl⟩)
    · rw [if_neg hn]; exact Or.inr (Or.inr ⟨by simpa using hn, rfl⟩)
  · cases o with
    | none => cases h4; rfl
    | some s1 =>
      dsimp only at h4 ⊢
      split
      · rename_i hn; rw [if_pos hn] at h4; exact h4
      · rename_i hn; rw [if_neg hn] at h4; cases h4; rfl

theorem orChain_isChain (m : Matcher) (x : Option Int) : IsChain nodes m x (orChain nodes m) := by
  refine ⟨fun i s r h => (by cases h), fun k i s r n h h1 => ?_⟩
  rw [orChain] at h
  obtain ⟨o, h3, h4⟩ := bind_some_ok h
  refine ⟨_, o, Or.inl rfl, h3, ?_⟩
  cases o with
  | none => cases h4; rfl
  | some s1 =>
    dsimp only at h4 ⊢
    rw [h1, bind_ok] at h4
    split
    · rename_i hn; rw [if_pos hn] at h4; exact h4
    · rename_i hn; rw [if_neg hn] at h4; cases h4; rfl

/-- At the end of the text or before a character in `F`. -/
def Ends (text : CStr) (F : Char → Prop) (j : Nat) : Prop := j = text.length ∨ Goes text F j

def AtomK (nodes : List RNode) (ic : Bool) (text : CStr) (a : Atom) : Prop :=
  ∀ {F : Char → Prop} {lo hi i : Nat} {nx : Int} {s j : Nat} {x : Option Int} {fuel : Nat} {r : Option Nat},
    a.Ok → a.Spare → a.Det ic F → RepAtom nodes a lo hi i nx → Halts nodes ic text x F → s ≤ text.length →
    a.Matches ic text s j → Ends text F j → matchnode nodes ic text fuel i s x = .ok r → r = some j

def ElemsK (nodes : List RNode) (ic : Bool) (text : CStr) (es : Elems) : Prop :=
  ∀ {F : Char → Prop} {lo hi i s j : Nat} {x : Option Int} {fuel k : Nat} {r : Option Nat} {ch : Nat → Int → Nat → M (Option Nat)},
    es.Ok → es.Spare → es.Det ic F → RepElems nodes es lo hi i → Halts nodes ic text x F → s ≤ text.length →
    es.Matches ic text s j → Ends text F j → IsChain nodes (matchnode nodes ic text fuel) x ch → ch k i s = .ok r → r = some j

def ReK (nodes : List RNode) (ic : Bool) (text : CStr) (re : Re) : Prop :=
  ∀ {F : Char → Prop} {lo hi i s j : Nat} {x : Option Int} {fuel k : Nat} {r : Option Nat} {ch : Nat → Int → Nat → M (Option Nat)},
    re.Ok → re.Spare → re.Det ic F → RepRe nodes re lo hi i → Halts nodes ic text x F → s ≤ text.length →
    re.Matches ic text s j → Ends text F j → IsChain nodes (matchnode nodes ic text fuel) x ch → ch k i s = .ok r → r = some j

theorem matchnode_eq {fuel i s : Nat} {x : Option Int} {n : RNode} {r : Option Nat} (hn : nodes[i]? = some n)
    (h : matchnode nodes ic text fuel i s x = .ok r) : ∃ f, fuel = f + 1 ∧ (do
      let m := matchnode nodes ic text f
      match n.type with
      | .greedy => do
        let greedystop := if n.next ≠ -1 then some n.next else x
        let (nm, good) ← greedyLoop nodes text.length m n.p0 n.p1 n.left greedystop x 65537 0 s s
        if greedyOk n.p0 n.p1 nm then .ok (some good) else .ok none
      | .or => do
        match ← orChain nodes m (nodes.length + 1) n.left s with
        | some s => .ok (some s)
        | none => orChain nodes m (nodes.length + 1) n.right s
      | .expr | .nocap => exprChain nodes m x (nodes.length + 1) n.left s
      | .wb => do
        let b ← wordBoundary text s
        if b then .ok (if intChar n.left = 'b' then some s else none)
        else .ok (if intChar n.left = 'b' then none else some s)
      | .bol => .ok (if s = 0 then some s else none)
      | .eol => .ok (if s = text.length then some s else none)
      | .dot => .ok (some (s + 1))
      | .ncls => do
        let c ← textAt text s
        let b ← matchclass nodes ic c (nodes.length + 1) n.left
        .ok (if b then none else some (s + 1))
      | .cls => do
        let c ← textAt text s
        let b ← matchclass nodes ic c (nodes.length + 1) n.left
        .ok (if b then some (s + 1) else none)
      | .ccls => do
        let c ← textAt text s
        .ok (if matchcclass (intChar n.left) c then some (s + 1) else none)
      | .range => .ok none
      | .char d => do
        let c ← textAt text s
        if ic then
          .ok (if c ≠ toLower d ∧ c ≠ toUpper d then none else some (s + 1))
        else .ok (if c ≠ d then none else some (s + 1)) : M (Option Nat)) = .ok r := by
  cases fuel with
  | zero => cases h
  | succ fuel =>
    refine ⟨fuel, rfl, ?_⟩
    rw [matchnode, nodeAt_eq hn, bind_ok] at h
    exact h

theorem textAt_get {s : Nat} {c : Char} (h : text[s]? = some c) : textAt text s = .ok c := by
  have := lt_of_getElem? h
  unfold textAt
  rw [if_pos this, List.getD_eq_getElem?_getD, h]
  rfl

theorem atomK_chr (l : Lit) : AtomK nodes ic text (.chr l) := by
  intro F lo hi i nx s j x fuel r hok hsp hd hrep hh hs hm he h
  unfold RepAtom at hrep
  obtain ⟨_, _, n, hn, _, ht⟩ := hrep
  obtain ⟨f, -, h⟩ := matchnode_eq hn h
  unfold Atom.Matches at hm
  obtain ⟨c, hc, hP, rfl⟩ := hm
  dsimp only at h
  rw [ht] at h
  dsimp only at h
  rw [textAt_get hc, bind_ok] at h
  have hP' := (sameLetter_iff ic).2 hP
  unfold SameChar at hP'
  cases ic with
  | true =>
    rw [if_pos rfl] at h hP'
    rw [if_neg (by tauto)] at h
    cases h; rfl
  | false =>
    rw [if_neg (by simp)] at h hP'
    rw [if_neg (by tauto)] at h
    cases h; rfl

theorem atomK_cls (l : Char) : AtomK nodes ic text (.cls l) := by
  intro F lo hi i nx s j x fuel r hok hsp hd hrep hh hs hm he h
  unfold RepAtom at hrep
  obtain ⟨_, _, n, hn, _, ht, hl⟩ := hrep
  obtain ⟨f, -, h⟩ := matchnode_eq hn h
  unfold Atom.Matches at hm
  unfold Atom.Ok at hok
  obtain ⟨c, hc, hP, rfl⟩ := hm
  dsimp only at h
  rw [ht] at h
  dsimp only at h
  rw [textAt_get hc, bind_ok, hl, intChar_charInt, if_pos ((matchcclass_iff hok c).2 hP)] at h
  cases h; rfl

theorem atomK_eol : AtomK nodes ic text .eol := by
  intro F lo hi i nx s j x fuel r hok hsp hd hrep hh hs hm he h
  unfold RepAtom at hrep
  obtain ⟨_, _, n, hn, _, ht⟩ := hrep
  obtain ⟨f, -, h⟩ := matchnode_eq hn h
  unfold Atom.Matches at hm
  obtain ⟨rfl, hl⟩ := hm
  dsimp only at h
  rw [ht] at h
  dsimp only at h
  rw [if_pos hl] at h
  cases h; rfl

theorem atomK_set (neg : Bool) (y : SetItem) (ys : List SetItem) : AtomK nodes ic text (.set neg y ys) := by
  intro F lo hi i nx s j x fuel r hok hsp hd hrep hh hs hm he h
  unfold RepAtom at hrep
  obtain ⟨_, _, n, hn, _, ht, hit⟩ := hrep
  obtain ⟨f, -, h⟩ := matchnode_eq hn h
  unfold Atom.Matches at hm
  unfold Atom.Ok at hok
  unfold Atom.Spare at hsp
  obtain ⟨rfl, -⟩ := hsp
  obtain ⟨c, hc, hP, rfl⟩ := hm
  dsimp only at h
  rw [ht] at h
  simp only [Bool.false_eq_true, if_false] at h hP
  rw [textAt_get hc, bind_ok] at h
  obtain ⟨b, hb, h⟩ := bind_some_ok h
  have := (matchclass_rep (by simp) hok.1 hit hb).2 hP
  subst this
  cases h; rfl

theorem atomK_group (capture : Bool) (re : Re) (ih : ReK nodes ic text re) : AtomK nodes ic text (.group capture re) := by
  intro F lo hi i nx s j x fuel r hok hsp hd hrep hh hs hm he h
  unfold RepAtom at hrep
  obtain ⟨_, _, n, hn, _, ht, k, hk, hre⟩ := hrep
  obtain ⟨f, -, h⟩ := matchnode_eq hn h
  unfold Atom.Matches at hm
  unfold Atom.Ok at hok
  unfold Atom.Spare at hsp
  unfold Atom.Det at hd
  dsimp only at h
  rw [ht, hk] at h
  have h' : exprChain nodes (matchnode nodes ic text f) x (nodes.length + 1) k s = .ok r := by
    cases capture with
    | true => exact h
    | false => exact h
  exact ih hok.1 hsp hd.2 hre hh hs hm he (exprChain_isChain _ x) h'

theorem quant_bounds {q : Quant} (h1 : q ≠ .once) (hq : q.Ok) {n : Nat} (h : q.Allows n) (hn : n ≤ 65535) :
    n ≤ (quantBounds q).2 ∧ greedyOk (quantBounds q).1 (quantBounds q).2 n = true := by
  unfold greedyOk
  rw [decide_eq_true_iff]
  cases q with
  | once => exact absurd rfl h1
  | star => simp [quantBounds]; omega
  | plus => have : 1 ≤ n := h; simp [quantBounds]; omega
  | opt => have : n ≤ 1 := h; simp [quantBounds]; omega
  | exactly k => have : n = k := h; simp [quantBounds]; omega
  | atLeast k => have : k ≤ n := h; simp [quantBounds]; omega
  | between k m => have : k ≤ n ∧ n ≤ m := h; simp [quantBounds]; omega
  | raw lo hi =>
    have h : bound lo ≤ n ∧ (upperBound lo hi = 65535 ∨ n ≤ upperBound lo hi) := h
    simp only [quantBounds]
    omega

theorem quantK {a : Atom} (ha : AtomK nodes ic text a) {q : Quant} {F : Char → Prop} {lo hi i : Nat} {nx : Int} {s j : Nat}
    {x : Option Int} {fuel : Nat} {r : Option Nat} (hlen : text.length ≤ 65535) (hok : a.Ok) (hq : q.Ok) (hsp : a.Spare)
    (hd : ElemDet (a.First ic) a.Eats (a.Det ic) q F) (hrep : RepQ nodes (RepAtom nodes a) q lo hi i nx)
    (hh : Halts nodes ic text x F) (hg : Halts nodes ic text (if nx ≠ -1 then some nx else x) F) (hs : s ≤ text.length)
    (hm : Repeated q (a.Matches ic text) s j) (he : Ends text F j) (h : matchnode nodes ic text fuel i s x = .ok r) : r = some j := by
  unfold RepQ at hrep
  split at hrep
  · rename_i h1
    subst h1
    obtain ⟨n, hn, hit⟩ := hm
    have : n = 1 := hn
    subst this
    obtain ⟨k, hk, hk'⟩ := hit
    have : k = j := hk'
    subst this
    exact ha hok hsp hd hrep hh hs hk he h
  · rename_i h1
    obtain ⟨_, _, n, hn, hnx, ht, hb, k, hk, hat⟩ := hrep
    obtain ⟨f, -, h⟩ := matchnode_eq hn h
    dsimp only at h
    obtain ⟨b1, b2⟩ := greedy_bounds hq hb
    rw [ht, hk, b1, b2, hnx] at h
    obtain ⟨⟨nm, good⟩, h2, h3⟩ := bind_some_ok h
    dsimp only at h3
    obtain ⟨c, hc, hit⟩ := hm
    have heats := elemDet_eats hd h1
    have hspan : ∀ i k, a.Matches ic text i k → i < k ∧ k ≤ text.length := fun i k hik => by
      have := atom_span ic text a hik
      have h5 := this.2.2 heats
      exact ⟨h5, this.2.1 h5⟩
    have hcn : c ≤ 65535 := by
      by_cases h0 : c = 0
      · omega
      · have h5 := iter_lt (fun i k hik => (hspan i k hik).1) hit
        have h6 := (iter_span (fun i k hik => atom_span ic text a hik) hit).2.1 (by omega)
        omega
    obtain ⟨q1, q2⟩ := quant_bounds h1 hq hc hcn
    have hdet : a.Det ic (fun c => a.First ic c ∨ F c) := by
      unfold ElemDet at hd
      cases q with
      | once => exact absurd rfl h1
      | exactly n => exact hd.2
      | _ => exact hd.2.1
    have hdis : ((quantBounds q).1 = (quantBounds q).2 ∧ (quantBounds q).1 = c ∧ c < 65535) ∨ ∀ d, ¬ (a.First ic d ∧ F d) := by
      unfold ElemDet at hd
      cases q with
      | once => exact absurd rfl h1
      | exactly n =>
        have h7 : c = n := hc
        have h8 : n < 32768 := hq
        exact Or.inl ⟨rfl, h7.symm, by omega⟩
      | _ => exact Or.inr hd.2.2
    have hcl := atom_clean nodes ic a hok hsp hat (Or.inl rfl)
    have := greedyLoop_exact (R := a.Matches ic text) (A := a.First ic) (F := F) (n := c) (j := j)
      (fun s k r hs hR hgo hmn => ha hok hsp hdet hat (hg.mono fun c hc => Or.inr hc) hs hR hgo hmn)
      (fun s s' hs hr => (atom_snd nodes ic text a hok hat hr).2 (runs_pos hcl hr hs))
      hspan (fun i k hik => atom_first ic text a hdet hik (hspan i k hik).1) hg he hdis q1 hcn hit (by omega) hs h2
    obtain ⟨rfl, rfl⟩ := this
    rw [if_pos q2] at h3
    cases h3; rfl

theorem elemsK_last (hlen : text.length ≤ 65535) (a : Atom) (q : Quant) (ha : AtomK nodes ic text a) : ElemsK nodes ic text (.last a q) := by
  intro F lo hi i s j x fuel k r ch hok hsp hd hrep hh hs hm he hch h
  unfold Elems.Ok at hok; unfold Elems.Spare at hsp; unfold Elems.Det at hd; unfold RepElems at hrep; unfold Elems.Matches at hm
  obtain ⟨n, hn, hnx⟩ := repQ_node hrep
  cases k with
  | zero => exact absurd h (hch.1 _ _ _)
  | succ k =>
    obtain ⟨y, o, hy, h1, h2⟩ := hch.2 _ _ _ _ _ h (nodeAt_eq hn)
    have hhy : Halts nodes ic text y F := by
      rcases hy with hy | hy | hy
      · rw [hy]; exact halts_none
      · exact absurd hnx hy.1
      · rw [hy.2]; exact hh
    have := quantK ha hlen hok.1 hok.2 hsp hd hrep hhy (by rw [if_neg (by simp)]; exact hhy) hs hm he h1
    subst this
    dsimp only at h2
    rw [if_neg (by simpa using hnx)] at h2
    exact h2

theorem elemsK_more (hlen : text.length ≤ 65535) (a : Atom) (q : Quant) (es : Elems) (ha : AtomK nodes ic text a)
    (hes : ElemsK nodes ic text es) : ElemsK nodes ic text (.more a q es) := by
  intro F lo hi i s j x fuel k r ch hok hsp hd hrep hh hs hm he hch h
  unfold Elems.Ok at hok; unfold Elems.Spare at hsp; unfold Elems.Det at hd; unfold RepElems at hrep; unfold Elems.Matches at hm
  obtain ⟨m, k', _, _, hq, hre⟩ := hrep
  obtain ⟨n, hn, hnx⟩ := repQ_node hq
  obtain ⟨j', hm1, hm2⟩ := hm
  have hne : n.next ≠ -1 := by rw [hnx]; omega
  have hstop : Halts nodes ic text (some (k' : Int)) (fun c => es.First ic c ∨ ¬ es.Eats ∧ F c) :=
    (halts_elems hok.2.2.1 hsp.2 hd.2 hre).mono fun c hc => Or.inl hc
  have hs2 := elems_span ic text es hm2
  have hs1 := repeated_span (fun i j h => atom_span ic text a h) hm1
  have hend : Ends text (fun c => es.First ic c ∨ ¬ es.Eats ∧ F c) j' := by
    by_cases hlt : j' < j
    · exact Or.inr ((elems_first ic text es hd.2 hm2 hlt).mono fun c hc => Or.inl hc)
    · have : j' = j := by have := hs2.1; omega
      subst this
      refine he.imp_right fun h => h.mono fun c hc => Or.inr ⟨fun hE => ?_, hc⟩
      have := hs2.2.2 hE
      omega
  have hj' : j' ≤ text.length := by
    by_cases hlt : s < j'
    · exact hs1.2.1 hlt
    · have := hs1.1; omega
  cases k with
  | zero => exact absurd h (hch.1 _ _ _)
  | succ k =>
    obtain ⟨y, o, hy, h1, h2⟩ := hch.2 _ _ _ _ _ h (nodeAt_eq hn)
    have hhy : Halts nodes ic text y (fun c => es.First ic c ∨ ¬ es.Eats ∧ F c) := by
      rcases hy with hy | hy | hy
      · rw [hy]; exact halts_none
      · rw [hy.2, hnx]; exact hstop
      · exact absurd hy.1 hne
    have := quantK ha hlen hok.1 hok.2.1 hsp.1 hd.1 hq hhy (by rw [if_pos (by omega)]; exact hstop) hs hm1 hend h1
    subst this
    dsimp only at h2
    rw [if_pos hne, hnx] at h2
    exact hes hok.2.2.1 hsp.2 hd.2 hre hh hj' hm2 he hch h2

theorem branchK {es : Elems} (hes : ElemsK nodes ic text es) {F : Char → Prop} {bol : Bool} {lo hi i s j : Nat} {x : Option Int} {fuel k : Nat}
    {r : Option Nat} {ch : Nat → Int → Nat → M (Option Nat)}
    (hok : es.Ok) (hsp : es.Spare) (hd : es.Det ic F) (hrep : RepBranch nodes (RepElems nodes es) bol lo hi i)
    (hh : Halts nodes ic text x F) (hs : s ≤ text.length) (hm : (bol = true → s = 0) ∧ es.Matches ic text s j)
    (he : Ends text F j) (hch : IsChain nodes (matchnode nodes ic text fuel) x ch) (h : ch k i s = .ok r) : r = some j := by
  unfold RepBranch at hrep
  split at hrep
  · rename_i hb
    obtain ⟨_, _, n, hn, ht, k', hk, hre⟩ := hrep
    have hne : n.next ≠ -1 := by rw [hk]; omega
    cases k with
    | zero => exact absurd h (hch.1 _ _ _)
    | succ k =>
      obtain ⟨y, o, hy, h1, h2⟩ := hch.2 _ _ _ _ _ h (nodeAt_eq hn)
      obtain ⟨f, -, h1⟩ := matchnode_eq hn h1
      dsimp only at h1
      rw [ht] at h1
      dsimp only at h1
      rw [if_pos (hm.1 hb)] at h1
      cases h1
      dsimp only at h2
      rw [if_pos hne, hk] at h2
      exact hes hok hsp hd hre hh hs hm.2 he hch h2
  · exact hes hok hsp hd hrep hh hs hm.2 he hch h

theorem reK_alt (bol : Bool) (es : Elems) (re : Re) (hes : ElemsK nodes ic text es) (hre : ReK nodes ic text re) :
    ReK nodes ic text (.alt bol es re) := by
  intro F lo hi i s j x fuel k r ch hok hsp hd hrep hh hs hm he hch h
  unfold Re.Ok at hok; unfold Re.Spare at hsp; unfold Re.Det at hd; unfold RepRe at hrep; unfold Re.Matches at hm
  obtain ⟨n, hn, ht, hx, _, _, k1, k2, hk1, hk2, hb, hrr⟩ := hrep
  cases k with
  | zero => exact absurd h (hch.1 _ _ _)
  | succ k =>
    obtain ⟨y, o, hy, h1, h2⟩ := hch.2 _ _ _ _ _ h (nodeAt_eq hn)
    obtain ⟨f, -, h1⟩ := matchnode_eq hn h1
    dsimp only at h1
    rw [ht, hk1, hk2] at h1
    obtain ⟨o1, h3, h4⟩ := bind_some_ok h1
    have ho : o = some j := by
      rcases hm with hm | hm
      · have := branchK hes hok.1 hsp.1 hd.2.1 hb halts_none hs hm he (orChain_isChain _ none) h3
        subst this
        cases h4; rfl
      · cases o1 with
        | none => exact hre hok.2.1 hsp.2 hd.2.2.1 hrr halts_none hs hm he (orChain_isChain _ none) h4
        | some s1 =>
          exfalso
          have hcl : CleanAt nodes ic k1 := branchL (elems_clean nodes ic es) hok.1 hsp.1 hb
          have hpos := orChain_pos cleanAt_clean (clean_pos cleanAt_clean f) hcl hs h3
          have hsnd := (branch_snd (elems_snd nodes ic text es) hok.1 hb (orChain_ran h3)).2 hpos
          have hsp1 := elems_span ic text es hsnd.2
          have hlt := hsp1.2.2 hd.1
          have hfst := elems_first ic text es hd.2.1 hsnd.2 hlt
          have hsp2 := re_span ic text re hm
          by_cases hlt2 : s < j
          · exact hfst.disjoint ((re_first ic text re hd.2.2.1 hm hlt2).mono fun c hc => Or.inl hc) hd.2.2.2
          · have : s = j := by have := hsp2.1; omega
            subst this
            rcases he with he | he
            · omega
            · refine hfst.disjoint (he.mono fun c hc => Or.inr ⟨fun hE => ?_, hc⟩) hd.2.2.2
              have := hsp2.2.2 hE
              omega
    subst ho
    dsimp only at h2
    rw [if_neg (by simpa using hx)] at h2
    exact h2

mutual
theorem atom_exact (nodes : List RNode) (ic : Bool) (text : CStr) (hlen : text.length ≤ 65535) : ∀ a : Atom, AtomK nodes ic text a
  | .chr l => atomK_chr l
  | .cls l => atomK_cls l
  | .any => fun _ hsp => absurd hsp (by unfold Atom.Spare; exact id)
  | .eol => atomK_eol
  | .edge _ => fun _ hsp => absurd hsp (by unfold Atom.Spare; exact id)
  | .set neg x xs => atomK_set neg x xs
  | .group capture r => atomK_group capture r (re_exact nodes ic text hlen r)
theorem elems_exact (nodes : List RNode) (ic : Bool) (text : CStr) (hlen : text.length ≤ 65535) : ∀ es : Elems, ElemsK nodes ic text es
  | .last a q => elemsK_last hlen a q (atom_exact nodes ic text hlen a)
  | .more a q es => elemsK_more hlen a q es (atom_exact nodes ic text hlen a) (elems_exact nodes ic text hlen es)
theorem re_exact (nodes : List RNode) (ic : Bool) (text : CStr) (hlen : text.length ≤ 65535) : ∀ r : Re, ReK nodes ic text r
  | .branch bol es => fun hok hsp hd hrep hh hs hm he hch h => by
    unfold Re.Ok at hok; unfold Re.Spare at hsp; unfold Re.Det at hd; unfold RepRe at hrep; unfold Re.Matches at hm
    exact branchK (elems_exact nodes ic text hlen es) hok.1 hsp hd hrep hh hs hm he hch h
  | .alt bol es r => reK_alt bol es r (elems_exact nodes ic text hlen es) (re_exact nodes ic text hlen r)
end

/-- A deterministic pattern decides its language. -/
theorem rexMatch_exact {r : Re} (hok : r.Ok) (hfit : r.Compiles) (hsp : r.Spare) (hd : r.Det ic (fun _ => False))
    (hlen : text.length ≤ 65535) : ∃ (nodes : List RNode) (b : Bool), rexCompile r.text = .ok (some nodes) ∧
      rexMatch nodes ic text = .ok b ∧ (b = true ↔ r.Accepts ic text) := by
  rcases rexCompile_rep (E := False) hok (Or.inr hfit) with ⟨h, _⟩ | ⟨-, nodes, n, k, hc, h0, ht, hl, hx, hrep⟩
  · exact h.elim
  · have hne : r.text ≠ [] := by intro h; rw [h] at hc; cases hc
    have hp := rexCompile_post hne
    rw [hc] at hp
    have hpost := rexMatch_post (P := False) ic text hp.1 (fun h => h.elim)
    have hcl : CleanAt nodes ic (0 : Nat) := by
      refine .intro (nodeAt_eq h0) ⟨Or.inl hx, ?_⟩
      rw [ht]
      show CleanAt nodes ic n.left
      rw [hl]
      exact re_clean nodes ic r hok hsp hrep
    have hnp : NP (rexMatch nodes ic text) := by
      unfold rexMatch
      exact NP.bind (clean_np cleanAt_clean _ _ _ _ hcl (by simp) (Nat.zero_le _)) fun _ _ => np_ok _
    cases hm : rexMatch nodes ic text with
    | error e =>
      rw [hm] at hpost hnp
      exact absurd (by rw [hpost.1]) hnp
    | ok b =>
      refine ⟨nodes, b, hc, hm ▸ rfl, ⟨?_, ?_⟩⟩
      · rintro rfl; exact rexMatch_sound hok hc hm
      · intro hacc
        unfold rexMatch at hm
        obtain ⟨o, h1, h2⟩ := bind_some_ok hm
        obtain ⟨f, -, h3⟩ := matchnode_eq (i := 0) h0 h1
        dsimp only at h3
        rw [ht, hl] at h3
        have := re_exact nodes ic text hlen r hok hsp hd hrep halts_none (Nat.zero_le _) hacc (Or.inl rfl) (exprChain_isChain _ none) h3
        subst this
        cases h2
        simp

end

end Argtable
