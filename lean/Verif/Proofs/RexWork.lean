import Verif.Model.RexWork
import Verif.Spec.RexWork
import Verif.Proofs.RegexRun
import Verif.Proofs.RegexDec
import Verif.Proofs.RegexTrees
import Mathlib.Data.Nat.Choose.Basic
/-!
# Helper lemmas: how much work a pattern causes
-/

namespace Argtable
open Spec

/-! ### counting -/

theorem Counted.bind_out {α β : Type} (x : Counted α) (f : α → Counted β) :
    (x >>= f).out = x.out >>= fun a => (f a).out := by
  obtain ⟨o, c⟩ := x
  cases o <;> rfl

theorem Counted.bind_calls {α β : Type} (x : Counted α) (f : α → Counted β) {a : α} (h : x.out = .ok a) :
    (x >>= f).calls = x.calls + (f a).calls := by
  obtain ⟨o, c⟩ := x
  dsimp only at h
  subst h
  rfl

theorem Counted.bind_calls_le {α β : Type} {x : Counted α} {f : α → Counted β} {A B : Nat} (hx : x.calls ≤ A)
    (hf : ∀ a, x.out = .ok a → (f a).calls ≤ B) : (x >>= f).calls ≤ A + B := by
  obtain ⟨o, c⟩ := x
  dsimp only at hx hf
  cases o with
  | error e => show c ≤ A + B; omega
  | ok a =>
    have := hf a rfl
    show c + (f a).calls ≤ A + B
    omega

theorem Counted.le_bind_calls {α β : Type} (x : Counted α) (f : α → Counted β) : x.calls ≤ (x >>= f).calls := by
  obtain ⟨o, c⟩ := x
  cases o with
  | error e => exact Nat.le_refl _
  | ok a => exact Nat.le_add_right _ _

theorem free_out {α : Type} (x : M α) : (free x).out = x := rfl
theorem free_calls {α : Type} (x : M α) : (free x).calls = 0 := rfl
theorem pure_out {α : Type} (a : α) : (pure a : Counted α).out = .ok a := rfl
theorem pure_calls {α : Type} (a : α) : (pure a : Counted α).calls = 0 := rfl

theorem free_bind {α β : Type} {x : M α} {f : α → Counted β} {a : α} (h : x = .ok a) : (free x >>= f) = ⟨(f a).out, 0 + (f a).calls⟩ := by
  subst h; rfl

theorem tick_bind {β : Type} (f : Unit → Counted β) : (tick >>= f) = ⟨(f ()).out, 1 + (f ()).calls⟩ := rfl

/-! ### the counter changes nothing -/

section
variable {nodes : List RNode}

theorem greedyStopTestN_out {mc : MatcherN} {m : Matcher} (h : ∀ i s x, (mc i s x).out = m i s x) (g x : Option Int) (s : Nat) :
    (greedyStopTestN nodes mc g x s).out = greedyStopTest nodes m g x s := by
  unfold greedyStopTestN greedyStopTest
  cases g with
  | none => rfl
  | some g =>
    dsimp only
    rw [Counted.bind_out, free_out]
    congr 1
    funext gn
    split
    · rw [Counted.bind_out, free_out]
      congr 1
      funext gnext
      rw [Counted.bind_out, h]
      rfl
    · rfl

theorem greedyLoopN_out {mc : MatcherN} {m : Matcher} (h : ∀ i s x, (mc i s x).out = m i s x) {eol p0 p1 : Nat} {left : Int}
    {g x : Option Int} : ∀ {k nm s good : Nat},
    (greedyLoopN nodes eol mc p0 p1 left g x k nm s good).out = greedyLoop nodes eol m p0 p1 left g x k nm s good := by
  intro k
  induction k with
  | zero => intro nm s good; rfl
  | succ k ih =>
    intro nm s good
    rw [greedyLoopN, greedyLoop]
    split
    · rw [Counted.bind_out, h]
      congr 1
      funext r
      cases r with
      | none => rfl
      | some s' =>
        dsimp only
        rw [Counted.bind_out, greedyStopTestN_out h]
        congr 1
        funext st
        split
        · rfl
        · split
          · rfl
          · exact ih
    · rfl

theorem orChainN_out {mc : MatcherN} {m : Matcher} (h : ∀ i s x, (mc i s x).out = m i s x) : ∀ {k : Nat} {i : Int} {s : Nat},
    (orChainN nodes mc k i s).out = orChain nodes m k i s := by
  intro k
  induction k with
  | zero => intro i s; rfl
  | succ k ih =>
    intro i s
    rw [orChainN, orChain, Counted.bind_out, h]
    congr 1
    funext r
    cases r with
    | none => rfl
    | some s' =>
      dsimp only
      rw [Counted.bind_out, free_out]
      congr 1
      funext n
      split
      · exact ih
      · rfl

theorem exprChainN_out {mc : MatcherN} {m : Matcher} (h : ∀ i s x, (mc i s x).out = m i s x) {x : Option Int} : ∀ {k : Nat} {i : Int} {s : Nat},
    (exprChainN nodes mc x k i s).out = exprChain nodes m x k i s := by
  intro k
  induction k with
  | zero => intro i s; rfl
  | succ k ih =>
    intro i s
    rw [exprChainN, exprChain, Counted.bind_out, free_out]
    congr 1
    funext n
    dsimp only
    rw [Counted.bind_out, h]
    congr 1
    funext r
    cases r with
    | none => rfl
    | some s' =>
      dsimp only
      split
      · exact ih
      · rfl

theorem matchnodeN_out (ic : Bool) (text : CStr) : ∀ (fuel : Nat) (i : Int) (s : Nat) (x : Option Int),
    (matchnodeN nodes ic text fuel i s x).out = matchnode nodes ic text fuel i s x := by
  intro fuel
  induction fuel with
  | zero => intro i s x; rfl
  | succ fuel ih =>
    intro i s x
    rw [matchnodeN, tick_bind]
    dsimp only
    rw [Counted.bind_out, free_out]
    conv_rhs => rw [matchnode]
    cases hn : nodeAt nodes i with
    | error e => rw [bind_err, bind_err]
    | ok n =>
      rw [bind_ok, bind_ok]
      cases ht : n.type with
      | greedy =>
        dsimp only
        rw [Counted.bind_out, greedyLoopN_out ih]
        congr 1
        funext p
        split <;> rfl
      | or =>
        dsimp only
        rw [Counted.bind_out, orChainN_out ih]
        congr 1
        funext r
        cases r with
        | none => exact orChainN_out ih
        | some s' => rfl
      | expr => exact exprChainN_out ih
      | nocap => exact exprChainN_out ih
      | _ =>
        dsimp only
        rw [free_out, matchnode, hn, bind_ok]
        dsimp only
        rw [ht]

theorem rexMatchN_out (ic : Bool) (text : CStr) : (rexMatchN nodes ic text).out = rexMatch nodes ic text := by
  unfold rexMatchN rexMatch
  rw [Counted.bind_out, matchnodeN_out]
  rfl

theorem rexScanN_out (pat : CStr) (ic : Bool) (mx : Int) (o : StrObj) (a : Option CStr) :
    (rexScanN pat ic mx o a).out = rexScan pat ic mx o a := by
  unfold rexScanN rexScan
  split
  · rfl
  · cases a with
    | none => rfl
    | some a =>
      dsimp only
      rw [Counted.bind_out, free_out]
      congr 1
      funext r
      cases r with
      | none => rfl
      | some nodes =>
        dsimp only
        rw [Counted.bind_out, rexMatchN_out]
        congr 1
        funext b
        cases b with
        | true =>
          rw [if_pos rfl, if_pos rfl, Counted.bind_out, free_out]
          rfl
        | false => rfl

end

/-! ### an upper bound -/

theorem quant_tries_pos (q : Quant) (e : Prop) (n : Nat) : 1 ≤ q.tries e n := by
  unfold Quant.tries
  split <;> omega

mutual
theorem re_tries_pos (n : Nat) : ∀ r : Re, 1 ≤ r.tries n
  | .branch _ es => by rw [Re.tries]; exact elems_tries_pos n es
  | .alt _ es r => by rw [Re.tries]; exact Nat.mul_pos (elems_tries_pos n es) (re_tries_pos n r)
theorem elems_tries_pos (n : Nat) : ∀ es : Elems, 1 ≤ es.tries n
  | .last a q => by rw [Elems.tries]; exact Nat.mul_pos (quant_tries_pos _ _ _) (atom_tries_pos n a)
  | .more a q es => by
    rw [Elems.tries]
    exact Nat.mul_pos (Nat.mul_pos (quant_tries_pos _ _ _) (atom_tries_pos n a)) (elems_tries_pos n es)
theorem atom_tries_pos (n : Nat) : ∀ a : Atom, 1 ≤ a.tries n
  | .group _ r => by rw [Atom.tries]; exact re_tries_pos n r
  | .chr _ | .cls _ | .any | .set _ _ _ | .eol | .edge _ => by rw [Atom.tries] <;> simp
end

section
variable {nodes : List RNode} {ic : Bool} {text : CStr}

/-- Looking at the node `x`, if any, takes at most `K` calls. -/
def LookCost (nodes : List RNode) (ic : Bool) (text : CStr) (x : Option Int) (K : Nat) : Prop :=
  ∀ fuel nxt s, nxt = none ∨ nxt = x → (greedyStopTestN nodes (matchnodeN nodes ic text fuel) x nxt s).calls ≤ K

theorem lookCost_none : LookCost nodes ic text none 0 := fun _ _ _ _ => Nat.le_refl _

theorem LookCost.mono {x : Option Int} {K K' : Nat} (h : LookCost nodes ic text x K) (hk : K ≤ K') :
    LookCost nodes ic text x K' := fun fuel nxt s hn => Nat.le_trans (h fuel nxt s hn) hk

/-- The loop of a repetition. -/
theorem loop_calls {fuel P K most : Nat} {p0 p1 : Nat} {left : Int} {g x : Option Int}
    (hp : ∀ s, (matchnodeN nodes ic text fuel left s g).calls ≤ P) (hx : x = none ∨ x = g)
    (ha : LookCost nodes ic text g K) (hmost : ∀ nm, nm ≤ most → (nm = 65535 ∨ nm < p1) → nm < most) {eats : Prop}
    (heat : eats → ∀ s s', (matchnodeN nodes ic text fuel left s g).out = .ok (some s') → s' < text.length → s < s') :
    ∀ {k nm s good d : Nat}, nm ≤ most → (most ≤ nm + d ∨ eats ∧ 1 ≤ d ∧ text.length + 1 ≤ s + d) →
    (greedyLoopN nodes text.length (matchnodeN nodes ic text fuel) p0 p1 left g x k nm s good).calls ≤ d * (P + K) := by
  intro k
  induction k with
  | zero => intro nm s good d _ _; exact Nat.zero_le _
  | succ k ih =>
    intro nm s good d hnm hd
    rw [greedyLoopN]
    split
    · rename_i hgo
      have hlt := hmost nm hnm hgo
      obtain ⟨d, rfl⟩ : ∃ e, d = e + 1 := ⟨d - 1, by omega⟩
      have e1 : (d + 1) * (P + K) = P + (K + d * (P + K)) := by ring
      rw [e1]
      refine Counted.bind_calls_le (hp s) fun r hr => ?_
      cases r with
      | none => exact Nat.zero_le _
      | some s' =>
        dsimp only
        refine Counted.bind_calls_le (ha fuel x s' hx) fun st _ => ?_
        split
        · exact Nat.zero_le _
        · split
          · exact Nat.zero_le _
          · rename_i hs'
            refine ih (by omega) ?_
            rcases hd with hd | ⟨he, h1, h2⟩
            · left; omega
            · right
              have := heat he s s' hr (by omega)
              exact ⟨he, by omega, by omega⟩
    · exact Nat.zero_le _

/-- What the bound means for an atom, a sequence, a pattern. -/
def AtomB (nodes : List RNode) (ic : Bool) (text : CStr) (a : Atom) : Prop :=
  ∀ {lo hi i : Nat} {nx : Int} {x : Option Int} {K fuel s : Nat}, a.Ok → RepAtom nodes a lo hi i nx →
    LookCost nodes ic text x K → (matchnodeN nodes ic text fuel i s x).calls + K ≤ a.tries text.length * (a.size + K)

/-- A chain of nodes: a group or an alternative. -/
inductive ChainB (nodes : List RNode) (m : MatcherN) (x : Option Int) : (Nat → Int → Nat → Counted (Option Nat)) → Prop
  | seq : ChainB nodes m x (exprChainN nodes m x)
  | alt : x = none → ChainB nodes m x (orChainN nodes m)

def ElemsB (nodes : List RNode) (ic : Bool) (text : CStr) (es : Elems) : Prop :=
  ∀ {lo hi i : Nat}, es.Ok → RepElems nodes es lo hi i →
    LookCost nodes ic text (some (i : Int)) (es.tries text.length * es.size) ∧
    ∀ {x : Option Int} {K fuel k s : Nat} {ch : Nat → Int → Nat → Counted (Option Nat)},
      LookCost nodes ic text x K → ChainB nodes (matchnodeN nodes ic text fuel) x ch →
      (ch k i s).calls + K ≤ es.tries text.length * (es.size + K)
def ReB (nodes : List RNode) (ic : Bool) (text : CStr) (r : Re) : Prop :=
  ∀ {lo hi i : Nat} {x : Option Int} {K fuel k s : Nat} {ch : Nat → Int → Nat → Counted (Option Nat)},
    r.Ok → RepRe nodes r lo hi i → LookCost nodes ic text x K → ChainB nodes (matchnodeN nodes ic text fuel) x ch →
      (ch k i s).calls + K ≤ r.tries text.length * (r.size + K)

/-- A node without nodes below it. -/
theorem leaf_calls {i : Nat} {n : RNode} (hn : nodes[i]? = some n)
    (ht : n.type ≠ .greedy ∧ n.type ≠ .or ∧ n.type ≠ .expr ∧ n.type ≠ .nocap) (fuel s : Nat) (x : Option Int) :
    (matchnodeN nodes ic text fuel i s x).calls ≤ 1 := by
  cases fuel with
  | zero => exact Nat.zero_le _
  | succ fuel =>
    rw [matchnodeN, tick_bind, free_bind (nodeAt_eq hn)]
    dsimp only
    split <;> simp_all [free]

theorem atomB_leaf {a : Atom} (ha : a.tries text.length = 1) (hs : 1 ≤ a.size)
    (h : ∀ {lo hi i : Nat} {nx : Int}, RepAtom nodes a lo hi i nx → ∃ n, nodes[i]? = some n ∧
      (n.type ≠ .greedy ∧ n.type ≠ .or ∧ n.type ≠ .expr ∧ n.type ≠ .nocap)) : AtomB nodes ic text a := by
  intro lo hi i nx x K fuel s _ hrep _
  obtain ⟨n, hn, ht⟩ := h hrep
  have := leaf_calls (ic := ic) (text := text) hn ht fuel s x
  rw [ha]
  omega

theorem atomB_group (capture : Bool) (r : Re) (ih : ReB nodes ic text r) : AtomB nodes ic text (.group capture r) := by
  intro lo hi i nx x K fuel s hok hrep hf
  unfold RepAtom at hrep
  obtain ⟨_, _, n, hn, _, ht, k, hk, hre⟩ := hrep
  unfold Atom.Ok at hok
  rw [Atom.tries, Atom.size]
  have hpos := re_tries_pos text.length r
  cases fuel with
  | zero =>
    show 0 + K ≤ _
    exact Nat.le_trans (by omega) (Nat.le_mul_of_pos_left _ hpos)
  | succ fuel =>
    have h1 := ih (fuel := fuel) (k := nodes.length + 1) (s := s) hok.1 hre hf .seq
    have h2 : (matchnodeN nodes ic text (fuel + 1) i s x).calls =
        1 + (0 + (exprChainN nodes (matchnodeN nodes ic text fuel) x (nodes.length + 1) k s).calls) := by
      rw [matchnodeN, tick_bind, free_bind (nodeAt_eq hn)]
      dsimp only
      rw [ht, hk]
      cases capture <;> rfl
    rw [h2]
    nlinarith

/-- An atom with a repetition. -/
theorem elementB {a : Atom} (ha : AtomB nodes ic text a) {q : Quant} (hok : a.Ok) (hq : q.Ok) {lo hi i : Nat} {nx : Int}
    (hrep : RepQ nodes (RepAtom nodes a) q lo hi i nx) {x : Option Int} {K fuel s : Nat}
    (hx : x = none ∨ x = if nx ≠ -1 then some nx else x)
    (hf : LookCost nodes ic text (if nx ≠ -1 then some nx else x) K) :
    (matchnodeN nodes ic text fuel i s x).calls + K ≤ q.tries a.Eats text.length * a.tries text.length * (a.size + q.size + K) := by
  have hpos := atom_tries_pos text.length a
  unfold RepQ at hrep
  split at hrep
  · rename_i h1
    subst h1
    have hx' : LookCost nodes ic text x K := by
      rcases hx with h | h
      · rw [h]; exact lookCost_none.mono (Nat.zero_le _)
      · rw [h]; exact hf
    have := ha (fuel := fuel) (s := s) hok hrep hx'
    rw [show Quant.tries .once a.Eats text.length = 1 from if_pos rfl, show Quant.size .once = 0 from rfl, Nat.one_mul, Nat.add_zero]
    exact this
  · rename_i h1
    obtain ⟨_, _, n, hn, hnx, ht, hb, k, hk, hat⟩ := hrep
    obtain ⟨b1, b2⟩ := greedy_bounds hq hb
    have hqs : q.size = 1 := by cases q <;> first | rfl | exact absurd rfl h1
    rw [hqs]
    unfold Quant.tries
    rw [if_neg h1]
    generalize hN : q.turns a.Eats text.length = N
    cases fuel with
    | zero =>
      show 0 + K ≤ _
      refine Nat.le_trans (by omega) (Nat.le_mul_of_pos_left _ (Nat.mul_pos (Nat.succ_pos N) hpos))
    | succ fuel =>
      have hp := fun s => ha (fuel := fuel) (s := s) hok hat hf
      have hloop := loop_calls (nodes := nodes) (ic := ic) (text := text) (fuel := fuel)
        (P := a.tries text.length * (a.size + K) - K) (K := K) (most := q.most) (p0 := (quantBounds q).1) (p1 := (quantBounds q).2)
        (left := k) (g := if nx ≠ -1 then some nx else x) (x := x) (fun s => by have := hp s; omega) hx hf
        (fun nm h => (goesOn_iff h1 hq h).1) (eats := a.Eats) (fun he s s' h hs' => by
          rw [matchnodeN_out] at h
          have := atom_snd nodes ic text a hok hat ⟨_, _, h⟩
          exact (atom_span ic text a (this.2 (by omega))).2.2 he)
        (k := 65537) (nm := 0) (s := s) (good := s) (d := N) (Nat.zero_le _) (by
          rw [← hN]
          unfold Quant.turns
          split
          · rename_i he
            rcases Nat.le_total q.most (text.length + 1) with h | h
            · left; rw [Nat.min_eq_left h]; omega
            · right; rw [Nat.min_eq_right h]; exact ⟨he, by omega, by omega⟩
          · left; omega)
      have h2 : (matchnodeN nodes ic text (fuel + 1) i s x).calls ≤ 1 + N * (a.tries text.length * (a.size + K)) := by
        rw [matchnodeN, tick_bind, free_bind (nodeAt_eq hn)]
        dsimp only
        rw [ht, hk, b1, b2, hnx]
        dsimp only
        have hK : K ≤ a.tries text.length * (a.size + K) := Nat.le_trans (by omega) (Nat.le_mul_of_pos_left _ hpos)
        rw [Nat.sub_add_cancel hK] at hloop
        have := Counted.bind_calls_le (B := 0) hloop (f := fun p : Nat × Nat =>
          if greedyOk (quantBounds q).1 (quantBounds q).2 p.1 = true then pure (some p.2) else pure none)
          (fun p _ => by split <;> exact Nat.le_refl _)
        omega
      nlinarith

/-- The first element as seen by a repetition. -/
theorem headB {a : Atom} (ha : AtomB nodes ic text a) {q : Quant} (hok : a.Ok) (hq : q.Ok) {lo hi i : Nat} {nx : Int}
    (hrep : RepQ nodes (RepAtom nodes a) q lo hi i nx) {K : Nat}
    (hf : LookCost nodes ic text (if nx ≠ -1 then some nx else none) K) :
    LookCost nodes ic text (some (i : Int)) (q.tries a.Eats text.length * a.tries text.length * (a.size + q.size + K) - K) := by
  intro fuel nxt s hnxt
  obtain ⟨n, hn, hnx⟩ := repQ_node hrep
  unfold greedyStopTestN
  dsimp only
  rw [free_bind (nodeAt_eq hn)]
  dsimp only
  split
  · have hg : greedyNext nodes n nxt = .ok (if nx ≠ -1 then some nx else none) := by
      unfold greedyNext
      rw [hnx]
      by_cases h : nx ≠ -1
      · rw [if_pos h, if_pos h]
      · rw [if_neg h, if_neg h]
        rcases hnxt with h' | h'
        · rw [h']
        · rw [h']
          dsimp only
          rw [nodeAt_eq hn, bind_ok, hnx, if_neg h]
    rw [free_bind hg]
    have := elementB ha hok hq hrep (x := if nx ≠ -1 then some nx else none) (K := K) (fuel := fuel) (s := s)
      (by right; split <;> simp_all) (by
        have : (if nx ≠ -1 then some nx else if nx ≠ -1 then some nx else none) = if nx ≠ -1 then some nx else none := by
          split <;> simp_all
        rw [this]; exact hf)
    have h2 := Counted.bind_calls_le (B := 0) (Nat.le_refl (matchnodeN nodes ic text fuel i s (if nx ≠ -1 then some nx else none)).calls)
      (f := fun stop : Option Nat => (pure stop.isSome : Counted Bool)) (fun _ _ => Nat.le_refl _)
    dsimp only
    omega
  · exact Nat.zero_le _

theorem elemsB_last (a : Atom) (q : Quant) (ha : AtomB nodes ic text a) : ElemsB nodes ic text (.last a q) := by
  intro lo hi i hok hrep
  unfold Elems.Ok at hok
  unfold RepElems at hrep
  rw [Elems.tries, Elems.size]
  obtain ⟨n, hn, hnx⟩ := repQ_node hrep
  constructor
  · exact headB ha hok.1 hok.2 hrep (K := 0) (by rw [if_neg (by simp)]; exact lookCost_none)
  · intro x K fuel k s ch hf hch
    have key := elementB ha hok.1 hok.2 hrep (x := x) (K := K) (fuel := fuel) (s := s) (by right; simp)
      (by rw [if_neg (by simp)]; exact hf)
    have hpos : 1 ≤ q.tries a.Eats text.length * a.tries text.length :=
      Nat.mul_pos (quant_tries_pos _ _ _) (atom_tries_pos _ a)
    cases k with
    | zero =>
      have : K ≤ q.tries a.Eats text.length * a.tries text.length * (a.size + q.size + K) :=
        Nat.le_trans (by omega) (Nat.le_mul_of_pos_left _ hpos)
      cases hch <;> (show 0 + K ≤ _; omega)
    | succ k =>
      cases hch with
      | seq =>
        rw [exprChainN, free_bind (nodeAt_eq hn)]
        dsimp only
        rw [hnx, if_neg (by simp), Nat.zero_add]
        refine Nat.le_trans (Nat.add_le_add_right (Counted.bind_calls_le (B := 0) (Nat.le_refl _) fun r _ => ?_) K) key
        cases r <;> exact Nat.le_refl _
      | alt hx =>
        subst hx
        rw [orChainN]
        refine Nat.le_trans (Nat.add_le_add_right (Counted.bind_calls_le (B := 0) (Nat.le_refl _) fun r _ => ?_) K) key
        cases r with
        | none => exact Nat.le_refl _
        | some s' =>
          dsimp only
          rw [free_bind (nodeAt_eq hn)]
          dsimp only
          rw [hnx, if_neg (by simp)]
          exact Nat.le_refl _

theorem elemsB_more (a : Atom) (q : Quant) (es : Elems) (ha : AtomB nodes ic text a) (hes : ElemsB nodes ic text es) :
    ElemsB nodes ic text (.more a q es) := by
  intro lo hi i hok hrep
  unfold Elems.Ok at hok
  unfold RepElems at hrep
  rw [Elems.tries, Elems.size]
  obtain ⟨m, k', _, _, hq, hre⟩ := hrep
  obtain ⟨n, hn, hnx⟩ := repQ_node hq
  obtain ⟨e1, e2⟩ := hes hok.2.2.1 hre
  have hne : (k' : Int) ≠ -1 := by omega
  have hA : 1 ≤ q.tries a.Eats text.length * a.tries text.length :=
    Nat.mul_pos (quant_tries_pos _ _ _) (atom_tries_pos _ a)
  have hE := elems_tries_pos text.length es
  have hh := headB ha hok.1 hok.2.1 hq (K := es.tries text.length * es.size) (by rw [if_pos hne]; exact e1)
  have hel : ∀ {x : Option Int} {fuel s : Nat}, x = none ∨ x = some (k' : Int) →
      (matchnodeN nodes ic text fuel i s x).calls + es.tries text.length * es.size ≤
        q.tries a.Eats text.length * a.tries text.length * (a.size + q.size + es.tries text.length * es.size) := by
    intro x fuel s hx
    exact elementB ha hok.1 hok.2.1 hq (x := x) (by rw [if_pos hne]; exact hx) (by rw [if_pos hne]; exact e1)
  generalize q.tries a.Eats text.length * a.tries text.length = A at *
  generalize es.tries text.length = E at *
  generalize a.size + q.size = z at *
  generalize es.size = w at *
  have hz : z ≤ E * z := Nat.le_mul_of_pos_left _ hE
  constructor
  · refine hh.mono ?_
    have : A * (z + E * w) ≤ A * E * (z + w) := by
      have := Nat.mul_le_mul_left A (show z + E * w ≤ E * (z + w) by rw [Nat.mul_add]; omega)
      rw [Nat.mul_assoc]; exact this
    omega
  · intro x K fuel k s ch hf hch
    have fin : ∀ c1 c2, c1 + E * w ≤ A * (z + E * w) → c2 + K ≤ E * (w + K) → c1 + c2 + K ≤ A * E * (z + w + K) := by
      intro c1 c2 h1 h2
      have h3 : A * (z + E * (w + K)) ≤ A * E * (z + w + K) := by
        have := Nat.mul_le_mul_left A (show z + E * (w + K) ≤ E * (z + w + K) by
          rw [show E * (z + w + K) = E * z + E * (w + K) by ring]; omega)
        rw [Nat.mul_assoc]; exact this
      have h4 : E * K ≤ A * (E * K) := Nat.le_mul_of_pos_left _ hA
      have h5 : A * (z + E * (w + K)) = A * (z + E * w) + A * (E * K) := by ring
      have h6 : E * (w + K) = E * w + E * K := by ring
      omega
    cases k with
    | zero =>
      have : K ≤ A * E * (z + w + K) := Nat.le_trans (by omega) (Nat.le_mul_of_pos_left _ (Nat.mul_pos hA hE))
      cases hch <;> (show 0 + K ≤ _; omega)
    | succ k =>
      cases hch with
      | seq =>
        rw [exprChainN, free_bind (nodeAt_eq hn)]
        dsimp only
        rw [hnx, if_pos hne, Nat.zero_add]
        refine Nat.le_trans (Nat.add_le_add_right (Counted.bind_calls_le (B := E * (w + K) - K) (Nat.le_refl _) fun r _ => ?_) K) 
          (fin _ _ (hel (Or.inr rfl)) ?_)
        · cases r with
          | none => exact Nat.zero_le _
          | some s' =>
            dsimp only
            rw [if_pos hne]
            have := e2 (fuel := fuel) (k := k) (s := s') hf .seq
            omega
        · have : K ≤ E * (w + K) := Nat.le_trans (by omega) (Nat.le_mul_of_pos_left _ hE)
          omega
      | alt hx =>
        subst hx
        rw [orChainN]
        refine Nat.le_trans (Nat.add_le_add_right (Counted.bind_calls_le (B := E * (w + K) - K) (Nat.le_refl _) fun r _ => ?_) K) 
          (fin _ _ (hel (Or.inl rfl)) ?_)
        · cases r with
          | none => exact Nat.zero_le _
          | some s' =>
            dsimp only
            rw [free_bind (nodeAt_eq hn)]
            dsimp only
            rw [hnx, if_pos hne]
            have := e2 (fuel := fuel) (k := k) (s := s') hf (.alt rfl)
            omega
        · have : K ≤ E * (w + K) := Nat.le_trans (by omega) (Nat.le_mul_of_pos_left _ hE)
          omega

theorem branchB {es : Elems} (hes : ElemsB nodes ic text es) {bol : Bool} (hok : es.Ok) {lo hi i : Nat}
    (hrep : RepBranch nodes (RepElems nodes es) bol lo hi i) {x : Option Int} {K fuel k s : Nat}
    {ch : Nat → Int → Nat → Counted (Option Nat)} (hf : LookCost nodes ic text x K)
    (hch : ChainB nodes (matchnodeN nodes ic text fuel) x ch) :
    (ch k i s).calls + K ≤ es.tries text.length * (bol.toNat + es.size + K) := by
  unfold RepBranch at hrep
  split at hrep
  · rename_i hb
    obtain ⟨_, _, n, hn, ht, k', hk, hre⟩ := hrep
    subst hb
    have hne : n.next ≠ -1 := by rw [hk]; omega
    have hbol : ∀ f y, (matchnodeN nodes ic text f i s y).calls ≤ 1 := fun f y => leaf_calls hn (by rw [ht]; simp) f s y
    have key : ∀ {k s}, (ch k k' s).calls + K ≤ es.tries text.length * (es.size + K) := fun {k s} => (hes hok hre).2 hf hch
    have hE := elems_tries_pos text.length es
    have hK : K ≤ es.tries text.length * (es.size + K) := Nat.le_trans (by omega) (Nat.le_mul_of_pos_left _ hE)
    have fin : 1 + (es.tries text.length * (es.size + K) - K) + K ≤ es.tries text.length * (Bool.toNat true + es.size + K) := by
      have : es.tries text.length * (Bool.toNat true + es.size + K) = es.tries text.length + es.tries text.length * (es.size + K) := by
        rw [show Bool.toNat true = 1 from rfl]; ring
      omega
    cases k with
    | zero =>
      have : K ≤ es.tries text.length * (Bool.toNat true + es.size + K) := Nat.le_trans (by omega) (Nat.le_mul_of_pos_left _ hE)
      cases hch <;> (show 0 + K ≤ _; omega)
    | succ k =>
      cases hch with
      | seq =>
        rw [exprChainN, free_bind (nodeAt_eq hn)]
        dsimp only
        rw [Nat.zero_add]
        refine Nat.le_trans (Nat.add_le_add_right (Counted.bind_calls_le (hbol _ _) fun r _ => ?_) K) fin
        cases r with
        | none => exact Nat.zero_le _
        | some s' =>
          dsimp only
          rw [if_pos hne, hk]
          have := key (k := k) (s := s')
          omega
      | alt hx =>
        rw [orChainN]
        refine Nat.le_trans (Nat.add_le_add_right (Counted.bind_calls_le (hbol _ _) fun r _ => ?_) K) fin
        cases r with
        | none => exact Nat.zero_le _
        | some s' =>
          dsimp only
          rw [free_bind (nodeAt_eq hn)]
          dsimp only
          rw [if_pos hne, hk, Nat.zero_add]
          have := key (k := k) (s := s')
          omega
  · rename_i hb
    have hb : bol = false := by simpa using hb
    subst hb
    rw [show Bool.toNat false + es.size = es.size by simp]
    exact (hes hok hrep).2 hf hch

theorem reB_branch (bol : Bool) (es : Elems) (hes : ElemsB nodes ic text es) : ReB nodes ic text (.branch bol es) := by
  intro lo hi i x K fuel k s ch hok hrep hf hch
  unfold Re.Ok at hok
  unfold RepRe at hrep
  rw [Re.tries, Re.size]
  exact branchB hes hok.1 hrep hf hch

theorem reB_alt (bol : Bool) (es : Elems) (r : Re) (hes : ElemsB nodes ic text es) (hr : ReB nodes ic text r) :
    ReB nodes ic text (.alt bol es r) := by
  intro lo hi i x K fuel k s ch hok hrep hf hch
  unfold Re.Ok at hok
  unfold RepRe at hrep
  rw [Re.tries, Re.size]
  obtain ⟨n, hn, ht, hx, _, _, k1, k2, hk1, hk2, hb, hre⟩ := hrep
  have hE := elems_tries_pos text.length es
  have hR := re_tries_pos text.length r
  have key : ∀ y, (matchnodeN nodes ic text fuel i s y).calls ≤
      1 + (es.tries text.length * (bol.toNat + es.size) + r.tries text.length * r.size) := by
    intro y
    cases fuel with
    | zero => exact Nat.zero_le _
    | succ fuel =>
      rw [matchnodeN, tick_bind, free_bind (nodeAt_eq hn)]
      dsimp only
      rw [ht, hk1, hk2]
      dsimp only
      rw [Nat.zero_add]
      refine Nat.add_le_add_left (Counted.bind_calls_le (branchB hes hok.1 hb lookCost_none (.alt rfl)) fun o _ => ?_) 1
      cases o with
      | some s' => exact Nat.zero_le _
      | none => exact hr hok.2.1 hre lookCost_none (.alt rfl)
  generalize es.tries text.length = E at *
  generalize r.tries text.length = R at *
  generalize bol.toNat + es.size = z at *
  generalize r.size = w at *
  have fin : 1 + (E * z + R * w) + K ≤ E * R * (z + 1 + w + K) := by
    have h1 : E * z ≤ E * R * z := Nat.mul_le_mul_right _ (Nat.le_mul_of_pos_right _ hR)
    have h2 : R * w ≤ E * R * w := Nat.mul_le_mul_right _ (Nat.le_mul_of_pos_left _ hE)
    have h3 : 1 + K ≤ E * R * (1 + K) := Nat.le_mul_of_pos_left _ (Nat.mul_pos hE hR)
    have h4 : E * R * (z + 1 + w + K) = E * R * z + E * R * w + E * R * (1 + K) := by ring
    omega
  cases k with
  | zero => cases hch <;> (show 0 + K ≤ _; omega)
  | succ k =>
    cases hch with
    | seq =>
      rw [exprChainN, free_bind (nodeAt_eq hn)]
      dsimp only
      rw [hx, if_neg (by simp), Nat.zero_add]
      refine Nat.le_trans (Nat.add_le_add_right (Counted.bind_calls_le (B := 0) (key _) fun o _ => ?_) K) fin
      cases o <;> exact Nat.le_refl _
    | alt h0 =>
      rw [orChainN]
      refine Nat.le_trans (Nat.add_le_add_right (Counted.bind_calls_le (B := 0) (key _) fun o _ => ?_) K) fin
      cases o with
      | none => exact Nat.le_refl _
      | some s' =>
        dsimp only
        rw [free_bind (nodeAt_eq hn)]
        dsimp only
        rw [hx, if_neg (by simp)]
        exact Nat.le_refl _

mutual
theorem atom_calls (nodes : List RNode) (ic : Bool) (text : CStr) : ∀ a : Atom, AtomB nodes ic text a
  | .chr l => atomB_leaf (by rw [Atom.tries] <;> simp) (by rw [Atom.size] <;> simp) (fun h => by
      unfold RepAtom at h; obtain ⟨_, _, n, hn, _, ht⟩ := h; exact ⟨n, hn, by simp [ht]⟩)
  | .cls l => atomB_leaf (by rw [Atom.tries] <;> simp) (by rw [Atom.size] <;> simp) (fun h => by
      unfold RepAtom at h; obtain ⟨_, _, n, hn, _, ht, _⟩ := h; exact ⟨n, hn, by simp [ht]⟩)
  | .any => atomB_leaf (by rw [Atom.tries] <;> simp) (by rw [Atom.size] <;> simp) (fun h => by
      unfold RepAtom at h; obtain ⟨_, _, n, hn, _, ht⟩ := h; exact ⟨n, hn, by simp [ht]⟩)
  | .eol => atomB_leaf (by rw [Atom.tries] <;> simp) (by rw [Atom.size] <;> simp) (fun h => by
      unfold RepAtom at h; obtain ⟨_, _, n, hn, _, ht⟩ := h; exact ⟨n, hn, by simp [ht]⟩)
  | .edge neg => atomB_leaf (by rw [Atom.tries] <;> simp) (by rw [Atom.size] <;> simp) (fun h => by
      unfold RepAtom at h; obtain ⟨_, _, n, hn, _, ht, _⟩ := h; exact ⟨n, hn, by simp [ht]⟩)
  | .set neg x xs => atomB_leaf (by rw [Atom.tries] <;> simp) (by rw [Atom.size]; omega) (fun h => by
      unfold RepAtom at h; obtain ⟨_, _, n, hn, _, ht, _⟩ := h; exact ⟨n, hn, by cases neg <;> simp [ht]⟩)
  | .group capture r => atomB_group capture r (re_calls nodes ic text r)
theorem elems_calls (nodes : List RNode) (ic : Bool) (text : CStr) : ∀ es : Elems, ElemsB nodes ic text es
  | .last a q => elemsB_last a q (atom_calls nodes ic text a)
  | .more a q es => elemsB_more a q es (atom_calls nodes ic text a) (elems_calls nodes ic text es)
theorem re_calls (nodes : List RNode) (ic : Bool) (text : CStr) : ∀ r : Re, ReB nodes ic text r
  | .branch bol es => reB_branch bol es (elems_calls nodes ic text es)
  | .alt bol es r => reB_alt bol es r (elems_calls nodes ic text es) (re_calls nodes ic text r)
end

/-- A bound on the calls of the matcher. -/
theorem rexMatchN_calls {r : Re} (hok : r.Ok) {nodes : List RNode} (hc : rexCompile r.text = .ok (some nodes)) (ic : Bool) (text : CStr) :
    (rexMatchN nodes ic text).calls ≤ r.tries text.length * (r.size + 1) := by
  rcases rexCompile_rep (E := True) hok (Or.inl trivial) with ⟨_, h⟩ | ⟨_, nodes', n, k, hc', h0, ht, hl, hx, hrep⟩
  · rw [h] at hc; cases hc
  · rw [hc] at hc'
    cases hc'
    have hpos := re_tries_pos text.length r
    unfold rexMatchN
    refine Counted.bind_calls_le (A := r.tries text.length * (r.size + 1)) (B := 0) ?_ fun _ _ => Nat.le_refl _
    generalize (nodes.length + 1) * (nodes.length + 1) = fl
    cases fl with
    | zero => exact Nat.zero_le _
    | succ fl =>
      have h1 := re_calls nodes ic text r (fuel := fl) (k := nodes.length + 1) (s := 0) hok hrep lookCost_none .seq
      have h0' : nodeAt nodes 0 = .ok n := nodeAt_eq (i := 0) h0
      rw [matchnodeN, tick_bind, free_bind h0']
      dsimp only
      rw [ht, hl]
      dsimp only
      have h2 : r.tries text.length * (r.size + 1) = r.tries text.length * (r.size + 0) + r.tries text.length := by ring
      omega

/-- The same for `arg_rex_scanfn`, and for every pattern. -/
theorem rexScanN_calls (pat : CStr) (ic : Bool) (mx : Int) (o : StrObj) (a : CStr) {B : Nat}
    (h : ∀ nodes, rexCompile pat = .ok (some nodes) → (rexMatchN nodes ic a).calls ≤ B) :
    (rexScanN pat ic mx o (some a)).calls ≤ B := by
  unfold rexScanN
  split
  · exact Nat.zero_le _
  · dsimp only
    refine Nat.le_trans (Counted.bind_calls_le (A := 0) (B := B) (Nat.le_refl _) fun r hr => ?_) (by omega)
    cases r with
    | none => exact Nat.zero_le _
    | some nodes =>
      dsimp only
      refine Counted.bind_calls_le (A := B) (B := 0) (h nodes hr) fun b _ => ?_
      split
      · exact Counted.bind_calls_le (A := 0) (B := 0) (Nat.le_refl _) fun _ _ => Nat.le_refl _
      · exact Nat.le_refl _

end

/-! ### closed forms -/

theorem most_le (q : Quant) (hq : q.Ok) : q.most ≤ 65536 := by
  cases q with
  | exactly n => have : n < 32768 := hq; simp [Quant.most]; omega
  | between n m => have : n < 32768 ∧ m < 65535 := hq; simp [Quant.most]; omega
  | raw lo hi =>
    have := upperBound_lt lo hi
    simp only [Quant.most]
    split <;> omega
  | _ => simp [Quant.most]

theorem quant_tries_le (q : Quant) (e : Prop) {n B : Nat} (h : q ≠ .once → q.turns e n + 1 ≤ B) : q.tries e n ≤ B ^ q.size := by
  unfold Quant.tries
  split
  · rename_i h1; subst h1; exact Nat.le_refl _
  · rename_i h1
    have : q.size = 1 := by cases q <;> first | rfl | exact absurd rfl h1
    rw [this, Nat.pow_one]
    exact h h1

theorem turns_le_most (q : Quant) (e : Prop) (n : Nat) : q.turns e n ≤ q.most := by
  unfold Quant.turns
  split
  · exact Nat.min_le_left _ _
  · exact Nat.le_refl _

theorem turns_le_length (q : Quant) {e : Prop} (he : e) (n : Nat) : q.turns e n ≤ n + 1 := by
  unfold Quant.turns
  rw [if_pos he]
  exact Nat.min_le_right _ _

mutual
theorem re_tries_le (n : Nat) : ∀ r : Re, r.Ok → r.tries n ≤ 65537 ^ r.reps
  | .branch _ es, h => by
    rw [Re.Ok] at h
    rw [Re.tries, Re.reps]; exact elems_tries_le n es h.1
  | .alt _ es r, h => by
    rw [Re.Ok] at h
    rw [Re.tries, Re.reps, Nat.pow_add]
    exact Nat.mul_le_mul (elems_tries_le n es h.1) (re_tries_le n r h.2.1)
theorem elems_tries_le (n : Nat) : ∀ es : Elems, es.Ok → es.tries n ≤ 65537 ^ es.reps
  | .last a q, h => by
    rw [Elems.Ok] at h
    rw [Elems.tries, Elems.reps, Nat.pow_add]
    exact Nat.mul_le_mul (quant_tries_le q _ fun _ => by have := turns_le_most q a.Eats n; have := most_le q h.2; omega)
      (atom_tries_le n a h.1)
  | .more a q es, h => by
    rw [Elems.Ok] at h
    rw [Elems.tries, Elems.reps, Nat.pow_add, Nat.pow_add]
    exact Nat.mul_le_mul (Nat.mul_le_mul (quant_tries_le q _ fun _ => by
        have := turns_le_most q a.Eats n; have := most_le q h.2.1; omega)
      (atom_tries_le n a h.1)) (elems_tries_le n es h.2.2.1)
theorem atom_tries_le (n : Nat) : ∀ a : Atom, a.Ok → a.tries n ≤ 65537 ^ a.reps
  | .group _ r, h => by
    rw [Atom.Ok] at h
    rw [Atom.tries, Atom.reps]; exact re_tries_le n r h.1
  | .chr _, _ | .cls _, _ | .any, _ | .set _ _ _, _ | .eol, _ | .edge _, _ => by
    rw [Atom.tries, Atom.reps] <;> simp
end

mutual
theorem re_brisk_le (n : Nat) : ∀ r : Re, r.Brisk → r.tries n ≤ (n + 2) ^ r.reps
  | .branch _ es, h => by
    rw [Re.Brisk] at h
    rw [Re.tries, Re.reps]; exact elems_brisk_le n es h
  | .alt _ es r, h => by
    rw [Re.Brisk] at h
    rw [Re.tries, Re.reps, Nat.pow_add]
    exact Nat.mul_le_mul (elems_brisk_le n es h.1) (re_brisk_le n r h.2)
theorem elems_brisk_le (n : Nat) : ∀ es : Elems, es.Brisk → es.tries n ≤ (n + 2) ^ es.reps
  | .last a q, h => by
    rw [Elems.Brisk] at h
    rw [Elems.tries, Elems.reps, Nat.pow_add]
    exact Nat.mul_le_mul (quant_tries_le q _ fun h1 => by have := turns_le_length q (h.1 h1) n; omega)
      (atom_brisk_le n a h.2)
  | .more a q es, h => by
    rw [Elems.Brisk] at h
    rw [Elems.tries, Elems.reps, Nat.pow_add, Nat.pow_add]
    exact Nat.mul_le_mul (Nat.mul_le_mul (quant_tries_le q _ fun h1 => by
        have := turns_le_length q (h.1 h1) n; omega)
      (atom_brisk_le n a h.2.1)) (elems_brisk_le n es h.2.2)
theorem atom_brisk_le (n : Nat) : ∀ a : Atom, a.Brisk → a.tries n ≤ (n + 2) ^ a.reps
  | .group _ r, h => by
    rw [Atom.Brisk] at h
    rw [Atom.tries, Atom.reps]; exact re_brisk_le n r h
  | .chr _, _ | .cls _, _ | .any, _ | .set _ _ _, _ | .eol, _ | .edge _, _ => by
    rw [Atom.tries, Atom.reps] <;> simp
end

theorem repeaters_append (s t : CStr) : repeaters (s ++ t) = repeaters s + repeaters t := by
  unfold repeaters
  rw [List.filter_append, List.length_append]

theorem quant_reps_le (q : Quant) : q.size ≤ repeaters q.text := by
  cases q with
  | raw lo hi =>
    cases hi <;> simp [Quant.size, Quant.text, repeaters, cs]
  | _ => simp [Quant.size, Quant.text, repeaters, cs]

mutual
theorem re_reps_le : ∀ r : Re, r.reps ≤ repeaters r.text
  | .branch b es => by
    have := elems_reps_le es
    rw [Re.reps, Re.text, repeaters_append]
    omega
  | .alt b es r => by
    have := elems_reps_le es
    have := re_reps_le r
    rw [Re.reps, Re.text, repeaters_append, repeaters_append, show '|' :: r.text = ['|'] ++ r.text from rfl, repeaters_append]
    omega
theorem elems_reps_le : ∀ es : Elems, es.reps ≤ repeaters es.text
  | .last a q => by
    have := atom_reps_le a
    have := quant_reps_le q
    rw [Elems.reps, Elems.text, repeaters_append]
    omega
  | .more a q es => by
    have := atom_reps_le a
    have := quant_reps_le q
    have := elems_reps_le es
    rw [Elems.reps, Elems.text, repeaters_append, repeaters_append]
    omega
theorem atom_reps_le : ∀ a : Atom, a.reps ≤ repeaters a.text
  | .group c r => by
    have := re_reps_le r
    rw [Atom.reps, Atom.text, repeaters_append, repeaters_append]
    omega
  | .chr _ | .cls _ | .any | .set _ _ _ | .eol | .edge _ => by rw [Atom.reps] <;> simp
end

/-! ### nested stars -/

section
variable {nodes : List RNode} {ic : Bool}

/-- The text `b`. -/
theorem loop_calls_ge {fuel C : Nat} {left : Int}
    (hp : (matchnodeN nodes ic ['b'] fuel left 0 none).out = .ok (some 0))
    (hC : C ≤ (matchnodeN nodes ic ['b'] fuel left 0 none).calls) : ∀ {d k nm : Nat}, nm + d = 65536 → d < k →
    (greedyLoopN nodes 1 (matchnodeN nodes ic ['b'] fuel) 0 65535 left none none k nm 0 0).out = .ok (65536, 0) ∧
    d * C ≤ (greedyLoopN nodes 1 (matchnodeN nodes ic ['b'] fuel) 0 65535 left none none k nm 0 0).calls := by
  intro d
  induction d with
  | zero =>
    intro k nm h hk
    obtain ⟨k, rfl⟩ : ∃ j, k = j + 1 := ⟨k - 1, by omega⟩
    rw [greedyLoopN, if_neg (by omega)]
    have : nm = 65536 := by omega
    subst this
    exact ⟨rfl, by simp⟩
  | succ d ih =>
    intro k nm h hk
    obtain ⟨k, rfl⟩ : ∃ j, k = j + 1 := ⟨k - 1, by omega⟩
    obtain ⟨i1, i2⟩ := ih (k := k) (nm := nm + 1) (by omega) (by omega)
    rw [greedyLoopN, if_pos (by omega)]
    have e : ∀ {f : Option Nat → Counted (Nat × Nat)}, (matchnodeN nodes ic ['b'] fuel left 0 none >>= f) =
        ⟨(f (some 0)).out, (matchnodeN nodes ic ['b'] fuel left 0 none).calls + (f (some 0)).calls⟩ := by
      intro f
      generalize matchnodeN nodes ic ['b'] fuel left 0 none = x at *
      obtain ⟨o, c⟩ := x
      dsimp only at hp
      subst hp
      rfl
    rw [e]
    dsimp only
    have e2 : ∀ {f : Bool → Counted (Nat × Nat)}, (greedyStopTestN nodes (matchnodeN nodes ic ['b'] fuel) none none 0 >>= f) =
        ⟨(f false).out, 0 + (f false).calls⟩ := fun {f} => rfl
    rw [e2]
    dsimp only
    rw [if_neg (by simp), if_neg (by omega)]
    refine ⟨i1, ?_⟩
    rw [Nat.succ_mul]
    omega

/-- One repetition that is the whole group. -/
theorem chain_star {a : Atom} {lo hi i C : Nat} (hrep : RepRe nodes (.branch false (.last a .star)) lo hi i)
    (h : ∀ {lo hi k fuel : Nat} {nx : Int}, RepAtom nodes a lo hi k nx →
      (matchnodeN nodes ic ['b'] fuel k 0 none).out = .error .fuel ∨
      (matchnodeN nodes ic ['b'] fuel k 0 none).out = .ok none ∧ C = 1 ∨
      (matchnodeN nodes ic ['b'] fuel k 0 none).out = .ok (some 0) ∧ C ≤ 65536 * (matchnodeN nodes ic ['b'] fuel k 0 none).calls)
    {fuel k : Nat} : (exprChainN nodes (matchnodeN nodes ic ['b'] fuel) none k i 0).out = .error .fuel ∨
    (exprChainN nodes (matchnodeN nodes ic ['b'] fuel) none k i 0).out = .ok (some 0) ∧
      C ≤ (exprChainN nodes (matchnodeN nodes ic ['b'] fuel) none k i 0).calls := by
  unfold RepRe RepBranch at hrep
  rw [if_neg (by simp)] at hrep
  unfold RepElems RepQ at hrep
  rw [if_neg (by simp)] at hrep
  obtain ⟨_, _, n, hn, hnx, ht, hb, k', hk, hat⟩ := hrep
  obtain ⟨b1, b2⟩ := greedy_bounds (q := .star) trivial hb
  have b1 : n.p0 = 0 := b1
  have b2 : n.p1 = 65535 := b2
  cases k with
  | zero => exact Or.inl rfl
  | succ k =>
    rw [exprChainN, free_bind (nodeAt_eq hn)]
    dsimp only
    rw [hnx, if_neg (by simp), Nat.zero_add]
    -- it is enough to look at the node
    suffices hs : (matchnodeN nodes ic ['b'] fuel i 0 none).out = .error .fuel ∨
        (matchnodeN nodes ic ['b'] fuel i 0 none).out = .ok (some 0) ∧ C ≤ (matchnodeN nodes ic ['b'] fuel i 0 none).calls by
      rcases hs with hs | ⟨hs, hc⟩
      · left; rw [Counted.bind_out, hs]; rfl
      · right
        constructor
        · rw [Counted.bind_out, hs, bind_ok]; rfl
        · exact Nat.le_trans hc (Counted.le_bind_calls _ _)
    cases fuel with
    | zero => exact Or.inl rfl
    | succ fuel =>
      rw [matchnodeN, tick_bind, free_bind (nodeAt_eq hn)]
      dsimp only
      rw [ht, hk, b1, b2, hnx, if_neg (by simp)]
      dsimp only
      rw [show List.length ['b'] = 1 from rfl]
      rcases h (fuel := fuel) hat with h0 | ⟨h0, rfl⟩ | ⟨h0, hc⟩
      · left
        rw [Counted.bind_out, greedyLoopN, if_pos (by omega), Counted.bind_out, h0]
        rfl
      · right
        constructor
        · rw [Counted.bind_out, greedyLoopN, if_pos (by omega), Counted.bind_out, h0, bind_ok]
          rfl
        · omega
      · right
        obtain ⟨l1, l2⟩ := loop_calls_ge h0 (Nat.le_refl _) (d := 65536) (k := 65537) (nm := 0) (by omega) (by omega)
        constructor
        · rw [Counted.bind_out, l1, bind_ok]
          rfl
        · have := Counted.le_bind_calls (greedyLoopN nodes 1 (matchnodeN nodes ic ['b'] fuel) 0 65535 k' none none 65537 0 0 0)
            (fun p : Nat × Nat => if greedyOk 0 65535 p.1 = true then (pure (some p.2) : Counted (Option Nat)) else pure none)
          exact Nat.le_trans hc (Nat.le_trans l2 (Nat.le_trans this (by omega)))

theorem starred_calls : ∀ (j : Nat) {lo hi i fuel k : Nat}, RepRe nodes (starred j) lo hi i →
    (exprChainN nodes (matchnodeN nodes ic ['b'] fuel) none k i 0).out = .error .fuel ∨
    (exprChainN nodes (matchnodeN nodes ic ['b'] fuel) none k i 0).out = .ok (some 0) ∧
      65536 ^ j ≤ (exprChainN nodes (matchnodeN nodes ic ['b'] fuel) none k i 0).calls := by
  intro j
  induction j with
  | zero =>
    intro lo hi i fuel k hrep
    refine chain_star hrep fun {lo hi k fuel nx} hat => ?_
    unfold RepAtom at hat
    obtain ⟨_, _, n, hn, _, ht⟩ := hat
    rw [matchnodeN_out]
    cases fuel with
    | zero => exact Or.inl rfl
    | succ fuel =>
      right; left
      rw [matchnode, nodeAt_eq hn, bind_ok]
      dsimp only
      rw [ht]
      cases ic <;> exact ⟨rfl, rfl⟩
  | succ j ih =>
    intro lo hi i fuel k hrep
    refine chain_star hrep fun {lo hi k fuel nx} hat => ?_
    unfold RepAtom at hat
    obtain ⟨_, _, n, hn, _, ht, m, hm, hre⟩ := hat
    rw [if_pos rfl] at ht
    cases fuel with
    | zero => exact Or.inl rfl
    | succ fuel =>
      rw [matchnodeN, tick_bind, free_bind (nodeAt_eq hn)]
      dsimp only
      rw [ht, hm]
      dsimp only
      rcases ih (fuel := fuel) (k := nodes.length + 1) hre with h | ⟨h1, h2⟩
      · exact Or.inl h
      · refine Or.inr (Or.inr ⟨h1, ?_⟩)
        rw [Nat.pow_succ, Nat.mul_comm]
        exact Nat.mul_le_mul_left _ (by omega)

end

theorem starred_ok : ∀ j, (starred j).Ok ∧ (starred j).Compiles ∧ (∀ k, (starred j).Placed k) ∧ (starred j).text.head? ∉ [some '?', some '^'] := by
  intro j
  induction j with
  | zero =>
    refine ⟨?_, ?_, fun k => ?_, ?_⟩
    · unfold starred Re.Ok Elems.Ok Atom.Ok Opens Elems.text Atom.text
      exact ⟨⟨⟨by decide, by decide, by decide⟩, trivial⟩, Or.inr (by decide)⟩
    · unfold starred Re.Compiles Re.Placed Elems.Placed; rw [Atom.Placed] <;> simp
    · unfold starred Re.Placed Elems.Placed; rw [Atom.Placed] <;> simp
    · unfold starred Re.text Elems.text Atom.text; decide
  | succ j ih =>
    have hp : ∀ k, (starred (j + 1)).Placed k := by
      intro k
      unfold starred Re.Placed Elems.Placed Atom.Placed
      exact ih.2.2.1 _
    have ht : (starred (j + 1)).text.head? = some '(' := by
      unfold starred Re.text Elems.text Atom.text
      rfl
    refine ⟨?_, hp 1, hp, by rw [ht]; decide⟩
    unfold starred Re.Ok Elems.Ok Atom.Ok Opens
    refine ⟨⟨⟨ih.1, fun _ => ?_⟩, trivial⟩, Or.inr ?_⟩
    · have := ih.2.2.2
      simp only [List.mem_cons, List.not_mem_nil, or_false, not_or] at this
      exact this.1
    · unfold Elems.text Atom.text
      exact fun h => absurd (show some '(' = some '^' from h) (by decide)

theorem rexMatchN_starred (j : Nat) (ic : Bool) : ∃ nodes, rexCompile (starred j).text = .ok (some nodes) ∧
    65536 ^ j ≤ (rexMatchN nodes ic ['b']).calls := by
  obtain ⟨hok, hfit, -, -⟩ := starred_ok j
  rcases rexCompile_rep (E := False) hok (Or.inr hfit) with ⟨h, _⟩ | ⟨-, nodes, n, k, hc, h0, ht, hl, hx, hrep⟩
  · exact h.elim
  · refine ⟨nodes, hc, ?_⟩
    have hnf := rexMatch_not_fuel ic ['b'] hc
    unfold rexMatch at hnf
    rw [← matchnodeN_out] at hnf
    unfold rexMatchN
    refine Nat.le_trans ?_ (Counted.le_bind_calls _ _)
    obtain ⟨fl, hfl⟩ : ∃ fl, (nodes.length + 1) * (nodes.length + 1) = fl + 1 := ⟨_, (Nat.succ_pred (by positivity)).symm⟩
    have h0' : nodeAt nodes 0 = .ok n := nodeAt_eq (i := 0) h0
    rw [hfl, matchnodeN, tick_bind, free_bind h0'] at hnf ⊢
    dsimp only at hnf ⊢
    rw [ht, hl] at hnf ⊢
    dsimp only at hnf ⊢
    rcases starred_calls (ic := ic) j (fuel := fl) (k := nodes.length + 1) hrep with h | ⟨_, h⟩
    · rw [h] at hnf; exact absurd rfl hnf
    · omega

/-! ### stars that look at stars -/

section
variable {nodes : List RNode} {ic : Bool} {n : Nat}

/-- The atom `a` or `b` in a text of `n` times `a`. -/
theorem chr_out {c : Char} (hc : c = 'a' ∨ c = 'b') {lo hi i s fuel : Nat} {nx : Int} {x : Option Int} (hs : s ≤ n)
    (h : RepAtom nodes (.chr (.plain c)) lo hi i nx) :
    (matchnodeN nodes ic (List.replicate n 'a') fuel i s x).out = .error .fuel ∨
    (matchnodeN nodes ic (List.replicate n 'a') fuel i s x).out = .ok (if c = 'a' ∧ s < n then some (s + 1) else none) ∧
      1 ≤ (matchnodeN nodes ic (List.replicate n 'a') fuel i s x).calls := by
  unfold RepAtom at h
  obtain ⟨_, _, m, hm, _, ht⟩ := h
  cases fuel with
  | zero => exact Or.inl rfl
  | succ fuel =>
    right
    constructor
    · rw [matchnodeN_out, matchnode, nodeAt_eq hm, bind_ok]
      dsimp only
      rw [ht]
      dsimp only
      unfold textAt
      rw [List.length_replicate]
      by_cases hlt : s < n
      · have hg : (List.replicate n 'a').getD s '\x00' = 'a' := by
          rw [List.getD_eq_getElem?_getD, List.getElem?_replicate, if_pos hlt]; rfl
        rw [if_pos hlt, bind_ok, hg]
        rcases hc with rfl | rfl
        · rw [show (if 'a' = 'a' ∧ s < n then some (s + 1) else none) = some (s + 1) from if_pos ⟨rfl, hlt⟩]
          cases ic <;> rfl
        · rw [show (if 'b' = 'a' ∧ s < n then some (s + 1) else none) = none from if_neg fun h => absurd h.1 (by decide)]
          cases ic <;> rfl
      · have : s = n := by omega
        rw [if_neg hlt, if_pos this, bind_ok,
          show (if c = 'a' ∧ s < n then some (s + 1) else none) = none from if_neg fun h => hlt h.2]
        rcases hc with rfl | rfl <;> cases ic <;> rfl
    · rw [matchnodeN, tick_bind]
      exact Nat.le_add_right _ _

theorem loop_stars {k fuel : Nat} {left : Int} {g : Nat}
    (hp : ∀ s, s ≤ n → (matchnodeN nodes ic (List.replicate n 'a') fuel left s (some g)).out = .error .fuel ∨
      (matchnodeN nodes ic (List.replicate n 'a') fuel left s (some g)).out = .ok (if s < n then some (s + 1) else none))
    (hg : ∀ s, s ≤ n → (greedyStopTestN nodes (matchnodeN nodes ic (List.replicate n 'a') fuel) (some g) (some g) s).out = .error .fuel ∨
      (greedyStopTestN nodes (matchnodeN nodes ic (List.replicate n 'a') fuel) (some g) (some g) s).out = .ok false ∧
      Nat.choose (n - s) k ≤ (greedyStopTestN nodes (matchnodeN nodes ic (List.replicate n 'a') fuel) (some g) (some g) s).calls) :
    ∀ {d j nm s : Nat}, s + d = n → nm + d ≤ 65535 →
    (greedyLoopN nodes n (matchnodeN nodes ic (List.replicate n 'a') fuel) 0 65535 left (some g) (some g) j nm s s).out = .error .fuel ∨
    (∃ nm', (greedyLoopN nodes n (matchnodeN nodes ic (List.replicate n 'a') fuel) 0 65535 left (some g) (some g) j nm s s).out = .ok (nm', n)) ∧
    Nat.choose d (k + 1) ≤ (greedyLoopN nodes n (matchnodeN nodes ic (List.replicate n 'a') fuel) 0 65535 left (some g) (some g) j nm s s).calls := by
  intro d
  induction d with
  | zero =>
    intro j nm s hs hnm
    have hs : s = n := by omega
    subst hs
    cases j with
    | zero => exact Or.inl rfl
    | succ j =>
      rw [greedyLoopN, if_pos (by omega)]
      rcases hp s (Nat.le_refl _) with h | h
      · left; rw [Counted.bind_out, h]; rfl
      · right
        rw [if_neg (by omega)] at h
        refine ⟨⟨nm, ?_⟩, by simp⟩
        rw [Counted.bind_out, h]; rfl
  | succ d ih =>
    intro j nm s hs hnm
    cases j with
    | zero => exact Or.inl rfl
    | succ j =>
      rw [greedyLoopN, if_pos (by omega)]
      rcases hp s (by omega) with h | h
      · left; rw [Counted.bind_out, h]; rfl
      · rw [if_pos (by omega)] at h
        rw [Counted.bind_out, h, bind_ok, Counted.bind_calls _ _ h]
        dsimp only
        rcases hg (s + 1) (by omega) with h1 | ⟨h1, h2⟩
        · left; rw [Counted.bind_out, h1]; rfl
        · rw [Counted.bind_out, h1, bind_ok, Counted.bind_calls _ _ h1]
          rw [if_neg (by simp)]
          rw [show n - (s + 1) = d by omega] at h2
          by_cases he : s + 1 ≥ n
          · rw [if_pos he]
            right
            have hd : d = 0 := by omega
            subst hd
            refine ⟨⟨nm + 1, by rw [show s + 1 = n by omega]; rfl⟩, ?_⟩
            rw [Nat.choose_succ_succ', Nat.choose_zero_succ]
            omega
          · rw [if_neg he]
            rcases ih (j := j) (nm := nm + 1) (s := s + 1) (by omega) (by omega) with h3 | ⟨h3, h4⟩
            · exact Or.inl h3
            · refine Or.inr ⟨h3, ?_⟩
              rw [Nat.choose_succ_succ']
              omega

theorem stars_calls (hn : n ≤ 65535) : ∀ (k : Nat) {lo hi i fuel j s : Nat}, s ≤ n → RepRe nodes (stars k) lo hi i →
    (exprChainN nodes (matchnodeN nodes ic (List.replicate n 'a') fuel) none j i s).out = .error .fuel ∨
    (exprChainN nodes (matchnodeN nodes ic (List.replicate n 'a') fuel) none j i s).out = .ok none ∧
      Nat.choose (n - s) k ≤ (exprChainN nodes (matchnodeN nodes ic (List.replicate n 'a') fuel) none j i s).calls := by
  intro k
  induction k with
  | zero =>
    intro lo hi i fuel j s hs hrep
    unfold stars RepRe RepBranch at hrep
    rw [if_neg (by simp)] at hrep
    unfold RepElems RepQ at hrep
    rw [if_pos rfl] at hrep
    cases j with
    | zero => exact Or.inl rfl
    | succ j =>
      have hrep' := hrep
      unfold RepAtom at hrep'
      obtain ⟨_, _, m, hm, hnx, _⟩ := hrep'
      rw [exprChainN, free_bind (nodeAt_eq hm)]
      dsimp only
      rw [hnx, if_neg (by simp)]
      rcases chr_out (ic := ic) (fuel := fuel) (x := none) (Or.inr rfl) hs hrep with h | ⟨h, h2⟩
      · left; rw [Counted.bind_out, h]; rfl
      · right
        rw [if_neg (fun h => absurd h.1 (by decide))] at h
        constructor
        · rw [Counted.bind_out, h]; rfl
        · rw [Nat.choose_zero_right, Nat.zero_add]
          exact Nat.le_trans h2 (Counted.le_bind_calls _ _)
  | succ k ih =>
    intro lo hi i fuel j s hs hrep
    unfold stars RepRe RepBranch at hrep
    rw [if_neg (by simp)] at hrep
    unfold RepElems at hrep
    obtain ⟨m, g, _, _, hq, hgr⟩ := hrep
    unfold RepQ at hq
    rw [if_neg (by simp)] at hq
    obtain ⟨_, _, nd, hnd, hnx, ht, hb, k', hk, hat⟩ := hq
    obtain ⟨b1, b2⟩ := greedy_bounds (q := .star) trivial hb
    have b1 : nd.p0 = 0 := b1
    have b2 : nd.p1 = 65535 := b2
    unfold RepElems RepQ at hgr
    rw [if_pos rfl] at hgr
    unfold RepAtom at hgr
    obtain ⟨_, _, gn, hgn, hgx, hgt, r, hr, hre⟩ := hgr
    rw [if_pos rfl] at hgt
    have hne : (g : Int) ≠ -1 := by omega
    -- the group
    have hgroup : ∀ {fuel s : Nat}, s ≤ n → (matchnodeN nodes ic (List.replicate n 'a') fuel g s none).out = .error .fuel ∨
        (matchnodeN nodes ic (List.replicate n 'a') fuel g s none).out = .ok none ∧
        Nat.choose (n - s) k ≤ (matchnodeN nodes ic (List.replicate n 'a') fuel g s none).calls := by
      intro fuel s hs
      cases fuel with
      | zero => exact Or.inl rfl
      | succ fuel =>
        rw [matchnodeN, tick_bind, free_bind (nodeAt_eq hgn)]
        dsimp only
        rw [hgt, hr]
        dsimp only
        rcases ih (fuel := fuel) (j := nodes.length + 1) hs hre with h | ⟨h1, h2⟩
        · exact Or.inl h
        · exact Or.inr ⟨h1, by omega⟩
    have hlook : ∀ {fuel s : Nat}, s ≤ n → 
        (greedyStopTestN nodes (matchnodeN nodes ic (List.replicate n 'a') fuel) (some g) (some g) s).out = .error .fuel ∨
        (greedyStopTestN nodes (matchnodeN nodes ic (List.replicate n 'a') fuel) (some g) (some g) s).out = .ok false ∧
        Nat.choose (n - s) k ≤ (greedyStopTestN nodes (matchnodeN nodes ic (List.replicate n 'a') fuel) (some g) (some g) s).calls := by
      intro fuel s hs
      have hnext : greedyNext nodes gn (some g) = .ok none := by
        unfold greedyNext
        rw [hgx, if_neg (by simp)]
        dsimp only
        rw [nodeAt_eq hgn, bind_ok, hgx, if_neg (by simp)]
      unfold greedyStopTestN
      dsimp only
      rw [free_bind (nodeAt_eq hgn)]
      dsimp only
      rw [if_pos (Or.inl (by rw [hgt]; simp)), free_bind hnext]
      dsimp only
      rcases hgroup (fuel := fuel) hs with h | ⟨h1, h2⟩
      · left; rw [Counted.bind_out, h]; rfl
      · right
        constructor
        · rw [Counted.bind_out, h1]; rfl
        · refine Nat.le_trans h2 ?_
          simp only [Nat.zero_add]
          exact Counted.le_bind_calls _ _
    cases j with
    | zero => exact Or.inl rfl
    | succ j =>
      rw [exprChainN, free_bind (nodeAt_eq hnd)]
      dsimp only
      rw [hnx, if_pos hne, Nat.zero_add]
      -- the star
      have hstar : (matchnodeN nodes ic (List.replicate n 'a') fuel i s (some g)).out = .error .fuel ∨
          (matchnodeN nodes ic (List.replicate n 'a') fuel i s (some g)).out = .ok (some n) ∧
          Nat.choose (n - s) (k + 1) ≤ (matchnodeN nodes ic (List.replicate n 'a') fuel i s (some g)).calls := by
        cases fuel with
        | zero => exact Or.inl rfl
        | succ fuel =>
          rw [matchnodeN, tick_bind, free_bind (nodeAt_eq hnd)]
          dsimp only
          rw [ht, hk, b1, b2, hnx, if_pos hne, List.length_replicate]
          dsimp only
          rcases loop_stars (k := k) (fuel := fuel) (left := k') (g := g)
            (fun s hs => (chr_out (ic := ic) (fuel := fuel) (x := some g) (Or.inl rfl) hs hat).imp_right fun h => by
              rw [h.1]; simp)
            (fun s hs => hlook hs) (d := n - s) (j := 65537) (nm := 0) (s := s) (by omega) (by omega) with h | ⟨⟨nm', h1⟩, h2⟩
          · left; rw [Counted.bind_out, h]; rfl
          · right
            constructor
            · rw [Counted.bind_out, h1, bind_ok]
              rw [if_pos (by unfold greedyOk; simp)]
              rfl
            · exact Nat.le_trans h2 (Nat.le_trans (Counted.le_bind_calls _ _) (Nat.le_trans (Nat.le_add_left _ 0) (Nat.le_add_left _ 1)))
      rcases hstar with h | ⟨h1, h2⟩
      · left; rw [Counted.bind_out, h]; rfl
      · rw [Counted.bind_out, h1, bind_ok, Counted.bind_calls _ _ h1]
        dsimp only
        rw [if_pos hne]
        cases j with
        | zero => exact Or.inl rfl
        | succ j =>
          rw [exprChainN, free_bind (nodeAt_eq hgn)]
          dsimp only
          rw [hgx, if_neg (by simp)]
          rcases hgroup (fuel := fuel) (Nat.le_refl n) with h | ⟨h3, _⟩
          · left; rw [Counted.bind_out, h]; rfl
          · right
            refine ⟨?_, by omega⟩
            rw [Counted.bind_out, h3]; rfl

end

theorem stars_ok : ∀ j, (stars j).Ok ∧ (∀ k, (stars j).Placed k) ∧ (stars j).text.head? ≠ some '?' := by
  intro j
  induction j with
  | zero =>
    refine ⟨?_, fun k => ?_, ?_⟩
    · unfold stars Re.Ok Elems.Ok Atom.Ok Opens Elems.text Atom.text
      exact ⟨⟨⟨by decide, by decide, by decide⟩, trivial⟩, Or.inr (by decide)⟩
    · unfold stars Re.Placed Elems.Placed; rw [Atom.Placed] <;> simp
    · unfold stars Re.text Elems.text Atom.text; decide
  | succ j ih =>
    refine ⟨?_, fun k => ?_, ?_⟩
    · unfold stars Re.Ok Elems.Ok Atom.Ok Opens Elems.Ok Atom.Ok Continues Elems.text Atom.text
      refine ⟨⟨⟨by decide, by decide, by decide⟩, trivial, ⟨⟨ih.1, fun _ => ih.2.2⟩, trivial⟩, ?_, fun h => by cases h⟩, Or.inr ?_⟩
      · exact fun h => absurd (show some '(' ∈ [some '|', some ')', some '*', some '+'] from h) (by decide)
      · exact fun h => absurd (show some 'a' = some '^' from h) (by decide)
    · unfold stars Re.Placed Elems.Placed
      refine ⟨by rw [Atom.Placed] <;> simp, ?_⟩
      unfold Elems.Placed Atom.Placed
      exact ih.2.1 _
    · unfold stars Re.text Elems.text Atom.text
      exact fun h => absurd (show some 'a' = some '?' from h) (by decide)

theorem stars_brisk : ∀ j, (stars j).Brisk ∧ (stars j).reps = j := by
  intro j
  induction j with
  | zero => simp [stars, Re.Brisk, Elems.Brisk, Atom.Brisk, Re.reps, Elems.reps, Atom.reps, Quant.size]
  | succ j ih =>
    refine ⟨?_, ?_⟩
    · unfold stars Re.Brisk Elems.Brisk Elems.Brisk
      refine ⟨fun _ => by rw [Atom.Eats] <;> simp, by rw [Atom.Brisk] <;> simp, fun h => absurd rfl h, ?_⟩
      rw [Atom.Brisk]; exact ih.1
    · have : (stars (j + 1)).reps = 1 + 0 + (0 + (stars j).reps) := by
        show (Re.branch false (.more (.chr (.plain 'a')) .star (.last (.group true (stars j)) .once))).reps = _
        rw [Re.reps, Elems.reps, Elems.reps, Atom.reps, Atom.reps] <;> first | rfl | simp
      rw [this, ih.2]; omega

theorem rexMatchN_stars (k : Nat) (ic : Bool) {n : Nat} (hn : n ≤ 65535) : ∃ nodes, rexCompile (stars k).text = .ok (some nodes) ∧
    Nat.choose n k ≤ (rexMatchN nodes ic (List.replicate n 'a')).calls := by
  obtain ⟨hok, hfit, -⟩ := stars_ok k
  rcases rexCompile_rep (E := False) hok (Or.inr (hfit 1)) with ⟨h, _⟩ | ⟨-, nodes, nd, i, hc, h0, ht, hl, hx, hrep⟩
  · exact h.elim
  · refine ⟨nodes, hc, ?_⟩
    have hnf := rexMatch_not_fuel ic (List.replicate n 'a') hc
    unfold rexMatch at hnf
    rw [← matchnodeN_out] at hnf
    unfold rexMatchN
    refine Nat.le_trans ?_ (Counted.le_bind_calls _ _)
    obtain ⟨fl, hfl⟩ : ∃ fl, (nodes.length + 1) * (nodes.length + 1) = fl + 1 := ⟨_, (Nat.succ_pred (by positivity)).symm⟩
    have h0' : nodeAt nodes 0 = .ok nd := nodeAt_eq (i := 0) h0
    rw [hfl, matchnodeN, tick_bind, free_bind h0'] at hnf ⊢
    dsimp only at hnf ⊢
    rw [ht, hl] at hnf ⊢
    dsimp only at hnf ⊢
    rcases stars_calls (ic := ic) hn k (fuel := fl) (j := nodes.length + 1) (Nat.zero_le n) hrep with h | ⟨_, h⟩
    · rw [h] at hnf; exact absurd rfl hnf
    · rw [Nat.sub_zero] at h; omega

end Argtable
