import Verif.Model.Rex
import Verif.Spec.RexSafe
import Verif.Proofs.Cluster
/-!
# The regular expression compiler

`trex_compile` lays out the nodes of every element in a contiguous interval of the node array.
-/

namespace Argtable
open Spec

/-- The faults that compiling a non-empty pattern can run into. -/
def CompFault (f : Fault) : Prop :=
  f = .ub "trex_escapechar: read past the end of the pattern" ∨
  f = .ub "trex_charnode: read past the end of the pattern" ∨
  f = .ub "trex_parsenumber: signed overflow" ∨
  f = .ub "trex_element: signed shift overflow"

/-- Outcome of a compiler function: `Q` holds of the result, or the pattern is rejected, or one of the
faults `CompFault`. -/
def RPost {α : Type} (Q : α → Prop) : RM α → Prop
  | .ok a => Q a
  | .error (.bad _) => True
  | .error (.fault f) => CompFault f

theorem RPost.bind {α β : Type} {P : α → Prop} {Q : β → Prop} {x : RM α} {f : α → RM β}
    (h : RPost P x) (hf : ∀ a, P a → RPost Q (f a)) : RPost Q (x >>= f) := by
  cases x with
  | error e => cases e <;> exact h
  | ok a => exact hf a h

theorem RPost.mono {α : Type} {P Q : α → Prop} {x : RM α} (h : RPost P x) (hpq : ∀ a, P a → Q a) :
    RPost Q x := by
  cases x with
  | error e => cases e <;> exact h
  | ok a => exact hpq a h

theorem RPost.ite {α : Type} {Q : α → Prop} {c : Prop} [Decidable c] {x y : RM α}
    (h1 : c → RPost Q x) (h2 : ¬ c → RPost Q y) : RPost Q (if c then x else y) := by
  split
  · exact h1 ‹_›
  · exact h2 ‹_›

/-! ### layout -/

/-- The items of a character class, chained by `next`, with indices in `[lo, hi)`. -/
inductive Items (nodes : List RNode) (hi : Nat) : Nat → Nat → Prop
  | last {lo k : Nat} {n : RNode} : lo ≤ k → k < hi → nodes[k]? = some n → n.next = -1 →
      Items nodes hi lo k
  | cons {lo k j : Nat} {n : RNode} : lo ≤ k → k < hi → nodes[k]? = some n → n.next = (j : Nat) →
      Items nodes hi (k + 1) j → Items nodes hi lo k

/-- Types of nodes without sub-nodes. -/
def RType.leaf : RType → Bool
  | .char _ | .dot | .ccls | .range | .eol | .bol | .wb => true
  | _ => false

/-- `Seg nodes false lo hi i`: the element with root `i` occupies the indices `[lo, hi)`;
`Seg nodes true lo hi i`: the chain of elements starting with `i` does. -/
inductive Seg (nodes : List RNode) : Bool → Nat → Nat → Nat → Prop
  | last {lo hi i : Nat} {n : RNode} : Seg nodes false lo hi i → nodes[i]? = some n → n.next = -1 →
      Seg nodes true lo hi i
  | cons {lo mid hi i j : Nat} {n : RNode} : Seg nodes false lo mid i → nodes[i]? = some n →
      n.next = (j : Nat) → Seg nodes true mid hi j → Seg nodes true lo hi i
  | leaf {lo : Nat} {n : RNode} : nodes[lo]? = some n → n.type.leaf = true →
      Seg nodes false lo (lo + 1) lo
  | cls {lo hi k : Nat} {n : RNode} : nodes[lo]? = some n → n.type = .cls ∨ n.type = .ncls →
      n.left = (k : Nat) → Items nodes hi (lo + 1) k → hi ≤ nodes.length → Seg nodes false lo hi lo
  | expr {lo hi j : Nat} {n : RNode} : nodes[lo]? = some n → n.type = .expr ∨ n.type = .nocap →
      n.left = (j : Nat) → Seg nodes true (lo + 1) hi j → Seg nodes false lo hi lo
  | greedy {lo i l : Nat} {n : RNode} : nodes[i]? = some n → n.type = .greedy → n.left = (l : Nat) →
      Seg nodes true lo i l → Seg nodes false lo (i + 1) i
  | or {lo hi i l r : Nat} {n : RNode} : nodes[i]? = some n → n.type = .or → n.left = (l : Nat) →
      n.right = (r : Nat) → Seg nodes true lo i l → Seg nodes true (i + 1) hi r →
      Seg nodes false lo hi i

theorem lt_of_getElem? {α : Type} {l : List α} {i : Nat} {a : α} (h : l[i]? = some a) :
    i < l.length := (List.getElem?_eq_some_iff.1 h).1

theorem Items.bounds {nodes : List RNode} {hi lo k : Nat} (h : Items nodes hi lo k) :
    lo ≤ k ∧ k < hi := by
  cases h <;> exact ⟨by assumption, by assumption⟩

theorem Seg.bounds {nodes : List RNode} {b : Bool} {lo hi i : Nat} (h : Seg nodes b lo hi i) :
    lo ≤ i ∧ i < hi ∧ hi ≤ nodes.length := by
  induction h with
  | last _ _ _ ih => exact ih
  | cons _ _ _ _ ih1 ih2 => omega
  | leaf h _ => have := lt_of_getElem? h; omega
  | cls h _ _ hi _ => have := hi.bounds; omega
  | expr _ _ _ _ ih => omega
  | greedy h _ _ _ ih => have := lt_of_getElem? h; omega
  | or _ _ _ _ _ _ ih1 ih2 => omega

theorem Items.frame {nodes nodes' : List RNode} {hi lo k : Nat} (h : Items nodes hi lo k)
    (ha : ∀ x, lo ≤ x → x < hi → nodes'[x]? = nodes[x]?) : Items nodes' hi lo k := by
  induction h with
  | last h1 h2 h3 h4 => exact .last h1 h2 (by rw [ha _ h1 h2]; exact h3) h4
  | cons h1 h2 h3 h4 _ ih =>
    exact .cons h1 h2 (by rw [ha _ h1 h2]; exact h3) h4 (ih fun x hx => ha x (by omega))

theorem length_of_agree {nodes nodes' : List RNode} {lo hi : Nat} (hlt : lo < hi)
    (hl : hi ≤ nodes.length) (ha : ∀ x, lo ≤ x → x < hi → nodes'[x]? = nodes[x]?) :
    hi ≤ nodes'.length := by
  have h1 := ha (hi - 1) (by omega) (by omega)
  rw [List.getElem?_eq_getElem (l := nodes) (by omega)] at h1
  have := lt_of_getElem? h1
  omega

theorem Seg.frame {nodes nodes' : List RNode} {b : Bool} {lo hi i : Nat} (h : Seg nodes b lo hi i)
    (ha : ∀ x, lo ≤ x → x < hi → nodes'[x]? = nodes[x]?) : Seg nodes' b lo hi i := by
  induction h with
  | last h1 h2 h3 ih =>
    have := h1.bounds
    exact .last (ih ha) (by rw [ha _ (by omega) (by omega)]; exact h2) h3
  | cons h1 h2 h3 h4 ih1 ih2 =>
    have := h1.bounds
    have := h4.bounds
    exact .cons (ih1 fun x hx hy => ha x (by omega) (by omega))
      (by rw [ha _ (by omega) (by omega)]; exact h2) h3
      (ih2 fun x hx hy => ha x (by omega) (by omega))
  | leaf h1 h2 => exact .leaf (by rw [ha _ (by omega) (by omega)]; exact h1) h2
  | cls h1 h2 h3 h4 h5 =>
    have := h4.bounds
    exact .cls (by rw [ha _ (by omega) (by omega)]; exact h1) h2 h3
      (h4.frame fun x hx hy => ha x (by omega) (by omega)) (length_of_agree (by omega) h5 ha)
  | expr h1 h2 h3 h4 ih =>
    have := h4.bounds
    exact .expr (by rw [ha _ (by omega) (by omega)]; exact h1) h2 h3
      (ih fun x hx hy => ha x (by omega) (by omega))
  | greedy h1 h2 h3 h4 ih =>
    have := h4.bounds
    exact .greedy (by rw [ha _ (by omega) (by omega)]; exact h1) h2 h3
      (ih fun x hx hy => ha x (by omega) (by omega))
  | or h1 h2 h3 h4 h5 h6 ih1 ih2 =>
    have := h5.bounds
    have := h6.bounds
    exact .or (by rw [ha _ (by omega) (by omega)]; exact h1) h2 h3 h4
      (ih1 fun x hx hy => ha x (by omega) (by omega))
      (ih2 fun x hx hy => ha x (by omega) (by omega))

/-- Changing the `next` of the root keeps an element. -/
theorem Seg.setNext {nodes nodes' : List RNode} {lo hi i : Nat} (h : Seg nodes false lo hi i) {v : Int}
    (ha : ∀ x, lo ≤ x → x < hi → x ≠ i → nodes'[x]? = nodes[x]?)
    (hi' : nodes'[i]? = nodes[i]?.map fun n => { n with next := v }) :
    Seg nodes' false lo hi i := by
  cases h with
  | leaf h1 h2 =>
    rename_i n
    exact .leaf (n := { n with next := v }) (by rw [hi', h1]; rfl) h2
  | cls h1 h2 h3 h4 h5 =>
    rename_i n
    have hb := h4.bounds
    refine .cls (n := { n with next := v }) (by rw [hi', h1]; rfl) h2 h3
      (h4.frame fun x hx hy => ha x (by omega) (by omega) (by omega)) ?_
    exact length_of_agree (lo := lo + 1) (by omega) h5
      (fun x hx hy => ha x (by omega) (by omega) (by omega))
  | expr h1 h2 h3 h4 =>
    rename_i n
    have := h4.bounds
    exact .expr (n := { n with next := v }) (by rw [hi', h1]; rfl) h2 h3
      (h4.frame fun x hx hy => ha x (by omega) (by omega) (by omega))
  | greedy h1 h2 h3 h4 =>
    rename_i n
    have := h4.bounds
    exact .greedy (n := { n with next := v }) (by rw [hi', h1]; rfl) h2 h3
      (h4.frame fun x hx hy => ha x (by omega) (by omega) (by omega))
  | or h1 h2 h3 h4 h5 h6 =>
    rename_i n
    have := h5.bounds
    have := h6.bounds
    exact .or (n := { n with next := v }) (by rw [hi', h1]; rfl) h2 h3 h4
      (h5.frame fun x hx hy => ha x (by omega) (by omega) (by omega))
      (h6.frame fun x hx hy => ha x (by omega) (by omega) (by omega))

/-! ### nodes that do not match NUL -/

/-- A node that does not match the NUL character, whatever the flags. -/
def SafeNode (n : RNode) : Prop :=
  match n.type with
  | .dot | .ncls | .wb => False
  | .char c => 0 < c.toNat ∧ c.toNat < 128
  | .ccls => matchcclass (intChar n.left) '\x00' = false
  | .range => (n.left = -1 ∧ n.right = -1) ∨ (0 < n.left ∧ n.left < 128)
  | _ => True

def AllSafe (nodes : List RNode) : Prop := ∀ n ∈ nodes, SafeNode n

theorem AllSafe.append {nodes : List RNode} (h : AllSafe nodes) {n : RNode} (hn : SafeNode n) :
    AllSafe (nodes ++ [n]) := by
  intro x hx
  rcases List.mem_append.1 hx with hx | hx
  · exact h x hx
  · simp only [List.mem_singleton] at hx; rw [hx]; exact hn

theorem AllSafe.modify {nodes : List RNode} (h : AllSafe nodes) (i : Nat) (f : RNode → RNode)
    (hf : ∀ n, nodes[i]? = some n → SafeNode n → SafeNode (f n)) : AllSafe (nodes.modify i f) := by
  intro x hx
  obtain ⟨k, hk, rfl⟩ := List.mem_iff_getElem.1 hx
  rw [List.getElem_modify]
  rw [List.length_modify] at hk
  split
  · next he => subst he; exact hf _ (List.getElem?_eq_getElem hk) (h _ (List.getElem_mem hk))
  · exact h _ (List.getElem_mem hk)

theorem safe_next {n : RNode} (h : SafeNode n) (v : Int) : SafeNode { n with next := v } := h

theorem SafePat_cons {c : Char} {p : CStr} (h : SafePat (c :: p) = true) (hc : c ≠ '\\') :
    SafePat p = true ∧ c ≠ '.' := by
  cases p with
  | nil => simp [SafePat] at h; simp [SafePat, h]
  | cons d p =>
    simp only [SafePat, hc, if_false] at h
    split at h
    · cases h
    · split at h
      · cases h
      · exact ⟨h, by assumption⟩

theorem SafePat_escape {c : Char} {p : CStr} (h : SafePat ('\\' :: c :: p) = true) :
    safeEscape c = true ∧ SafePat p = true := by
  simpa [SafePat] using h

/-! ### growth of the compiler state -/

/-- The node array is never empty and never overfull. -/
structure RInv (s : RState) : Prop where
  len : s.nodes.length ≤ s.nalloc
  pos : 1 ≤ s.nalloc

/-- What every compiler function guarantees: nodes that existed before are unchanged. -/
structure Grow (s s' : RState) : Prop where
  inv : RInv s'
  pre : ∀ k, k < s.nodes.length → s'.nodes[k]? = s.nodes[k]?
  len : s.nodes.length ≤ s'.nodes.length
  plen : s'.p.length ≤ s.p.length
  safe : SafePat s.p = true → AllSafe s.nodes → SafePat s'.p = true ∧ AllSafe s'.nodes

theorem Grow.refl {s : RState} (h : RInv s) : Grow s s :=
  ⟨h, fun _ _ => rfl, Nat.le_refl _, Nat.le_refl _, fun h1 h2 => ⟨h1, h2⟩⟩

theorem Grow.trans {s s1 s2 : RState} (h1 : Grow s s1) (h2 : Grow s1 s2) : Grow s s2 :=
  ⟨h2.inv, fun k hk => (h2.pre k (by have := h1.len; omega)).trans (h1.pre k hk),
    Nat.le_trans h1.len h2.len, Nat.le_trans h2.plen h1.plen,
    fun a b => h2.safe (h1.safe a b).1 (h1.safe a b).2⟩

theorem newnode_eq (ty : RType) {s : RState} (h : RInv s) :
    ∃ s', newnode ty s = .ok (s.nodes.length, s') ∧ RInv s' ∧ s'.p = s.p ∧
      s'.nodes = s.nodes ++ [{ type := ty, right := if ty = .expr then (s.nsub : Int) else -1 }] := by
  obtain ⟨h1, h2⟩ := h
  unfold newnode
  simp only
  by_cases hc : s.nalloc < s.nodes.length + 1
  · simp only [hc, if_true]
    rw [if_pos (by omega)]
    refine ⟨_, rfl, ⟨?_, ?_⟩, rfl, rfl⟩ <;> simp <;> omega
  · simp only [hc, if_false]
    rw [if_pos (by omega)]
    refine ⟨_, rfl, ⟨?_, ?_⟩, rfl, rfl⟩ <;> simp <;> omega

/-- `newnode` after skipping part of the pattern. -/
theorem newnode_grow (ty : RType) {s : RState} (h : RInv s) (p : CStr) (hp : p.length ≤ s.p.length)
    (hsafe : SafePat s.p = true → SafePat p = true ∧
      SafeNode { type := ty, right := if ty = .expr then (s.nsub : Int) else -1 }) :
    ∃ s', newnode ty { s with p := p } = .ok (s.nodes.length, s') ∧ Grow s s' ∧ s'.p = p ∧
      s'.nodes = s.nodes ++ [{ type := ty, right := if ty = .expr then (s.nsub : Int) else -1 }] := by
  obtain ⟨s', h1, h2, h3, h4⟩ := newnode_eq ty (s := { s with p := p }) ⟨h.len, h.pos⟩
  refine ⟨s', h1, ⟨h2, ?_, ?_, ?_, ?_⟩, h3, h4⟩
  · intro k hk
    rw [h4]
    exact List.getElem?_append_left hk
  · rw [h4]; simp
  · rw [h3]; exact hp
  · intro a b
    rw [h3, h4]
    exact ⟨(hsafe a).1, AllSafe.append b (hsafe a).2⟩

theorem setLeft_grow {s s' : RState} (h : Grow s s') {i : Nat} (hi : s.nodes.length ≤ i) (v : Int)
    (hs : ∀ n, s'.nodes[i]? = some n → SafePat s.p = true →
      AllSafe s'.nodes → SafeNode n → SafeNode { n with left := v }) :
    Grow s (s'.setLeft i v) where
  inv := ⟨by simpa [RState.setLeft] using h.inv.len, h.inv.pos⟩
  pre := fun k hk => by
    simp only [RState.setLeft, List.getElem?_modify]
    have : i ≠ k := by omega
    simp [this, h.pre k hk]
  len := by simpa [RState.setLeft] using h.len
  plen := h.plen
  safe := fun a b => ⟨(h.safe a b).1, (h.safe a b).2.modify _ _ fun n hn sn => hs n hn a (h.safe a b).2 sn⟩

theorem setRight_grow {s s' : RState} (h : Grow s s') {i : Nat} (hi : s.nodes.length ≤ i) (v : Int)
    (hs : ∀ n, s'.nodes[i]? = some n → SafePat s.p = true →
      AllSafe s'.nodes → SafeNode n → SafeNode { n with right := v }) :
    Grow s (s'.setRight i v) where
  inv := ⟨by simpa [RState.setRight] using h.inv.len, h.inv.pos⟩
  pre := fun k hk => by
    simp only [RState.setRight, List.getElem?_modify]
    have : i ≠ k := by omega
    simp [this, h.pre k hk]
  len := by simpa [RState.setRight] using h.len
  plen := h.plen
  safe := fun a b => ⟨(h.safe a b).1, (h.safe a b).2.modify _ _ fun n hn sn => hs n hn a (h.safe a b).2 sn⟩

theorem setNext_grow {s s' : RState} (h : Grow s s') {i : Nat} (hi : s.nodes.length ≤ i) (v : Int) :
    Grow s (s'.setNext i v) where
  inv := ⟨by simpa [RState.setNext] using h.inv.len, h.inv.pos⟩
  pre := fun k hk => by
    simp only [RState.setNext, List.getElem?_modify]
    have : i ≠ k := by omega
    simp [this, h.pre k hk]
  len := by simpa [RState.setNext] using h.len
  plen := h.plen
  safe := fun a b => ⟨(h.safe a b).1, (h.safe a b).2.modify _ _ fun n _ sn => safe_next sn v⟩

/-! ### single characters -/

/-- Result of creating one leaf node. -/
structure NewLeaf (s : RState) (n : Nat) (s' : RState) : Prop where
  grow : Grow s s'
  idx : n = s.nodes.length
  len : s'.nodes.length = n + 1
  plen : s'.p.length < s.p.length
  node : ∃ nd, s'.nodes[n]? = some nd ∧ nd.next = -1 ∧ nd.type.leaf = true

theorem newnode_leaf (ty : RType) (hty : ty.leaf = true) {s : RState} (h : RInv s) (p : CStr)
    (hp : p.length < s.p.length)
    (hsafe : SafePat s.p = true → SafePat p = true ∧ SafeNode { type := ty }) :
    ∃ s', newnode ty { s with p := p } = .ok (s.nodes.length, s') ∧
      NewLeaf s s.nodes.length s' ∧ s'.nodes[s.nodes.length]? = some { type := ty } := by
  have hne : ty ≠ .expr := by intro h; rw [h] at hty; cases hty
  obtain ⟨s', h1, h2, h3, h4⟩ := newnode_grow ty h p (Nat.le_of_lt hp) (by rw [if_neg hne]; exact hsafe)
  rw [if_neg hne] at h4
  have hn : s'.nodes[s.nodes.length]? = some { type := ty } := by rw [h4]; simp
  exact ⟨s', h1, ⟨h2, rfl, by rw [h4]; simp, by rw [h3]; exact hp, _, hn, rfl, hty⟩, hn⟩

theorem NewLeaf.setLeft {s s' : RState} {n : Nat} (h : NewLeaf s n s') (v : Int)
    (hs : ∀ nd, s'.nodes[n]? = some nd → SafePat s.p = true → AllSafe s'.nodes → SafeNode nd →
      SafeNode { nd with left := v }) : NewLeaf s n (s'.setLeft n v) where
  grow := setLeft_grow h.grow (by rw [h.idx]) v hs
  idx := h.idx
  len := by simpa [RState.setLeft] using h.len
  plen := h.plen
  node := by
    obtain ⟨nd, h1, h2, h3⟩ := h.node
    exact ⟨{ nd with left := v }, by simp [RState.setLeft, h1], h2, h3⟩

theorem isPrint_safe {c : Char} (h : isPrint c = true) : 0 < c.toNat ∧ c.toNat < 128 := by
  simp only [isPrint, Bool.and_eq_true, decide_eq_true_eq] at h
  omega

theorem escapeOf_safe {c e : Char} (h : escapeOf c = some e) : 0 < e.toNat ∧ e.toNat < 128 := by
  unfold escapeOf at h
  split at h
  · cases h; decide
  · split at h
    · cases h; decide
    · split at h
      · cases h; decide
      · split at h
        · cases h; decide
        · split at h
          · cases h; decide
          · cases h

theorem safeEscape_range {c : Char} (h : safeEscape c = true) : 0 < c.toNat ∧ c.toNat < 128 := by
  simp only [safeEscape, Bool.and_eq_true, decide_eq_true_eq] at h
  exact ⟨h.1.2, h.1.1⟩

theorem safeEscape_class {c : Char} (h : safeEscape c = true) (hc : isClassLetter c = true) :
    matchcclass c '\x00' = false := by
  simp only [safeEscape, Bool.and_eq_true, decide_eq_true_eq, Bool.not_eq_true'] at h
  have h2 := h.2
  simp only [isClassLetter, decide_eq_true_eq] at hc
  simp only [cs, String.toList] at hc h2
  have hc' : c ∈ ['a','A','w','W','s','S','d','D','x','X','c','C','p','P','l','u'] := hc
  have h2' : ['A','W','S','D','X','P','c','b','B'].contains c = false := h2
  simp only [List.mem_cons, List.not_mem_nil, or_false] at hc'
  rcases hc' with rfl | rfl | rfl | rfl | rfl | rfl | rfl | rfl | rfl | rfl | rfl | rfl | rfl | rfl
    | rfl | rfl <;> first | rfl | (exfalso; revert h2'; decide)

/-- `trex_charnode`. -/
theorem charnode_post (isclass : Bool) {s : RState} (h : RInv s) :
    RPost (fun r : Nat × RState => NewLeaf s r.1 r.2 ∧ (isclass = true →
      ∃ nd, r.2.nodes[r.1]? = some nd ∧ ((∃ c, nd.type = .char c) ∨ nd.type = .ccls)))
      (charnode isclass s) := by
  unfold charnode
  split
  · trivial
  · exact Or.inr (Or.inl rfl)
  · rename_i c p hp
    have hlen : p.length < s.p.length := by rw [hp]; simp; omega
    have hsp : SafePat s.p = true → SafePat p = true := fun a => by
      rw [hp] at a; exact (SafePat_escape a).2
    have hse : SafePat s.p = true → safeEscape c = true := fun a => by
      rw [hp] at a; exact (SafePat_escape a).1
    split
    · rename_i e he
      obtain ⟨s', h1, h2, h3⟩ := newnode_leaf (.char e) rfl h p hlen
        (fun a => ⟨hsp a, escapeOf_safe he⟩)
      rw [h1]
      exact ⟨h2, fun _ => ⟨_, h3, Or.inl ⟨e, rfl⟩⟩⟩
    · split
      · rename_i hcl
        obtain ⟨s', h1, h2, h3⟩ := newnode_leaf .ccls rfl h p hlen
          (fun a => ⟨hsp a, by simp only [SafeNode]; decide⟩)
        unfold rexCharclass
        rw [h1]
        refine ⟨h2.setLeft _ ?_, fun _ => ⟨{ type := .ccls, left := charInt c }, ?_, Or.inr rfl⟩⟩
        · intro nd hnd a _ _
          rw [h3] at hnd; cases hnd
          simp only [SafeNode, intChar_charInt]
          exact safeEscape_class (hse a) hcl
        · simp [RState.setLeft, h3]
      · split
        · rename_i hb
          obtain ⟨hb, hcls⟩ := hb
          obtain ⟨s', h1, h2, h3⟩ := newnode_leaf .wb rfl h p hlen
            (fun a => by
              have := hse a
              exfalso
              rcases hb with rfl | rfl <;> revert this <;> decide)
          rw [h1]
          refine ⟨h2.setLeft _ ?_, fun hc => absurd hc hcls⟩
          intro nd hnd a _ _
          have := hse a
          exfalso
          rcases hb with rfl | rfl <;> revert this <;> decide
        · obtain ⟨s', h1, h2, h3⟩ := newnode_leaf (.char c) rfl h p hlen
            (fun a => ⟨hsp a, safeEscape_range (hse a)⟩)
          rw [h1]
          exact ⟨h2, fun _ => ⟨_, h3, Or.inl ⟨c, rfl⟩⟩⟩
  · rename_i c p hbs1 hbs2 hp
    split
    · rename_i hpr
      have hne : c ≠ '\\' := by
        rintro rfl
        cases p with
        | nil => exact hbs1 rfl rfl
        | cons d p => exact hbs2 d p rfl rfl
      have hlen : p.length < s.p.length := by rw [hp]; simp
      obtain ⟨s', h1, h2, h3⟩ := newnode_leaf (.char c) rfl h p hlen
        (fun a => ⟨by rw [hp] at a; exact (SafePat_cons a hne).1, isPrint_safe hpr⟩)
      rw [h1]
      exact ⟨h2, fun _ => ⟨_, h3, Or.inl ⟨c, rfl⟩⟩⟩
    · trivial

theorem escapechar_post {s : RState} (h : RInv s) :
    RPost (fun r : Char × RState => Grow s r.2 ∧ r.2.nodes = s.nodes ∧ r.2.p.length < s.p.length)
      (escapechar s) := by
  unfold escapechar
  split
  · trivial
  · exact Or.inl rfl
  · rename_i c p hp
    refine ⟨⟨⟨h.len, h.pos⟩, fun _ _ => rfl, Nat.le_refl _, ?_, ?_⟩, rfl, ?_⟩
    · rw [hp]; simp; omega
    · intro a b; rw [hp] at a; exact ⟨(SafePat_escape a).2, b⟩
    · rw [hp]; simp; omega
  · rename_i c p hbs1 hbs2 hp
    split
    · have hne : c ≠ '\\' := by
        rintro rfl
        cases p with
        | nil => exact hbs1 rfl rfl
        | cons d p => exact hbs2 d p rfl rfl
      refine ⟨⟨⟨h.len, h.pos⟩, fun _ _ => rfl, Nat.le_refl _, ?_, ?_⟩, rfl, ?_⟩
      · rw [hp]; simp
      · intro a b; rw [hp] at a; exact ⟨(SafePat_cons a hne).1, b⟩
      · rw [hp]; simp
    · trivial

/-! ### character classes -/

/-- A chain of `next` pointers with increasing indices. -/
inductive Path (nodes : List RNode) : Nat → Nat → Prop
  | refl (a : Nat) : Path nodes a a
  | step {a j c : Nat} {n : RNode} : nodes[a]? = some n → n.next = (j : Nat) → a < j →
      Path nodes j c → Path nodes a c

theorem Path.le {nodes : List RNode} {a c : Nat} (h : Path nodes a c) : a ≤ c := by
  induction h with
  | refl => exact Nat.le_refl _
  | step _ _ _ _ _ => omega

theorem Path.frame {nodes nodes' : List RNode} {a c : Nat} (h : Path nodes a c)
    (ha : ∀ x, a ≤ x → x < c → nodes'[x]? = nodes[x]?) : Path nodes' a c := by
  induction h with
  | refl => exact .refl _
  | step h1 h2 h3 h4 ih =>
    have := h4.le
    exact .step (by rw [ha _ (by omega) (by omega)]; exact h1) h2 h3
      (ih fun x hx hy => ha x (by omega) hy)

theorem Path.trans {nodes : List RNode} {a b c : Nat} (h : Path nodes a b) (h2 : Path nodes b c) :
    Path nodes a c := by
  induction h with
  | refl => exact h2
  | step h1 h3 h4 _ ih => exact .step h1 h3 h4 (ih h2)

theorem Path.items {nodes : List RNode} {j c hi lo : Nat} (h : Path nodes j c) {n : RNode}
    (hc : nodes[c]? = some n) (hn : n.next = -1) (hhi : c < hi) (hlo : lo ≤ j) :
    Items nodes hi lo j := by
  induction h generalizing lo with
  | refl => exact .last hlo hhi hc hn
  | step h1 h2 h3 h4 ih =>
    have := h4.le
    exact .cons hlo (by omega) h1 h2 (ih hc hhi (by omega))

/-- Appending to the end of a chain. -/
theorem Path.extend {s : RState} {a c d : Nat} (h : Path s.nodes a c) {n : RNode}
    (hc : s.nodes[c]? = some n) (hcd : c < d) : Path (s.setNext c d).nodes a d := by
  refine Path.trans (b := c) (h.frame ?_) ?_
  · intro x _ hx
    have : c ≠ x := by omega
    simp [RState.setNext, this]
  · exact .step (n := { n with next := (d : Int) }) (by simp [RState.setNext, hc]) rfl hcd (.refl _)

theorem setNext_ne {s : RState} {i k : Nat} (h : i ≠ k) (v : Int) :
    (s.setNext i v).nodes[k]? = s.nodes[k]? := by
  simp [RState.setNext, h]

theorem setLeft_ne {s : RState} {i k : Nat} (h : i ≠ k) (v : Int) :
    (s.setLeft i v).nodes[k]? = s.nodes[k]? := by
  simp [RState.setLeft, h]

theorem setRight_ne {s : RState} {i k : Nat} (h : i ≠ k) (v : Int) :
    (s.setRight i v).nodes[k]? = s.nodes[k]? := by
  simp [RState.setRight, h]

theorem setNext_self {s : RState} {i : Nat} {n : RNode} (h : s.nodes[i]? = some n) (v : Int) :
    (s.setNext i v).nodes[i]? = some { n with next := v } := by
  simp [RState.setNext, h]

theorem setLeft_self {s : RState} {i : Nat} {n : RNode} (h : s.nodes[i]? = some n) (v : Int) :
    (s.setLeft i v).nodes[i]? = some { n with left := v } := by
  simp [RState.setLeft, h]

theorem setRight_self {s : RState} {i : Nat} {n : RNode} (h : s.nodes[i]? = some n) (v : Int) :
    (s.setRight i v).nodes[i]? = some { n with right := v } := by
  simp [RState.setRight, h]

/-- Invariant of the loop of `trex_class`; `s0` is the state before. -/
structure ClassInv (s0 : RState) (ret : Nat) (first : Option Nat) (chain : Nat) (s : RState) :
    Prop where
  grow : Grow s0 s
  low : s0.nodes.length ≤ ret
  path : Path s.nodes ret chain
  root : ∃ nd, s.nodes[ret]? = some nd ∧ (nd.type = .cls ∨ nd.type = .ncls)
  tail : ∃ nd, s.nodes[chain]? = some nd ∧ nd.next = -1
  pend : ∀ f, first = some f → chain < f ∧ ∃ nd, s.nodes[f]? = some nd ∧ nd.next = -1 ∧
    ((∃ c, nd.type = .char c) ∨ nd.type = .ccls)

theorem setNext_root {s : RState} {ret i : Nat} {v : Int}
    (h : ∃ nd, s.nodes[ret]? = some nd ∧ (nd.type = .cls ∨ nd.type = .ncls)) :
    ∃ nd, (s.setNext i v).nodes[ret]? = some nd ∧ (nd.type = .cls ∨ nd.type = .ncls) := by
  obtain ⟨nd, h1, h2⟩ := h
  by_cases hi : i = ret
  · subst hi; exact ⟨_, setNext_self h1 v, h2⟩
  · exact ⟨nd, by rw [setNext_ne hi]; exact h1, h2⟩

/-- Linking the pending node into the chain. -/
theorem ClassInv.link {s0 : RState} {ret f chain : Nat} {s : RState}
    (h : ClassInv s0 ret (some f) chain s) : ClassInv s0 ret none f (s.setNext chain f) := by
  obtain ⟨hlt, nd, h1, h2, h3⟩ := h.pend f rfl
  obtain ⟨nc, c1, c2⟩ := h.tail
  have hle := h.path.le
  refine ⟨setNext_grow h.grow (by have := h.low; omega) _, h.low, h.path.extend c1 hlt,
    setNext_root h.root, ⟨nd, by rw [setNext_ne (by omega)]; exact h1, h2⟩, ?_⟩
  intro f hf; cases hf

theorem SafeNode_code {n : RNode} (h : SafeNode n) (hc : ∃ c, n.type = .char c) :
    0 < n.type.code ∧ n.type.code < 128 := by
  obtain ⟨c, hc⟩ := hc
  unfold SafeNode at h
  rw [hc] at h ⊢
  simp only [RType.code, charInt] at h ⊢
  obtain ⟨h1, h2⟩ := h
  split <;> omega

theorem classLoop_post {s0 : RState} {ret : Nat} :
    ∀ (fuel : Nat) (first : Option Nat) (chain : Nat) (s : RState), s.p.length < fuel →
      ClassInv s0 ret first chain s → (first = none → chain = ret → s.p.head? ≠ some ']') →
      RPost (fun r : Option Nat × Nat × RState => ClassInv s0 ret r.1 r.2.1 r.2.2 ∧
        (r.1 = none → r.2.1 ≠ ret) ∧ r.2.2.p.length ≤ s.p.length) (classLoop fuel first chain s) := by
  intro fuel
  induction fuel with
  | zero => intro first chain s h; omega
  | succ fuel ih =>
    intro first chain s hfuel hI hne
    rw [classLoop.eq_def]
    dsimp only
    split
    · rename_i p hp
      refine ⟨hI, ?_, Nat.le_refl _⟩
      intro h1 h2
      exact hne h1 h2 (by rw [hp]; rfl)
    · split
      · -- a range
        rename_i _ f p hp
        obtain ⟨hlt, nd, f1, f2, f3⟩ := hI.pend f rfl
        have hsp : SafePat s.p = true → SafePat p = true := fun a => by
          rw [hp] at a; exact (SafePat_cons a (by decide)).1
        obtain ⟨s1, e1, g1, p1, n1⟩ := newnode_grow .range hI.grow.inv p (by rw [hp]; simp)
          (fun a => ⟨hsp a, Or.inl ⟨rfl, rfl⟩⟩)
        simp only [reduceCtorEq, if_false] at n1
        refine RPost.bind (P := fun r => r = (s.nodes.length, s1)) (by rw [e1]; rfl) ?_
        rintro _ rfl
        dsimp only
        refine RPost.ite (fun _ => trivial) fun _ => ?_
        · have hf1 : s1.nodes[f]? = some nd := by rw [g1.pre f (lt_of_getElem? f1)]; exact f1
          rw [hf1]
          dsimp only
          refine RPost.ite (fun _ => trivial) fun hnc => ?_
          · have hr1 : s1.nodes[s.nodes.length]? = some { type := .range } := by rw [n1]; simp
            set r := s.nodes.length with hr
            have gl : Grow s (s1.setLeft r nd.type.code) := by
              refine setLeft_grow g1 (Nat.le_refl _) _ ?_
              intro n hn _ hall _
              rw [hr1] at hn; cases hn
              have hnd : SafeNode nd := hall nd (List.mem_of_getElem? hf1)
              exact Or.inr (SafeNode_code hnd (f3.resolve_right hnc))
            refine RPost.bind (escapechar_post gl.inv) ?_
            rintro ⟨t, s2⟩ ⟨g2, n2, p2⟩
            simp only at g2 n2 p2
            have hr2 : s2.nodes[r]? = some { type := .range, left := nd.type.code } := by
              rw [n2]; exact setLeft_self hr1 _
            have g3 : Grow s (s2.setRight r (charInt t)) := by
              refine setRight_grow (gl.trans g2) (Nat.le_refl _) _ ?_
              intro n hn _ hall _
              rw [hr2] at hn; cases hn
              have hfr : r ≠ f := by have := lt_of_getElem? f1; omega
              have hnd : SafeNode nd := hall nd (List.mem_of_getElem? (i := f) (by
                rw [n2, setLeft_ne hfr]; exact hf1))
              exact Or.inr (SafeNode_code hnd (f3.resolve_right hnc))
            have hne' : r ≠ chain := by
              obtain ⟨nc, c1, _⟩ := hI.tail
              have := lt_of_getElem? c1; omega
            have hlen1 : s1.p.length ≤ s.p.length := g1.plen
            have hkeep : ∀ k, k < r → (s2.setRight r (charInt t)).nodes[k]? = s.nodes[k]? := by
              intro k hk
              rw [setRight_ne (by omega), n2, setLeft_ne (by omega), g1.pre k hk]
            obtain ⟨nc, c1, c2⟩ := hI.tail
            have hcl := lt_of_getElem? c1
            have hI' : ClassInv s0 ret none r ((s2.setRight r (charInt t)).setNext chain r) := by
              refine ⟨?_, hI.low, ?_, ?_, ?_, fun f hf => by cases hf⟩
              · exact setNext_grow (hI.grow.trans g3) (by have := hI.path.le; have := hI.low; omega) _
              · exact Path.extend (n := nc) (hI.path.frame fun x _ hx => hkeep x (by omega))
                  (by rw [hkeep _ hcl]; exact c1) hcl
              · refine setNext_root ?_
                obtain ⟨nd0, r1, r2⟩ := hI.root
                exact ⟨nd0, by rw [hkeep _ (lt_of_getElem? r1)]; exact r1, r2⟩
              · exact ⟨{ type := .range, left := nd.type.code, right := charInt t },
                  by rw [setNext_ne (by omega)]; exact setRight_self hr2 _, rfl⟩
            have hplen : s2.p.length < s.p.length := by
              have h1 : (s1.setLeft r nd.type.code).p = s1.p := rfl
              rw [h1, p1] at p2
              rw [hp]; simp; omega
            refine (ih none r _ ?_ hI' ?_).mono ?_
            · show s2.p.length < fuel
              omega
            · intro _ hrr
              have := hI.path.le; omega
            · rintro ⟨a, b, c⟩ ⟨h1, h2, h3⟩
              refine ⟨h1, h2, ?_⟩
              have h4 : c.p.length ≤ s2.p.length := h3
              show c.p.length ≤ s.p.length
              omega
      · rename_i f _
        refine RPost.bind (charnode_post true hI.link.grow.inv) ?_
        rintro ⟨n, s1⟩ ⟨hl, hcl⟩
        simp only at hl hcl
        have hL := hI.link
        obtain ⟨hlt, nd, f1, f2, f3⟩ := hI.pend f rfl
        have hI' : ClassInv s0 ret (some n) f s1 := by
          obtain ⟨nc, c1, c2⟩ := hL.tail
          have hfl := lt_of_getElem? c1
          have hn := hl.idx
          refine ⟨hL.grow.trans hl.grow, hL.low, ?_, ?_, ?_, ?_⟩
          · exact hL.path.frame fun x _ hx => hl.grow.pre x (by omega)
          · obtain ⟨nd0, r1, r2⟩ := hL.root
            exact ⟨nd0, by rw [hl.grow.pre _ (lt_of_getElem? r1)]; exact r1, r2⟩
          · exact ⟨nc, by rw [hl.grow.pre _ hfl]; exact c1, c2⟩
          · intro f' hf'
            cases hf'
            obtain ⟨nd1, k1, k2, _⟩ := hl.node
            obtain ⟨nd2, k3, k4⟩ := hcl trivial
            rw [k1] at k3; cases k3
            exact ⟨by omega, nd1, k1, k2, k4⟩
        have hpl : s1.p.length < s.p.length := hl.plen
        refine (ih (some n) f s1 (by omega) hI' (fun h => by cases h)).mono ?_
        rintro ⟨a, b, c⟩ ⟨h1, h2, h3⟩
        exact ⟨h1, h2, by simp only at h3 ⊢; omega⟩
      · refine RPost.bind (charnode_post true hI.grow.inv) ?_
        rintro ⟨n, s1⟩ ⟨hl, hcl⟩
        simp only at hl hcl
        have hI' : ClassInv s0 ret (some n) chain s1 := by
          obtain ⟨nc, c1, c2⟩ := hI.tail
          have hfl := lt_of_getElem? c1
          have hn := hl.idx
          refine ⟨hI.grow.trans hl.grow, hI.low, ?_, ?_, ?_, ?_⟩
          · exact hI.path.frame fun x _ hx => hl.grow.pre x (by omega)
          · obtain ⟨nd0, r1, r2⟩ := hI.root
            exact ⟨nd0, by rw [hl.grow.pre _ (lt_of_getElem? r1)]; exact r1, r2⟩
          · exact ⟨nc, by rw [hl.grow.pre _ hfl]; exact c1, c2⟩
          · intro f' hf'
            cases hf'
            obtain ⟨nd1, k1, k2, _⟩ := hl.node
            obtain ⟨nd2, k3, k4⟩ := hcl trivial
            rw [k1] at k3; cases k3
            exact ⟨by omega, nd1, k1, k2, k4⟩
        have hpl : s1.p.length < s.p.length := hl.plen
        refine (ih (some n) chain s1 (by omega) hI' (fun h => by cases h)).mono ?_
        rintro ⟨a, b, c⟩ ⟨h1, h2, h3⟩
        exact ⟨h1, h2, by simp only at h3 ⊢; omega⟩

/-- Result of compiling one element, before it is chained to the next one. -/
structure Elem (s : RState) (ret : Nat) (s' : RState) : Prop where
  grow : Grow s s'
  plen : s'.p.length < s.p.length
  seg : Seg s'.nodes false s.nodes.length s'.nodes.length ret
  tail : ∃ nd, s'.nodes[ret]? = some nd ∧ nd.next = -1

/-- Result of compiling a sequence of elements. -/
structure Chain (s : RState) (ret : Nat) (s' : RState) : Prop where
  grow : Grow s s'
  plen : s'.p.length < s.p.length
  seg : Seg s'.nodes true s.nodes.length s'.nodes.length ret

theorem NewLeaf.elem {s s' : RState} {n : Nat} (h : NewLeaf s n s') : Elem s n s' := by
  obtain ⟨nd, h1, h2, h3⟩ := h.node
  refine ⟨h.grow, h.plen, ?_, nd, h1, h2⟩
  rw [h.len]
  have := h.idx
  subst this
  exact .leaf h1 h3

theorem Elem.chain {s s' : RState} {n : Nat} (h : Elem s n s') : Chain s n s' := by
  obtain ⟨nd, h1, h2⟩ := h.tail
  exact ⟨h.grow, h.plen, .last h.seg h1 h2⟩

/-- The end of `trex_class`: the chain of items becomes the left branch of the class node. -/
theorem class_finish {s0 : RState} {chain : Nat} {s : RState}
    (h : ClassInv s0 s0.nodes.length none chain s) (hne : chain ≠ s0.nodes.length)
    (hpl : s.p.length < s0.p.length) :
    ∃ n, s.nodes[s0.nodes.length]? = some n ∧
      Elem s0 s0.nodes.length ((s.setLeft s0.nodes.length n.next).setNext s0.nodes.length (-1)) := by
  obtain ⟨nd, r1, r2⟩ := h.root
  refine ⟨nd, r1, ?_⟩
  obtain ⟨nc, c1, c2⟩ := h.tail
  have hcl := lt_of_getElem? c1
  have hpath := h.path
  cases hpath with
  | refl => exact absurd rfl hne
  | step h1 h2 h3 h4 =>
    rename_i j n
    rw [r1] at h1; cases h1
    have hit : Items s.nodes s.nodes.length (s0.nodes.length + 1) j := h4.items c1 c2 hcl (by omega)
    have hagree : ∀ x, x ≠ s0.nodes.length →
        ((s.setLeft s0.nodes.length nd.next).setNext s0.nodes.length (-1)).nodes[x]? = s.nodes[x]? := by
      intro x hx
      rw [setNext_ne (by omega), setLeft_ne (by omega)]
    have hself : ((s.setLeft s0.nodes.length nd.next).setNext s0.nodes.length (-1)).nodes[s0.nodes.length]?
        = some { nd with left := nd.next, next := -1 } := setNext_self (setLeft_self r1 _) _
    have hlen : ((s.setLeft s0.nodes.length nd.next).setNext s0.nodes.length (-1)).nodes.length
        = s.nodes.length := by simp [RState.setLeft, RState.setNext]
    refine ⟨setNext_grow (setLeft_grow h.grow (Nat.le_refl _) _ ?_) (Nat.le_refl _) _, hpl, ?_, _, hself, rfl⟩
    · intro n hn _ _ sn
      rw [r1] at hn; cases hn
      rcases r2 with r2 | r2 <;> simpa [SafeNode, r2] using sn
    · rw [hlen]
      exact .cls hself r2 h2 (hit.frame fun x hx _ => hagree x (by omega)) (by rw [hlen])

theorem rexClass_post {s : RState} {p : CStr} (h : RInv s) (hp : s.p = '[' :: p) :
    RPost (fun r : Nat × RState => Elem s r.1 r.2) (rexClass { s with p := p }) := by
  unfold rexClass
  refine RPost.bind (P := fun r : Nat × RState => r.1 = s.nodes.length ∧ Grow s r.2 ∧
    r.2.p.length < s.p.length ∧ ∃ nd, r.2.nodes[s.nodes.length]? = some nd ∧ nd.next = -1 ∧
      (nd.type = .cls ∨ nd.type = .ncls)) ?_ ?_
  · unfold classHead
    dsimp only
    split
    · rename_i _ q
      obtain ⟨s', e1, g1, p1, n1⟩ := newnode_grow .ncls h ('^' :: q) (by rw [hp]; simp)
        (fun a => by rw [hp] at a; simp [SafePat] at a)
      rw [e1]
      refine ⟨rfl, ?_, ?_, ?_⟩
      · refine ⟨⟨g1.inv.len, g1.inv.pos⟩, g1.pre, g1.len, ?_, ?_⟩
        · show q.length ≤ s.p.length
          rw [hp]; simp; omega
        · intro a; rw [hp] at a; simp [SafePat] at a
      · show q.length < s.p.length
        rw [hp]; simp; omega
      · exact ⟨_, by simp only [n1]; simp; rfl, rfl, Or.inr rfl⟩
    · obtain ⟨s', e1, g1, p1, n1⟩ := newnode_grow .cls h p (by rw [hp]; simp)
        (fun a => by
          rw [hp] at a
          exact ⟨(SafePat_cons a (by decide)).1, trivial⟩)
      rw [e1]
      exact ⟨rfl, g1, by rw [p1, hp]; simp, _, by rw [n1]; simp; rfl, rfl, Or.inl rfl⟩
  · rintro ⟨ret, s1⟩ ⟨rfl, g1, p1, nd, r1, r2, r3⟩
    simp only at g1 p1 r1
    dsimp only
    split
    · trivial
    · rename_i hnot
      have hI : ClassInv s s.nodes.length none s.nodes.length s1 :=
        ⟨g1, Nat.le_refl _, .refl _, ⟨nd, r1, r3⟩, ⟨nd, r1, r2⟩, fun f hf => by cases hf⟩
      refine RPost.bind (classLoop_post (s1.p.length + 1) none _ s1 (by omega) hI ?_) ?_
      · intro _ _ hh
        cases hq : s1.p with
        | nil => rw [hq] at hh; cases hh
        | cons c q =>
          rw [hq] at hh
          simp only [List.head?_cons, Option.some.injEq] at hh
          subst hh
          exact hnot _ hq
      · rintro ⟨first, chain, s2⟩ ⟨h1, h2, h3⟩
        simp only at h1 h2 h3
        cases first with
        | none =>
          obtain ⟨n, k1, k2⟩ := class_finish h1 (h2 rfl) (by omega)
          dsimp only
          rw [k1]
          exact k2
        | some f =>
          have hf := (h1.pend f rfl).1
          have hle := h1.path.le
          obtain ⟨n, k1, k2⟩ := class_finish h1.link (by omega) (by show s2.p.length < _; omega)
          dsimp only
          rw [k1]
          exact k2

/-! ### quantifiers -/

theorem SafePat_digit {c : Char} {p : CStr} (h : SafePat (c :: p) = true) (hc : isDigit c = true) :
    SafePat p = true :=
  (SafePat_cons h (by rintro rfl; revert hc; decide)).1

theorem parseDigits_post : ∀ (p : CStr) (ret pos : Int),
    RPost (fun r : Int × CStr => r.2.length ≤ p.length ∧ (SafePat p = true → SafePat r.2 = true))
      (parseDigits p ret pos) := by
  intro p
  induction p with
  | nil => intro ret pos; exact ⟨Nat.le_refl _, id⟩
  | cons c p ih =>
    intro ret pos
    rw [parseDigits]
    refine RPost.ite (fun hd => ?_) (fun _ => ⟨Nat.le_refl _, id⟩)
    refine RPost.ite (fun _ => Or.inr (Or.inr (Or.inl rfl))) fun _ => ?_
    refine RPost.ite (fun _ => trivial) fun _ => ?_
    refine (ih _ _).mono ?_
    rintro ⟨n, q⟩ ⟨h1, h2⟩
    exact ⟨Nat.le_succ_of_le h1, fun a => h2 (SafePat_digit a hd)⟩

/-- The pattern advances, the nodes stay. -/
structure Skip (s s' : RState) : Prop where
  nodes : s'.nodes = s.nodes
  nalloc : s'.nalloc = s.nalloc
  plen : s'.p.length ≤ s.p.length
  safe : SafePat s.p = true → SafePat s'.p = true

theorem Skip.refl (s : RState) : Skip s s := ⟨rfl, rfl, Nat.le_refl _, id⟩

theorem Skip.trans {s s1 s2 : RState} (h1 : Skip s s1) (h2 : Skip s1 s2) : Skip s s2 :=
  ⟨h2.nodes.trans h1.nodes, h2.nalloc.trans h1.nalloc, Nat.le_trans h2.plen h1.plen,
    fun a => h2.safe (h1.safe a)⟩

theorem Skip.cons {s : RState} {c : Char} {p : CStr} (h : s.p = c :: p) (hc : c ≠ '\\') :
    Skip s { s with p := p } :=
  ⟨rfl, rfl, by rw [h]; simp, fun a => by rw [h] at a; exact (SafePat_cons a hc).1⟩

theorem Skip.grow {s0 s s' : RState} (g : Grow s0 s) (h : Skip s s') : Grow s0 s' where
  inv := ⟨by rw [h.nodes, h.nalloc]; exact g.inv.len, by rw [h.nalloc]; exact g.inv.pos⟩
  pre := by rw [h.nodes]; exact g.pre
  len := by rw [h.nodes]; exact g.len
  plen := Nat.le_trans h.plen g.plen
  safe := fun a b => ⟨h.safe (g.safe a b).1, by rw [h.nodes]; exact (g.safe a b).2⟩

theorem parseNumber_post {s : RState} {c : Char} {p : CStr} (hp : s.p = c :: p)
    (hc : isDigit c = true) :
    RPost (fun r : Nat × RState => Skip s r.2) (parseNumber s) := by
  unfold parseNumber
  rw [hp]
  dsimp only
  refine RPost.bind (parseDigits_post p _ _) ?_
  rintro ⟨n, q⟩ ⟨h1, h2⟩
  refine ⟨rfl, rfl, ?_, ?_⟩
  · rw [hp]; exact Nat.le_succ_of_le h1
  · intro a
    rw [hp] at a
    exact h2 (SafePat_digit a hc)

theorem rexExpect_post (c : Char) (hc : c ≠ '\\') (s : RState) :
    RPost (fun s' : RState => Skip s s') (rexExpect c s) := by
  unfold rexExpect
  split
  · rename_i d p hp
    refine RPost.ite (fun h => ?_) (fun _ => trivial)
    subst h
    exact Skip.cons hp hc
  · trivial

theorem quantUpper_post (s : RState) :
    RPost (fun r : Nat × RState => Skip s r.2) (quantUpper s) := by
  unfold quantUpper
  split
  · rename_i c p hp
    refine RPost.ite (fun hd => ?_) (fun _ => Skip.refl s)
    exact parseNumber_post hp hd
  · exact Skip.refl s

theorem quantifier_post (s : RState) :
    RPost (fun r : Option (Nat × Nat) × RState => Skip s r.2) (quantifier s) := by
  unfold quantifier
  split
  · rename_i p hp; exact Skip.cons hp (by decide)
  · rename_i p hp; exact Skip.cons hp (by decide)
  · rename_i p hp; exact Skip.cons hp (by decide)
  · rename_i p hp
    have h0 : Skip s { s with p := p } := Skip.cons hp (by decide)
    split
    · rename_i c q
      refine RPost.ite (fun _ => trivial) fun hd => ?_
      simp only [Bool.not_eq_true, Bool.not_eq_false] at hd
      refine RPost.bind (parseNumber_post (s := { s with p := c :: q }) rfl hd) ?_
      rintro ⟨n, s1⟩ h1
      have h1 := h0.trans h1
      simp only at h1
      dsimp only
      split
      · rename_i p2 hp2; exact h1.trans (Skip.cons hp2 (by decide))
      · rename_i p2 hp2
        have h2 := h1.trans (Skip.cons hp2 (by decide))
        refine RPost.bind (quantUpper_post _) ?_
        · rintro ⟨n2, s2⟩ h3
          have h3 := h2.trans h3
          refine RPost.bind (rexExpect_post '}' (by decide) s2) ?_
          intro s3 h4
          exact Skip.trans h3 h4
      · trivial
    · trivial
  · exact Skip.refl s

/-! ### elements and lists -/

theorem Elem.skip {s s1 s2 : RState} {n : Nat} (h : Elem s n s1) (k : Skip s1 s2) : Elem s n s2 where
  grow := k.grow h.grow
  plen := Nat.lt_of_le_of_lt k.plen h.plen
  seg := by rw [k.nodes]; exact h.seg
  tail := by rw [k.nodes]; exact h.tail

/-- Wrapping an element in a quantifier. -/
theorem greedy_elem {s s1 : RState} {ret : Nat} (h : Elem s ret s1) (v : Int) :
    ∃ s2, newnode .greedy s1 = .ok (s1.nodes.length, s2) ∧
      Elem s s1.nodes.length ((s2.setLeft s1.nodes.length ret).setRight s1.nodes.length v) := by
  obtain ⟨s2, e2, g2, p2, n2⟩ := newnode_grow .greedy h.grow.inv s1.p (Nat.le_refl _)
    (fun a => ⟨a, trivial⟩)
  refine ⟨s2, e2, ?_⟩
  simp only [reduceCtorEq, if_false] at n2
  have hr : s2.nodes[s1.nodes.length]? = some { type := .greedy } := by rw [n2]; simp
  have hself : ((s2.setLeft s1.nodes.length ret).setRight s1.nodes.length v).nodes[s1.nodes.length]?
      = some { type := .greedy, left := ret, right := v } := setRight_self (setLeft_self hr _) _
  have hagree : ∀ x, x < s1.nodes.length →
      ((s2.setLeft s1.nodes.length ret).setRight s1.nodes.length v).nodes[x]? = s1.nodes[x]? := by
    intro x hx
    rw [setRight_ne (by omega), setLeft_ne (by omega), g2.pre x hx]
  have hlen : ((s2.setLeft s1.nodes.length ret).setRight s1.nodes.length v).nodes.length
      = s1.nodes.length + 1 := by simp [RState.setLeft, RState.setRight, n2]
  refine ⟨?_, ?_, ?_, _, hself, rfl⟩
  · refine setRight_grow (setLeft_grow (h.grow.trans g2) h.grow.len _ ?_) h.grow.len _ ?_
    · intro n hn _ _ _
      rw [hr] at hn; cases hn; trivial
    · intro n hn _ _ _
      rw [setLeft_self hr] at hn; cases hn; trivial
  · show s2.p.length < _
    rw [p2]; exact h.plen
  · rw [hlen]
    refine .greedy hself rfl rfl ?_
    obtain ⟨nd, t1, t2⟩ := h.tail
    exact Seg.frame (.last h.seg t1 t2) fun x _ hx => hagree x hx

/-- Chaining an element to what follows it. -/
theorem elem_next {s s1 s2 : RState} {ret n : Nat} (h : Elem s ret s1) (h2 : Chain s1 n s2) :
    Chain s ret (s2.setNext ret n) := by
  have hb := h.seg.bounds
  have hb2 := h2.seg.bounds
  obtain ⟨nd, t1, t2⟩ := h.tail
  have hlen : (s2.setNext ret n).nodes.length = s2.nodes.length := by simp [RState.setNext]
  have hr2 : s2.nodes[ret]? = some nd := by rw [h2.grow.pre ret (by omega)]; exact t1
  refine ⟨setNext_grow (h.grow.trans h2.grow) hb.1 _, Nat.lt_trans h2.plen h.plen, ?_⟩
  rw [hlen]
  refine .cons (mid := s1.nodes.length) (h.seg.setNext (v := n) ?_ ?_) (setNext_self hr2 n) rfl ?_
  · intro x _ hx hne
    rw [setNext_ne (by omega), h2.grow.pre x hx]
  · rw [setNext_self hr2, t1]; rfl
  · exact h2.seg.frame fun x hx _ => setNext_ne (by omega) _

/-- `newnode` for a group, then its contents. -/
theorem group_elem {s s1 s2 s3 : RState} {ty : RType} {newn : Nat} (hty : ty = .expr ∨ ty = .nocap)
    (hs : Skip s s1) (hp : s1.p.length < s.p.length) (hi : RInv s)
    (hn : newnode ty s1 = .ok (s.nodes.length, s2))
    (hl : Chain s2 newn s3) : Elem s s.nodes.length (s3.setLeft s.nodes.length newn) := by
  have g1 : Grow s s1 := hs.grow (Grow.refl hi)
  obtain ⟨s2', e2, g2, p2, n2⟩ := newnode_grow ty g1.inv s1.p (Nat.le_refl _)
    (fun a => ⟨a, by rcases hty with rfl | rfl <;> trivial⟩)
  have hl1 : s1.nodes.length = s.nodes.length := by rw [hs.nodes]
  have : s2' = s2 := by
    have : newnode ty { s1 with p := s1.p } = newnode ty s1 := rfl
    rw [this, hn] at e2
    injection e2 with e2
    injection e2 with _ e2
    exact e2.symm
  subst this
  have hr2 : ∃ n2, s2'.nodes[s.nodes.length]? = some n2 ∧ n2.type = ty ∧ n2.next = -1 := by
    rw [n2, ← hl1]; simp
  obtain ⟨nd, r1, r2, r3⟩ := hr2
  have hlen2 : s2'.nodes.length = s.nodes.length + 1 := by rw [n2, ← hl1]; simp
  have r1' : s3.nodes[s.nodes.length]? = some nd := by
    rw [hl.grow.pre _ (by omega)]; exact r1
  have hlen3 : (s3.setLeft s.nodes.length newn).nodes.length = s3.nodes.length := by
    simp [RState.setLeft]
  refine ⟨?_, ?_, ?_, _, setLeft_self r1' _, r3⟩
  · refine setLeft_grow ((g1.trans g2).trans hl.grow) (Nat.le_refl _) _ ?_
    intro n hn _ _ sn
    rw [r1'] at hn; cases hn
    rcases hty with rfl | rfl <;> simp [SafeNode, r2]
  · show s3.p.length < _
    have := hl.plen
    rw [p2] at this
    omega
  · rw [hlen3]
    refine .expr (setLeft_self r1' _) (by rw [r2] at *; exact hty) rfl ?_
    have := hl.seg
    rw [hlen2] at this
    exact this.frame fun x hx _ => setLeft_ne (by omega) _

theorem groupHead_post {s : RState} {p : CStr} (hs : RInv s) (hp : s.p = '(' :: p) :
    RPost (fun r : Nat × RState => r.1 = s.nodes.length ∧
      ∃ ty s1, (ty = .expr ∨ ty = .nocap) ∧ Skip s s1 ∧ s1.p.length < s.p.length ∧
        newnode ty s1 = .ok r) (groupHead { s with p := p }) := by
  have h0 : Skip s { s with p := p } := Skip.cons hp (by decide)
  have hpl : p.length < s.p.length := by rw [hp]; simp
  unfold groupHead
  dsimp only
  split
  · rename_i _ q
    have h1 : Skip s { s with p := q } :=
      h0.trans (Skip.cons (s := { s with p := '?' :: q }) rfl (by decide))
    refine RPost.bind (rexExpect_post ':' (by decide) { s with p := q }) ?_
    intro s1 h2
    have h3 := h1.trans h2
    have hi := (h3.grow (Grow.refl hs)).inv
    obtain ⟨s', e, _⟩ := newnode_eq .nocap hi
    rw [e]
    refine ⟨by rw [h3.nodes], .nocap, s1, Or.inr rfl, h3, ?_, e⟩
    have := h2.plen
    simp only [List.length_cons] at hpl this
    omega
  · obtain ⟨s', e, _⟩ := newnode_eq .expr (h0.grow (Grow.refl hs)).inv
    rw [e]
    exact ⟨rfl, .expr, _, Or.inl rfl, h0, hpl, e⟩

theorem rexAtom_post {list : RState → RM (Nat × RState)} {s : RState} (hs : RInv s)
    (ihL : ∀ s2 : RState, RInv s2 → s2.p.length < s.p.length →
      RPost (fun r : Nat × RState => Chain s2 r.1 r.2) (list s2)) :
    RPost (fun r : Nat × RState => Elem s r.1 r.2) (rexAtom list s) := by
  unfold rexAtom
  split
  · rename_i p hp
    refine RPost.bind (groupHead_post hs hp) ?_
    rintro ⟨ex, s2⟩ ⟨rfl, ty, s1, hty, hsk, hp1, hn⟩
    have hg := hsk.grow (Grow.refl hs)
    obtain ⟨s2', e2, i2, p2, _⟩ := newnode_eq ty hg.inv
    rw [hn] at e2
    injection e2 with e2
    injection e2 with _ e2
    subst e2
    refine RPost.bind (ihL s2 i2 (by rw [p2]; exact hp1)) ?_
    rintro ⟨newn, s3⟩ hl
    have he := group_elem hty hsk hp1 hs hn hl
    refine RPost.bind (rexExpect_post ')' (by decide) _) ?_
    intro s4 h4
    exact he.skip h4
  · rename_i p hp
    refine RPost.bind (rexClass_post hs hp) ?_
    rintro ⟨ret, s1⟩ h1
    refine RPost.bind (rexExpect_post ']' (by decide) _) ?_
    intro s2 h2
    exact Elem.skip h1 h2
  · rename_i p hp
    obtain ⟨s', e, h1, _⟩ := newnode_leaf .eol rfl hs p (by rw [hp]; simp)
      (fun a => ⟨by rw [hp] at a; exact (SafePat_cons a (by decide)).1, trivial⟩)
    rw [e]
    exact h1.elem
  · rename_i p hp
    obtain ⟨s', e, h1, _⟩ := newnode_leaf .dot rfl hs p (by rw [hp]; simp)
      (fun a => by rw [hp] at a; exact absurd rfl (SafePat_cons a (by decide)).2)
    rw [e]
    exact h1.elem
  · exact (charnode_post false hs).mono fun r hr => hr.1.elem

theorem wrapGreedy_post {s s2 : RState} {ret : Nat} (h2 : Elem s ret s2) (q : Option (Nat × Nat)) :
    RPost (fun r : Nat × RState => Elem s r.1 r.2) (wrapGreedy ret q s2) := by
  unfold wrapGreedy
  split
  · exact h2
  · rename_i p0 p1
    refine RPost.ite (fun _ => Or.inr (Or.inr (Or.inr rfl))) fun _ => ?_
    obtain ⟨s3, e3, h3⟩ := greedy_elem h2 (p0 * 65536 + p1)
    rw [e3]
    exact h3

theorem listHead_post {element : RState → RM (Nat × RState)} {s : RState} (hs : RInv s)
    (ihE : ∀ s2 : RState, RInv s2 → s2.p.length ≤ s.p.length →
      RPost (fun r : Nat × RState => Chain s2 r.1 r.2) (element s2)) :
    RPost (fun r : Nat × RState => Chain s r.1 r.2) (listHead element s) := by
  unfold listHead
  split
  · rename_i p hp
    obtain ⟨s1, e, h1, _⟩ := newnode_leaf .bol rfl hs p (by rw [hp]; simp)
      (fun a => ⟨by rw [hp] at a; exact (SafePat_cons a (by decide)).1, trivial⟩)
    refine RPost.bind (P := fun r => r = (s.nodes.length, s1)) (by rw [e]; rfl) ?_
    rintro _ rfl
    refine RPost.bind (P := fun r => Chain s1 r.1 r.2)
      (ihE s1 h1.grow.inv (Nat.le_of_lt h1.plen)) ?_
    rintro ⟨n, s2⟩ h2
    exact elem_next h1.elem h2
  · exact ihE s hs (Nat.le_refl _)

theorem rex_post : ∀ fuel : Nat,
    (∀ s : RState, RInv s → 2 * s.p.length + 1 ≤ fuel →
      RPost (fun r : Nat × RState => Chain s r.1 r.2) (rexElement fuel s)) ∧
    (∀ s : RState, RInv s → 2 * s.p.length + 2 ≤ fuel →
      RPost (fun r : Nat × RState => Chain s r.1 r.2) (rexList fuel s)) := by
  intro fuel
  induction fuel with
  | zero => exact ⟨fun s _ h => by omega, fun s _ h => by omega⟩
  | succ fuel ih =>
    obtain ⟨ihE, ihL⟩ := ih
    constructor
    · intro s hs hfuel
      rw [rexElement.eq_def]
      dsimp only
      refine RPost.bind (rexAtom_post hs fun s2 h2 hl => ihL s2 h2 (by omega)) ?_
      · rintro ⟨ret, s1⟩ h1
        refine RPost.bind (quantifier_post s1) ?_
        rintro ⟨q, s2⟩ h2
        have h2 : Elem s ret s2 := Elem.skip h1 h2
        refine RPost.bind (wrapGreedy_post h2 q) ?_
        · rintro ⟨ret', s3⟩ h3
          have h3 : Elem s ret' s3 := h3
          dsimp only
          split
          · exact h3.chain
          · refine RPost.ite (fun _ => ?_) (fun _ => h3.chain)
            refine RPost.bind (ihE s3 h3.grow.inv (by have := h3.plen; omega)) ?_
            rintro ⟨n, s4⟩ h4
            exact elem_next h3 h4
    · intro s hs hfuel
      rw [rexList.eq_def]
      dsimp only
      refine RPost.bind (listHead_post hs fun s2 h2 hl => ihE s2 h2 (by omega)) ?_
      · rintro ⟨ret, s1⟩ h1
        have h1 : Chain s ret s1 := h1
        dsimp only
        split
        · rename_i p hp
          obtain ⟨s2, e2, g2, p2, n2⟩ := newnode_grow .or h1.grow.inv p (by rw [hp]; simp)
            (fun a => ⟨by rw [hp] at a; exact (SafePat_cons a (by decide)).1, trivial⟩)
          simp only [reduceCtorEq, if_false] at n2
          refine RPost.bind (P := fun r => r = (s1.nodes.length, s2)) (by rw [e2]; rfl) ?_
          rintro _ rfl
          dsimp only
          set t := s1.nodes.length with ht
          have hr : s2.nodes[t]? = some { type := .or } := by rw [n2]; simp [ht]
          have gl : Grow s (s2.setLeft t ret) := by
            refine setLeft_grow (h1.grow.trans g2) h1.grow.len _ ?_
            intro n hn _ _ _
            rw [hr] at hn; cases hn; trivial
          have hplen : p.length < s1.p.length := by rw [hp]; simp
          have hp1 := h1.plen
          refine RPost.bind (P := fun r => Chain (s2.setLeft t ret) r.1 r.2)
            (ihL (s2.setLeft t ret) gl.inv (by show 2 * s2.p.length + 2 ≤ _; rw [p2]; omega)) ?_
          rintro ⟨n, s3⟩ h3
          have h3 : Chain (s2.setLeft t ret) n s3 := h3
          have hl2 : (s2.setLeft t ret).nodes.length = t + 1 := by
            simp [RState.setLeft, n2, ht]
          have hr3 : s3.nodes[t]? = some { type := .or, left := ret } := by
            rw [h3.grow.pre t (by omega)]; exact setLeft_self hr _
          have hlen : (s3.setRight t n).nodes.length = s3.nodes.length := by simp [RState.setRight]
          refine ⟨?_, ?_, ?_⟩
          · refine setRight_grow (gl.trans h3.grow) h1.grow.len _ ?_
            intro m hm _ _ _
            rw [hr3] at hm; cases hm; trivial
          · have h5 := h3.plen
            have h6 : (s2.setLeft t ret).p = p := p2
            rw [h6] at h5
            show s3.p.length < _
            omega
          · have hself := setRight_self hr3 n
            refine .last ?_ hself rfl
            rw [hlen]
            refine .or hself rfl rfl rfl ?_ ?_
            · refine h1.seg.frame fun x _ hx => ?_
              rw [setRight_ne (by omega), h3.grow.pre x (by omega), setLeft_ne (by omega),
                g2.pre x hx]
            · have := h3.seg
              rw [hl2] at this
              exact this.frame fun x hx _ => setRight_ne (by omega) _
        · exact h1

/-- `trex_compile` of a non-empty pattern: the nodes are laid out properly, or the pattern is rejected,
or one of the faults `CompFault` occurs. -/
theorem rexCompile_post {pattern : CStr} (hne : pattern ≠ []) :
    match rexCompile pattern with
    | .ok none => True
    | .ok (some nodes) => Seg nodes true 0 nodes.length 0 ∧
        (SafePat pattern = true → AllSafe nodes)
    | .error f => CompFault f := by
  have hs : RInv ⟨pattern, [], pattern.length, 0⟩ := ⟨Nat.zero_le _, List.length_pos_of_ne_nil hne⟩
  obtain ⟨s1, e1, i1, p1, n1⟩ := newnode_eq .expr hs
  simp only [List.length_nil, List.nil_append, if_true] at e1 p1 n1
  have hl := (rex_post (2 * pattern.length + 2)).2 s1 i1 (by rw [p1])
  unfold rexCompile
  dsimp only
  rw [e1]
  cases hr : rexList (2 * pattern.length + 2) s1 with
  | error e =>
    rw [hr] at hl
    have : ((do
      let (first, s) ← (Except.ok (0, s1) : RM (Nat × RState))
      let (res, s) ← rexList (2 * pattern.length + 2) s
      let s := s.setLeft first res
      if s.p ≠ [] then Except.error (.bad "unexpected character") else .ok s.nodes) : RM (List RNode))
        = .error e := by
      show (rexList (2 * pattern.length + 2) s1 >>= _) = _
      rw [hr]; rfl
    rw [this]
    cases e with
    | bad _ => trivial
    | fault f => exact hl
  | ok r =>
    obtain ⟨res, s2⟩ := r
    rw [hr] at hl
    have hl : Chain s1 res s2 := hl
    have : ((do
      let (first, s) ← (Except.ok (0, s1) : RM (Nat × RState))
      let (res, s) ← rexList (2 * pattern.length + 2) s
      let s := s.setLeft first res
      if s.p ≠ [] then Except.error (.bad "unexpected character") else .ok s.nodes) : RM (List RNode))
        = if s2.p ≠ [] then Except.error (.bad "unexpected character")
          else .ok (s2.setLeft 0 res).nodes := by
      show (rexList (2 * pattern.length + 2) s1 >>= _) = _
      rw [hr]; rfl
    rw [this]
    by_cases hq : s2.p ≠ []
    · rw [if_pos hq]; trivial
    · rw [if_neg hq]
      have hr1 : s1.nodes[0]? = some { type := .expr, right := (0 : Int) } := by rw [n1]; rfl
      have hr2 : s2.nodes[0]? = some { type := .expr, right := (0 : Int) } := by
        rw [hl.grow.pre 0 (by rw [n1]; simp)]; exact hr1
      have hlen : (s2.setLeft 0 res).nodes.length = s2.nodes.length := by simp [RState.setLeft]
      refine ⟨?_, ?_⟩
      · have hself := setLeft_self hr2 res
        refine .last ?_ hself rfl
        rw [hlen]
        refine .expr hself (Or.inl rfl) rfl ?_
        have := hl.seg
        rw [n1] at this
        exact this.frame fun x hx _ => setLeft_ne (by simp at hx; omega) _
      · intro hsp
        have hall1 : AllSafe s1.nodes := by
          rw [n1]
          intro n hn
          simp only [List.mem_singleton] at hn
          rw [hn]; trivial
        refine AllSafe.modify (hl.grow.safe (by rw [p1]; exact hsp) hall1).2 _ _ ?_
        intro n hn _
        rw [hr2] at hn; cases hn; trivial

/-- Compiling never runs out of fuel. -/
theorem rexCompile_not_fuel (pattern : CStr) : rexCompile pattern ≠ .error .fuel := by
  by_cases hne : pattern = []
  · subst hne
    intro h
    cases h
  · intro h
    have := rexCompile_post hne
    rw [h] at this
    rcases this with h | h | h | h <;> cases h

end Argtable
