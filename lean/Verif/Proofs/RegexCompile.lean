import Verif.Spec.Regex
import Verif.Proofs.RexLiteral
import Verif.Proofs.Scan
/-!
# Compiling a pattern given as a syntax tree

The nodes represent the tree (`RepRe`).
-/

namespace Argtable
open Spec

/-! ### outcomes -/

/-- `Q` holds of the result; the pattern may be rejected only if `E`. -/
def CPost {α : Type} (E : Prop) (Q : α → Prop) : RM α → Prop
  | .ok a => Q a
  | .error (.bad _) => E
  | .error (.fault _) => False

theorem CPost.bind {α β : Type} {E : Prop} {P : α → Prop} {Q : β → Prop} {x : RM α} {f : α → RM β}
    (h : CPost E P x) (hf : ∀ a, P a → CPost E Q (f a)) : CPost E Q (x >>= f) := by
  cases x with
  | error e => cases e <;> exact h
  | ok a => exact hf a h

theorem CPost.mono {α : Type} {E : Prop} {P Q : α → Prop} {x : RM α} (h : CPost E P x) (hpq : ∀ a, P a → Q a) :
    CPost E Q x := by
  cases x with
  | error e => cases e <;> exact h
  | ok a => exact hpq a h

/-! ### representation -/

/-- The node of an item of a class. -/
def ItemNode : SetItem → RNode → Prop
  | .one l, n => n.type = .char l.char
  | .cls l, n => n.type = .ccls ∧ n.left = charInt l
  | .range a b, n => n.type = .range ∧ n.left = charInt a.char ∧ n.right = charInt b.char

/-- The chain of the items of a class starting with the link `v`, in `[lo, hi)`. -/
def RepItems (nodes : List RNode) (lo hi : Nat) : List SetItem → Int → Prop
  | [], v => v = -1
  | x :: xs, v => ∃ (k : Nat) (n : RNode), v = k ∧ lo ≤ k ∧ k < hi ∧ nodes[k]? = some n ∧ ItemNode x n ∧
      RepItems nodes lo hi xs n.next

/-- The bounds of a repetition as stored. -/
def quantBounds : Quant → Nat × Nat
  | .once => (1, 1)
  | .star => (0, 65535)
  | .plus => (1, 65535)
  | .opt => (0, 1)
  | .exactly n => (n, n)
  | .atLeast n => (n, 65535)
  | .between n m => (n, m)
  | .raw lo hi => (bound lo, upperBound lo hi)

/-- An atom with a repetition. -/
def RepQ (nodes : List RNode) (A : Nat → Nat → Nat → Int → Prop) (q : Quant) (lo hi i : Nat) (nx : Int) : Prop :=
  if q = .once then A lo hi i nx
  else lo < i ∧ i + 1 = hi ∧ ∃ n, nodes[i]? = some n ∧ n.next = nx ∧ n.type = .greedy ∧
    n.right = (((quantBounds q).1 * 65536 + (quantBounds q).2 : Nat) : Int) ∧ ∃ k : Nat, n.left = k ∧ A lo i k (-1)
/-- An alternative. -/
def RepBranch (nodes : List RNode) (A : Nat → Nat → Nat → Prop) (bol : Bool) (lo hi i : Nat) : Prop :=
  if bol then i = lo ∧ i < hi ∧ ∃ n, nodes[i]? = some n ∧ n.type = .bol ∧ ∃ k : Nat, n.next = k ∧ A (lo + 1) hi k
  else A lo hi i

mutual
/-- The atom with root `i`, whose link is `nx`, in `[lo, hi)`. -/
def RepAtom (nodes : List RNode) : Atom → (lo hi i : Nat) → (nx : Int) → Prop
  | .chr l, lo, hi, i, nx => i = lo ∧ i < hi ∧ ∃ n, nodes[i]? = some n ∧ n.next = nx ∧ n.type = .char l.char
  | .cls l, lo, hi, i, nx => i = lo ∧ i < hi ∧ ∃ n, nodes[i]? = some n ∧ n.next = nx ∧ n.type = .ccls ∧
      n.left = charInt l
  | .any, lo, hi, i, nx => i = lo ∧ i < hi ∧ ∃ n, nodes[i]? = some n ∧ n.next = nx ∧ n.type = .dot
  | .set neg first items, lo, hi, i, nx => i = lo ∧ i < hi ∧ ∃ n, nodes[i]? = some n ∧ n.next = nx ∧
      n.type = (if neg then .ncls else .cls) ∧ RepItems nodes (lo + 1) hi (first :: items) n.left
  | .eol, lo, hi, i, nx => i = lo ∧ i < hi ∧ ∃ n, nodes[i]? = some n ∧ n.next = nx ∧ n.type = .eol
  | .edge neg, lo, hi, i, nx => i = lo ∧ i < hi ∧ ∃ n, nodes[i]? = some n ∧ n.next = nx ∧ n.type = .wb ∧
      n.left = charInt (if neg then 'B' else 'b')
  | .group capture r, lo, hi, i, nx => i = lo ∧ i < hi ∧ ∃ n, nodes[i]? = some n ∧ n.next = nx ∧
      n.type = (if capture then .expr else .nocap) ∧ ∃ k : Nat, n.left = k ∧ RepRe nodes r (lo + 1) hi k
/-- The sequence starting with `i`. -/
def RepElems (nodes : List RNode) : Elems → (lo hi i : Nat) → Prop
  | .last a q, lo, hi, i => RepQ nodes (RepAtom nodes a) q lo hi i (-1)
  | .more a q es, lo, hi, i => ∃ m k : Nat, lo < m ∧ m < hi ∧ RepQ nodes (RepAtom nodes a) q lo m i k ∧
      RepElems nodes es m hi k
/-- The pattern starting with `i`. -/
def RepRe (nodes : List RNode) : Re → (lo hi i : Nat) → Prop
  | .branch bol es, lo, hi, i => RepBranch nodes (RepElems nodes es) bol lo hi i
  | .alt bol es r, lo, hi, i => ∃ n, nodes[i]? = some n ∧ n.type = .or ∧ n.next = -1 ∧ lo < i ∧ i < hi ∧
      ∃ k1 k2 : Nat, n.left = k1 ∧ n.right = k2 ∧ RepBranch nodes (RepElems nodes es) bol lo i k1 ∧
        RepRe nodes r (i + 1) hi k2
end

/-! ### framing -/

theorem RepItems.frame {nodes nodes' : List RNode} {lo hi lo' hi' : Nat} (h1 : lo' ≤ lo) (h2 : hi ≤ hi')
    (hk : ∀ k, lo ≤ k → k < hi → nodes'[k]? = nodes[k]?) :
    ∀ {xs : List SetItem} {v : Int}, RepItems nodes lo hi xs v → RepItems nodes' lo' hi' xs v := by
  intro xs
  induction xs with
  | nil => intro v h; exact h
  | cons x xs ih =>
    rintro v ⟨k, n, rfl, a, b, c, d, e⟩
    exact ⟨k, n, rfl, by omega, by omega, (hk k a b).trans c, d, ih e⟩

theorem RepQ.frame {nodes nodes' : List RNode} {A A' : Nat → Nat → Nat → Int → Prop} {q : Quant} {lo hi i : Nat} {nx : Int}
    (hk : ∀ k, lo ≤ k → k < hi → nodes'[k]? = nodes[k]?)
    (hA : ∀ hi', hi' ≤ hi → ∀ i nx, A lo hi' i nx → A' lo hi' i nx)
    (h : RepQ nodes A q lo hi i nx) : RepQ nodes' A' q lo hi i nx := by
  unfold RepQ at h ⊢
  split
  · rename_i hq; rw [if_pos hq] at h; exact hA _ (Nat.le_refl _) _ _ h
  · rename_i hq; rw [if_neg hq] at h
    obtain ⟨a, b, n, c, d, e, f, k, g, j⟩ := h
    exact ⟨a, b, n, (hk i (by omega) (by omega)).trans c, d, e, f, k, g, hA _ (by omega) _ _ j⟩

theorem RepBranch.frame {nodes nodes' : List RNode} {A A' : Nat → Nat → Nat → Prop} {bol : Bool} {lo hi i : Nat}
    (hk : ∀ k, lo ≤ k → k < hi → nodes'[k]? = nodes[k]?)
    (hA : ∀ lo', lo ≤ lo' → ∀ i, A lo' hi i → A' lo' hi i)
    (h : RepBranch nodes A bol lo hi i) : RepBranch nodes' A' bol lo hi i := by
  unfold RepBranch at h ⊢
  split
  · rename_i hq; rw [if_pos hq] at h
    obtain ⟨a, b, n, c, d, k, e, f⟩ := h
    exact ⟨a, b, n, (hk i (by omega) (by omega)).trans c, d, k, e, hA _ (by omega) _ f⟩
  · rename_i hq; rw [if_neg hq] at h
    exact hA _ (Nat.le_refl _) _ h

mutual
theorem RepAtom.frame {nodes nodes' : List RNode} : ∀ (a : Atom) {lo hi i : Nat} {nx : Int},
    (∀ k, lo ≤ k → k < hi → nodes'[k]? = nodes[k]?) → RepAtom nodes a lo hi i nx → RepAtom nodes' a lo hi i nx
  | .chr l, lo, hi, i, nx, hk, h => by
    unfold RepAtom at h ⊢
    obtain ⟨a, b, n, c, d⟩ := h
    exact ⟨a, b, n, (hk i (by omega) b).trans c, d⟩
  | .cls l, lo, hi, i, nx, hk, h => by
    unfold RepAtom at h ⊢
    obtain ⟨a, b, n, c, d⟩ := h
    exact ⟨a, b, n, (hk i (by omega) b).trans c, d⟩
  | .any, lo, hi, i, nx, hk, h => by
    unfold RepAtom at h ⊢
    obtain ⟨a, b, n, c, d⟩ := h
    exact ⟨a, b, n, (hk i (by omega) b).trans c, d⟩
  | .edge neg, lo, hi, i, nx, hk, h => by
    unfold RepAtom at h ⊢
    obtain ⟨a, b, n, c, d⟩ := h
    exact ⟨a, b, n, (hk i (by omega) b).trans c, d⟩
  | .eol, lo, hi, i, nx, hk, h => by
    unfold RepAtom at h ⊢
    obtain ⟨a, b, n, c, d⟩ := h
    exact ⟨a, b, n, (hk i (by omega) b).trans c, d⟩
  | .set neg first items, lo, hi, i, nx, hk, h => by
    unfold RepAtom at h ⊢
    obtain ⟨a, b, n, c, d, e, f⟩ := h
    exact ⟨a, b, n, (hk i (by omega) b).trans c, d, e,
      f.frame (Nat.le_refl _) (Nat.le_refl _) fun k h1 h2 => hk k (by omega) h2⟩
  | .group capture r, lo, hi, i, nx, hk, h => by
    unfold RepAtom at h ⊢
    obtain ⟨a, b, n, c, d, e, k, f, g⟩ := h
    exact ⟨a, b, n, (hk i (by omega) b).trans c, d, e, k, f,
      RepRe.frame r (fun k h1 h2 => hk k (by omega) h2) g⟩
theorem RepElems.frame {nodes nodes' : List RNode} : ∀ (es : Elems) {lo hi i : Nat},
    (∀ k, lo ≤ k → k < hi → nodes'[k]? = nodes[k]?) → RepElems nodes es lo hi i → RepElems nodes' es lo hi i
  | .last a q, lo, hi, i, hk, h => by
    unfold RepElems at h ⊢
    exact h.frame hk fun hi' h' i nx x => RepAtom.frame a (fun k h1 h2 => hk k h1 (by omega)) x
  | .more a q es, lo, hi, i, hk, h => by
    unfold RepElems at h ⊢
    obtain ⟨m, k, h1, h2, h3, h4⟩ := h
    exact ⟨m, k, h1, h2, h3.frame (fun k h1 h2 => hk k h1 (by omega))
      fun hi' h' i nx x => RepAtom.frame a (fun k h1 h2 => hk k h1 (by omega)) x,
      RepElems.frame es (fun k h1 h2 => hk k (by omega) h2) h4⟩
theorem RepRe.frame {nodes nodes' : List RNode} : ∀ (r : Re) {lo hi i : Nat},
    (∀ k, lo ≤ k → k < hi → nodes'[k]? = nodes[k]?) → RepRe nodes r lo hi i → RepRe nodes' r lo hi i
  | .branch bol es, lo, hi, i, hk, h => by
    unfold RepRe at h ⊢
    exact h.frame hk fun lo' h' i x => RepElems.frame es (fun k h1 h2 => hk k (by omega) h2) x
  | .alt bol es r, lo, hi, i, hk, h => by
    unfold RepRe at h ⊢
    obtain ⟨n, a, b, c, d, e, k1, k2, f, g, j, l⟩ := h
    exact ⟨n, (hk i (by omega) e).trans a, b, c, d, e, k1, k2, f, g,
      j.frame (fun k h1 h2 => hk k h1 (by omega))
        fun lo' h' i x => RepElems.frame es (fun k h1 h2 => hk k (by omega) (by omega)) x,
      RepRe.frame r (fun k h1 h2 => hk k (by omega) h2) l⟩
end

theorem RepAtom.bounds {nodes : List RNode} {a : Atom} {lo hi i : Nat} {nx : Int} (h : RepAtom nodes a lo hi i nx) :
    lo ≤ i ∧ i < hi := by
  cases a <;> unfold RepAtom at h <;> exact ⟨by omega, h.2.1⟩

theorem RepQ.bounds {nodes : List RNode} {a : Atom} {q : Quant} {lo hi i : Nat} {nx : Int}
    (h : RepQ nodes (RepAtom nodes a) q lo hi i nx) : lo ≤ i ∧ i < hi := by
  unfold RepQ at h
  split at h
  · exact h.bounds
  · omega

theorem RepElems.bounds {nodes : List RNode} : ∀ {es : Elems} {lo hi i : Nat}, RepElems nodes es lo hi i →
    lo ≤ i ∧ i < hi := by
  intro es lo hi i h
  cases es with
  | last a q => unfold RepElems at h; exact RepQ.bounds h
  | more a q es =>
    unfold RepElems at h
    obtain ⟨m, k, h1, h2, h3, h4⟩ := h
    have := RepQ.bounds h3
    omega

theorem RepBranch.bounds {nodes : List RNode} {es : Elems} {bol : Bool} {lo hi i : Nat}
    (h : RepBranch nodes (RepElems nodes es) bol lo hi i) : lo ≤ i ∧ i < hi := by
  unfold RepBranch at h
  split at h
  · omega
  · exact h.bounds

theorem RepRe.bounds {nodes : List RNode} {r : Re} {lo hi i : Nat} (h : RepRe nodes r lo hi i) : lo ≤ i ∧ i < hi := by
  cases r with
  | branch bol es => unfold RepRe at h; exact h.bounds
  | alt bol es r => unfold RepRe at h; obtain ⟨n, a, b, c, d, e, f⟩ := h; omega

/-- Changing the link of the root. -/
theorem RepAtom.setNext {nodes nodes' : List RNode} {a : Atom} {lo hi i : Nat} {nx v : Int}
    (h : RepAtom nodes a lo hi i nx) (hk : ∀ k, lo ≤ k → k < hi → k ≠ i → nodes'[k]? = nodes[k]?)
    (hi' : ∀ n, nodes[i]? = some n → nodes'[i]? = some { n with next := v }) : RepAtom nodes' a lo hi i v := by
  cases a with
  | chr l => unfold RepAtom at h ⊢; obtain ⟨a, b, n, c, d, e⟩ := h; exact ⟨a, b, _, hi' n c, rfl, e⟩
  | cls l => unfold RepAtom at h ⊢; obtain ⟨a, b, n, c, d, e⟩ := h; exact ⟨a, b, _, hi' n c, rfl, e⟩
  | any => unfold RepAtom at h ⊢; obtain ⟨a, b, n, c, d, e⟩ := h; exact ⟨a, b, _, hi' n c, rfl, e⟩
  | eol => unfold RepAtom at h ⊢; obtain ⟨a, b, n, c, d, e⟩ := h; exact ⟨a, b, _, hi' n c, rfl, e⟩
  | edge neg => unfold RepAtom at h ⊢; obtain ⟨a, b, n, c, d, e⟩ := h; exact ⟨a, b, _, hi' n c, rfl, e⟩
  | set neg first items =>
    unfold RepAtom at h ⊢
    obtain ⟨a, b, n, c, d, e, f⟩ := h
    exact ⟨a, b, _, hi' n c, rfl, e, f.frame (Nat.le_refl _) (Nat.le_refl _)
      fun k h1 h2 => hk k (by omega) h2 (by omega)⟩
  | group capture r =>
    unfold RepAtom at h ⊢
    obtain ⟨a, b, n, c, d, e, k, f, g⟩ := h
    exact ⟨a, b, _, hi' n c, rfl, e, k, f, RepRe.frame r (fun k h1 h2 => hk k (by omega) h2 (by omega)) g⟩

theorem RepQ.setNext {nodes nodes' : List RNode} {a : Atom} {q : Quant} {lo hi i : Nat} {nx v : Int}
    (h : RepQ nodes (RepAtom nodes a) q lo hi i nx) (hk : ∀ k, lo ≤ k → k < hi → k ≠ i → nodes'[k]? = nodes[k]?)
    (hi' : ∀ n, nodes[i]? = some n → nodes'[i]? = some { n with next := v }) :
    RepQ nodes' (RepAtom nodes' a) q lo hi i v := by
  unfold RepQ at h ⊢
  split
  · rename_i hq; rw [if_pos hq] at h; exact RepAtom.setNext h hk hi'
  · rename_i hq; rw [if_neg hq] at h
    obtain ⟨a', b, n, c, d, e, f, k, g, j⟩ := h
    exact ⟨a', b, _, hi' n c, rfl, e, f, k, g, RepAtom.frame a (fun k h1 h2 => hk k h1 (by omega) (by omega)) j⟩

/-! ### single characters -/

/-- What the compiler functions keep: the nodes that existed before, and the balance of nodes and
characters. -/
structure Ext (s s' : RState) : Prop where
  inv : RInv s'
  pre : ∀ k, k < s.nodes.length → s'.nodes[k]? = s.nodes[k]?
  len : s.nodes.length ≤ s'.nodes.length
  bal : s'.nodes.length + s'.p.length ≤ s.nodes.length + s.p.length

theorem Ext.trans {s s1 s2 : RState} (h1 : Ext s s1) (h2 : Ext s1 s2) : Ext s s2 :=
  ⟨h2.inv, fun k hk => (h2.pre k (by have := h1.len; omega)).trans (h1.pre k hk),
    Nat.le_trans h1.len h2.len, Nat.le_trans h2.bal h1.bal⟩

theorem Ext.skip {s : RState} (h : RInv s) {p : CStr} (hp : p.length ≤ s.p.length) : Ext s { s with p := p } :=
  ⟨⟨h.len, h.pos⟩, fun _ _ => rfl, Nat.le_refl _, by simp; exact hp⟩

theorem newnode_made (ty : RType) {s : RState} (h : RInv s) {p : CStr} (hp : p.length + 1 ≤ s.p.length) :
    ∃ s', newnode ty { s with p := p } = .ok (s.nodes.length, s') ∧ Ext s s' ∧ s'.p = p ∧
      s'.nodes = s.nodes ++ [{ type := ty, right := if ty = .expr then (s.nsub : Int) else -1 }] := by
  obtain ⟨s', e, i, hp', hn⟩ := newnode_eq ty (s := { s with p := p }) ⟨h.len, h.pos⟩
  dsimp only at e hp' hn
  refine ⟨s', e, ⟨i, fun k hk => ?_, ?_, ?_⟩, hp', hn⟩
  · rw [hn]; exact List.getElem?_append_left hk
  · rw [hn]; simp
  · rw [hn, hp']; simp; omega

theorem escapeOf_ctl {l : Char} (h : l ∈ cs "vntrf") : escapeOf l = some (ctlChar l) := by
  have : ∀ l ∈ cs "vntrf", escapeOf l = some (ctlChar l) := by decide
  exact this l h

theorem escapeOf_none {c : Char} (h : c ∉ cs "vntrf") : escapeOf c = none := by
  unfold escapeOf
  rw [if_neg, if_neg, if_neg, if_neg, if_neg] <;> rintro rfl <;> exact absurd (by decide) h

/-- A character of the pattern, outside or inside a class. -/
def LitOk (isclass : Bool) (l : Lit) : Prop := if isclass then l.SetOk else l.Ok

theorem isPrint_of {c : Char} (h1 : 32 ≤ c.toNat) (h2 : c.toNat ≤ 126) : isPrint c = true := by
  unfold isPrint
  rw [Bool.and_eq_true, decide_eq_true_iff, decide_eq_true_iff]
  exact ⟨h1, h2⟩

theorem LitOk.plain {isclass : Bool} {c : Char} (h : LitOk isclass (.plain c)) :
    32 ≤ c.toNat ∧ c.toNat ≤ 126 ∧ c ≠ '\\' := by
  unfold LitOk at h
  split at h
  · exact ⟨h.1, h.2.1, by rintro rfl; exact h.2.2 (by decide)⟩
  · exact ⟨h.1, h.2.1, by rintro rfl; exact h.2.2 (by decide)⟩

theorem LitOk.quoted {isclass : Bool} {c : Char} (h : LitOk isclass (.quoted c)) :
    0 < c.toNat ∧ c ∉ classLetters ∧ c ∉ cs "vntrf" ∧ ¬ ((c = 'b' ∨ c = 'B') ∧ ¬ isclass = true) := by
  unfold LitOk at h
  split at h
  · rename_i hc
    exact ⟨h.1, h.2.1, h.2.2, fun h => h.2 hc⟩
  · refine ⟨h.1, h.2.1, fun h' => h.2.2 ?_, ?_⟩
    · have : ∀ c ∈ cs "vntrf", c ∈ cs "bBvntrf" := by decide
      exact this c h'
    · rintro ⟨(rfl | rfl), -⟩ <;> exact h.2.2 (by decide)

theorem LitOk.ctl {isclass : Bool} {c : Char} (h : LitOk isclass (.ctl c)) : c ∈ cs "vntrf" := by
  unfold LitOk at h
  split at h <;> exact h

theorem isClassLetter_iff {c : Char} : isClassLetter c = true ↔ c ∈ classLetters := by
  unfold isClassLetter classLetters
  rw [decide_eq_true_iff]

theorem charnode_lit {isclass : Bool} {l : Lit} (hl : LitOk isclass l) {s : RState} {p : CStr}
    (hp : s.p = l.text ++ p) : charnode isclass s = newnode (.char l.char) { s with p := p } := by
  unfold charnode
  rw [hp]
  cases l with
  | plain c =>
    obtain ⟨h1, h2, h3⟩ := hl.plain
    dsimp only [Lit.text, List.singleton_append, Lit.char]
    split
    · rename_i h; cases h
    · rename_i h; cases h; exact absurd rfl h3
    · rename_i h; cases h; exact absurd rfl h3
    · rename_i h; cases h; rw [if_pos (isPrint_of h1 h2)]
  | quoted c =>
    obtain ⟨h1, h3, h4, h5⟩ := hl.quoted
    show (match escapeOf c with | some e => _ | none => _) = _
    rw [escapeOf_none h4]
    dsimp only
    rw [if_neg (by rw [isClassLetter_iff]; exact h3), if_neg h5]
    rfl
  | ctl c =>
    show (match escapeOf c with | some e => _ | none => _) = _
    rw [escapeOf_ctl hl.ctl]
    rfl

theorem escapechar_lit {l : Lit} (hl : l.EndOk) {s : RState} {p : CStr}
    (hp : s.p = l.text ++ p) : escapechar s = .ok (l.char, { s with p := p }) := by
  unfold escapechar
  rw [hp]
  cases l with
  | plain c =>
    obtain ⟨h1, h2, h3⟩ := hl
    dsimp only [Lit.text, List.singleton_append, Lit.char]
    split
    · rename_i h; cases h
    · rename_i h; cases h; exact absurd rfl h3
    · rename_i h; cases h; exact absurd rfl h3
    · rename_i h; cases h; rw [if_pos (isPrint_of h1 h2)]
  | quoted c =>
    obtain ⟨h1, h4⟩ := hl
    show Except.ok ((escapeOf c).getD c, _) = _
    rw [escapeOf_none h4]
    rfl
  | ctl c =>
    show Except.ok ((escapeOf c).getD c, _) = _
    rw [escapeOf_ctl hl]
    rfl

theorem charnode_cls {isclass : Bool} {l : Char} (hl : l ∈ classLetters) {s : RState} (hs : RInv s) {p : CStr}
    (hp : s.p = '\\' :: l :: p) :
    ∃ s', charnode isclass s = .ok (s.nodes.length, s') ∧ Ext s s' ∧ s'.p = p ∧
      s'.nodes = s.nodes ++ [{ type := .ccls, left := charInt l }] := by
  have he : escapeOf l = none := by
    have : ∀ l ∈ classLetters, escapeOf l = none := by decide
    exact this l hl
  obtain ⟨s1, e1, x1, p1, n1⟩ := newnode_made .ccls hs (p := p) (by rw [hp]; simp)
  rw [if_neg (by simp)] at n1
  have hc : charnode isclass s = rexCharclass l { s with p := p } := by
    unfold charnode
    rw [hp]
    show (match escapeOf l with | some e => _ | none => _) = _
    rw [he]
    dsimp only
    rw [if_pos (by rw [isClassLetter_iff]; exact hl)]
  have hn : (s1.setLeft s.nodes.length (charInt l)).nodes = s.nodes ++ [{ type := .ccls, left := charInt l }] := by
    unfold RState.setLeft
    dsimp only
    rw [n1]
    apply List.ext_getElem?
    intro k
    rw [List.getElem?_modify]
    by_cases hk : k < s.nodes.length
    · rw [List.getElem?_append_left hk, List.getElem?_append_left hk, List.getElem?_eq_getElem hk]
      simp only [Option.map_eq_map, Option.map_some]
      rw [if_neg (by omega)]
    · obtain ⟨j, rfl⟩ : ∃ j, k = s.nodes.length + j := ⟨k - s.nodes.length, by omega⟩
      rw [List.getElem?_append_right (by omega), List.getElem?_append_right (by omega), Nat.add_sub_cancel_left]
      cases j <;> simp
  refine ⟨s1.setLeft s.nodes.length (charInt l), ?_, ⟨⟨?_, x1.inv.pos⟩, ?_, ?_, ?_⟩, p1, hn⟩
  · rw [hc, rexCharclass, e1, rbind_ok]
  · have := x1.inv.len
    simpa [RState.setLeft] using this
  · intro k hk; rw [hn]; exact List.getElem?_append_left hk
  · rw [hn]; simp
  · have : (s1.setLeft s.nodes.length (charInt l)).p = p := p1
    rw [hn, this, hp]; simp; omega

/-! ### classes -/

/-- Linking the pending node after the loop. -/
def classFin (r : Option Nat × Nat × RState) : RState :=
  match r.1 with
  | some f => r.2.2.setNext r.2.1 f
  | none => r.2.2

/-- The items `xs` have been chained to node `c`. -/
structure ClassDone (s : RState) (c : Nat) (nc : RNode) (xs : List SetItem) (rest : CStr) (s' : RState) : Prop where
  inv : RInv s'
  len : s.nodes.length ≤ s'.nodes.length
  bal : s'.nodes.length + s'.p.length ≤ s.nodes.length + s.p.length
  p : s'.p = ']' :: rest
  pre : ∀ k, k < s.nodes.length → k ≠ c → s'.nodes[k]? = s.nodes[k]?
  link : ∃ v, s'.nodes[c]? = some { nc with next := v } ∧ RepItems s'.nodes s.nodes.length s'.nodes.length xs v
  cnt : s'.nodes.length = s.nodes.length + sizeItems xs
  placed : PlacedItems s.nodes.length xs

theorem ClassDone.cons {s s2 s' : RState} {c n : Nat} {nc nn : RNode} {x : SetItem} {xs : List SetItem} {rest : CStr}
    (h : ClassDone s2 n nn xs rest s') (hpre : ∀ k, k < s.nodes.length → k ≠ c → s2.nodes[k]? = s.nodes[k]?)
    (hcl : c < s.nodes.length)
    (hc : s2.nodes[c]? = some { nc with next := (n : Int) }) (hn : s2.nodes[n]? = some nn) (hx : ItemNode x nn)
    (hlo : s.nodes.length ≤ n) (hbal : s2.nodes.length + s2.p.length ≤ s.nodes.length + s.p.length)
    (hsz : s2.nodes.length = s.nodes.length + x.size) (hpl : ∀ a b, x = .range a b → s.nodes.length ≤ b.head) :
    ClassDone s c nc (x :: xs) rest s' := by
  have hn2 := lt_of_getElem? hn
  obtain ⟨v, h1, h2⟩ := h.link
  refine ⟨h.inv, by have := h.len; omega, by have := h.bal; omega, h.p, fun k hk hkc => ?_, ⟨n, ?_, ?_⟩,
    by rw [h.cnt, hsz, sizeItems]; omega, hpl, by rw [← hsz]; exact h.placed⟩
  · rw [h.pre k (by omega) (by omega)]; exact hpre k hk hkc
  · rw [h.pre c (by omega) (by omega)]; exact hc
  · refine ⟨n, _, rfl, hlo, by have := h.len; omega, h1, ?_, ?_⟩
    · cases x <;> exact hx
    · exact h2.frame (by omega) (Nat.le_refl _) fun _ _ _ => rfl

theorem SetItem.head {x : SetItem} (h : x.Ok) : ∃ d t, x.text = d :: t ∧ d ≠ ']' := by
  have hlit : ∀ l : Lit, l.SetOk → ∃ d t, l.text = d :: t ∧ d ≠ ']' := by
    intro l hl
    cases l with
    | plain c => exact ⟨c, [], rfl, by rintro rfl; exact hl.2.2 (by decide)⟩
    | quoted c => exact ⟨_, _, rfl, by decide⟩
    | ctl c => exact ⟨_, _, rfl, by decide⟩
  cases x with
  | one l => exact hlit l h
  | cls l => exact ⟨_, _, rfl, by decide⟩
  | range a b =>
    obtain ⟨d, t, h1, h2⟩ := hlit a h.1
    exact ⟨d, t ++ '-' :: b.text, by rw [SetItem.text, h1]; rfl, h2⟩

theorem classLoop_none {fuel c : Nat} {s : RState} {d : Char} {t : CStr} (hp : s.p = d :: t) (h1 : d ≠ ']') :
    classLoop (fuel + 1) none c s = (do
      let (n, s) ← charnode true s
      classLoop fuel (some n) c s) := by
  rw [classLoop.eq_def]
  dsimp only
  split
  · rename_i h; rw [hp] at h; cases h; exact absurd rfl h1
  · rfl

theorem classLoop_some {fuel c f : Nat} {s : RState} {d : Char} {t : CStr} (hp : s.p = d :: t) (h1 : d ≠ ']')
    (h2 : d ≠ '-') :
    classLoop (fuel + 1) (some f) c s = classLoop (fuel + 1) none f (s.setNext c f) := by
  rw [classLoop_none (s := s.setNext c f) hp h1]
  rw [classLoop.eq_def]
  dsimp only
  split
  · rename_i h; rw [hp] at h; cases h; exact absurd rfl h1
  · split
    · rename_i h; rw [hp] at h; cases h; exact absurd rfl h2
    · rename_i h _; cases h; rfl
    · exact absurd ‹some f = none› (by simp)

theorem classLoop_end {fuel c : Nat} {first : Option Nat} {s : RState} {t : CStr} (hp : s.p = ']' :: t) :
    classLoop (fuel + 1) first c s = .ok (first, c, s) := by
  rw [classLoop.eq_def]
  dsimp only
  split
  · rfl
  · rename_i h; exact absurd hp (h _)

theorem classLoop_dash {fuel c f : Nat} {s : RState} {p : CStr} (hp : s.p = '-' :: p) :
    classLoop (fuel + 1) (some f) c s = (do
      let (r, s) ← newnode .range { s with p := p }
      let here : Int := match s.p with
        | [] => 0
        | c :: _ => charInt c
      if (f : Int) > here then .error (.bad "invalid range")
      else
        match s.nodes[f]? with
        | none => .error (.fault (.ub "node index out of range"))
        | some fn =>
          if fn.type = .ccls then .error (.bad "cannot use character classes in ranges")
          else do
            let s := s.setLeft r fn.type.code
            let (t, s) ← escapechar s
            let s := s.setRight r (charInt t)
            classLoop fuel none r (s.setNext c r)) := by
  rw [classLoop.eq_def]
  dsimp only
  split
  · rename_i h; rw [hp] at h; cases h
  · split
    · rename_i h1 h2; rw [hp] at h2; cases h2; cases h1; rfl
    · rename_i h1 h2; exact absurd (h2 _ hp) id
    · exact absurd ‹some f = none› (by simp)

theorem RInv.setNext {s : RState} (h : RInv s) (i : Nat) (v : Int) : RInv (s.setNext i v) :=
  ⟨by simpa [RState.setNext] using h.len, h.pos⟩
theorem RInv.setLeft {s : RState} (h : RInv s) (i : Nat) (v : Int) : RInv (s.setLeft i v) :=
  ⟨by simpa [RState.setLeft] using h.len, h.pos⟩
theorem RInv.setRight {s : RState} (h : RInv s) (i : Nat) (v : Int) : RInv (s.setRight i v) :=
  ⟨by simpa [RState.setRight] using h.len, h.pos⟩

theorem setNext_len (s : RState) (i : Nat) (v : Int) : (s.setNext i v).nodes.length = s.nodes.length := by
  simp [RState.setNext]
theorem setLeft_len (s : RState) (i : Nat) (v : Int) : (s.setLeft i v).nodes.length = s.nodes.length := by
  simp [RState.setLeft]
theorem setRight_len (s : RState) (i : Nat) (v : Int) : (s.setRight i v).nodes.length = s.nodes.length := by
  simp [RState.setRight]

theorem Spec.Separate.tail {x : SetItem} {xs : List SetItem} (h : Separate (x :: xs)) : Separate xs := by
  cases xs with
  | nil => trivial
  | cons y ys => exact h.2

theorem classLoop_rep {E : Prop} {rest : CStr} : ∀ (xs : List SetItem) (fuel c : Nat) (s : RState) (nc : RNode),
    (∀ x ∈ xs, x.Ok) → Separate xs → (E ∨ PlacedItems s.nodes.length xs) →
    s.p = xs.flatMap SetItem.text ++ ']' :: rest → s.p.length ≤ fuel → RInv s → s.nodes[c]? = some nc →
    nc.next = -1 →
    CPost E (fun r => ClassDone s c nc xs rest (classFin r)) (classLoop fuel none c s) := by
  intro xs
  induction xs with
  | nil =>
    intro fuel c s nc _ _ _ hp hf hinv hc hnx
    obtain ⟨f, rfl⟩ : ∃ f, fuel = f + 1 := ⟨fuel - 1, by rw [hp] at hf; simp at hf; omega⟩
    rw [List.flatMap_nil, List.nil_append] at hp
    rw [classLoop_end hp]
    refine ⟨hinv, Nat.le_refl _, Nat.le_refl _, hp, fun _ _ _ => rfl, ⟨-1, ?_, rfl⟩, rfl, trivial⟩
    show s.nodes[c]? = _
    rw [hc, ← hnx]
  | cons x xs ih =>
    intro fuel c s nc hok hsep hE hp hf hinv hc hnx
    have hcl := lt_of_getElem? hc
    have hx := hok x (by simp)
    have hxs : ∀ y ∈ xs, y.Ok := fun y hy => hok y (by simp [hy])
    have hE' : ∀ k, k = s.nodes.length + x.size → E ∨ PlacedItems k xs := by
      rintro k rfl
      exact hE.imp_right fun h => h.2
    rw [List.flatMap_cons, List.append_assoc] at hp
    obtain ⟨d, t, ht, hd1⟩ := SetItem.head hx
    obtain ⟨f, rfl⟩ : ∃ f, fuel = f + 1 := ⟨fuel - 1, by rw [hp, ht] at hf; simp at hf; omega⟩
    rw [classLoop_none (d := d) (t := t ++ (xs.flatMap SetItem.text ++ ']' :: rest)) (by rw [hp, ht]; rfl) hd1]
    -- a single node
    have single : ∀ (nn : RNode) (s1 : RState), charnode true s = .ok (s.nodes.length, s1) → Ext s s1 →
        s1.p = xs.flatMap SetItem.text ++ ']' :: rest → s1.nodes = s.nodes ++ [nn] → nn.next = -1 → ItemNode x nn →
        s1.p.length ≤ f → (¬ ∃ a b, x = .range a b) → x.size = 1 →
        CPost E (fun r => ClassDone s c nc (x :: xs) rest (classFin r)) (do
          let (n, s) ← charnode true s
          classLoop f (some n) c s) := by
      intro nn s1 e1 x1 p1 n1 hnn hin hf1 hnr hsz
      rw [e1, rbind_ok]
      dsimp only
      obtain ⟨f', rfl⟩ : ∃ f', f = f' + 1 := ⟨f - 1, by rw [p1] at hf1; simp at hf1; omega⟩
      have hl1 : s1.nodes.length = s.nodes.length + 1 := by rw [n1]; simp
      have hnode : s1.nodes[s.nodes.length]? = some nn := by rw [n1]; simp
      have hc1 : s1.nodes[c]? = some nc := by rw [x1.pre c hcl]; exact hc
      have hc2 : (s1.setNext c s.nodes.length).nodes[c]? = some { nc with next := (s.nodes.length : Int) } :=
        setNext_self hc1 _
      have hn2 : (s1.setNext c s.nodes.length).nodes[s.nodes.length]? = some nn := by
        rw [setNext_ne (by omega)]; exact hnode
      have hpre : ∀ k, k < s.nodes.length → k ≠ c → (s1.setNext c s.nodes.length).nodes[k]? = s.nodes[k]? := by
        intro k hk hkc
        rw [setNext_ne (fun h => hkc h.symm)]; exact x1.pre k hk
      have hbal : (s1.setNext c s.nodes.length).nodes.length + (s1.setNext c s.nodes.length).p.length ≤
          s.nodes.length + s.p.length := by
        rw [setNext_len]; exact x1.bal
      cases hxs2 : xs with
      | nil =>
        rw [hxs2, List.flatMap_nil, List.nil_append] at p1
        rw [classLoop_end p1]
        refine ClassDone.cons (s2 := s1.setNext c s.nodes.length) (n := s.nodes.length) (nn := nn) ?_ hpre hcl hc2 hn2 hin
          (Nat.le_refl _) hbal (by rw [setNext_len, hl1, hsz]) (fun a b h => absurd ⟨a, b, h⟩ hnr)
        exact ⟨x1.inv.setNext _ _, Nat.le_refl _, Nat.le_refl _, p1, fun _ _ _ => rfl,
          ⟨-1, by show (s1.setNext c s.nodes.length).nodes[s.nodes.length]? = _; rw [hn2, ← hnn], rfl⟩, rfl, trivial⟩
      | cons y ys =>
        obtain ⟨d', t', ht', hd1'⟩ := SetItem.head (hxs y (by rw [hxs2]; simp))
        have hd2' : d' ≠ '-' := by
          rw [hxs2] at hsep
          rcases hsep.1 with h | h
          · exact absurd h hnr
          · rintro rfl; exact h (by rw [ht']; rfl)
        rw [classLoop_some (d := d') (t := t' ++ (ys.flatMap SetItem.text ++ ']' :: rest))
          (by rw [p1, hxs2, List.flatMap_cons, ht']; simp) hd1' hd2', ← hxs2]
        refine (ih (f' + 1) s.nodes.length (s1.setNext c s.nodes.length) nn hxs hsep.tail
          (hE' _ (by rw [setNext_len, hl1, hsz])) p1 hf1 (x1.inv.setNext _ _) hn2 hnn).mono fun r hr => ?_
        exact ClassDone.cons hr hpre hcl hc2 hn2 hin (Nat.le_refl _) hbal (by rw [setNext_len, hl1, hsz])
          (fun a b h => absurd ⟨a, b, h⟩ hnr)
    cases x with
    | one l =>
      have hl : LitOk true l := hx
      obtain ⟨s1, e1, x1, p1, n1⟩ := newnode_made (.char l.char) hinv (p := xs.flatMap SetItem.text ++ ']' :: rest)
        (by rw [hp, ht]; simp)
      rw [if_neg (by simp)] at n1
      refine single _ s1 (by rw [charnode_lit hl hp]; exact e1) x1 p1 n1 rfl rfl ?_ ?_ rfl
      · have := x1.bal
        rw [n1] at this; simp at this; omega
      · rintro ⟨a, b, h⟩; cases h
    | cls l =>
      obtain ⟨s1, e1, x1, p1, n1⟩ := charnode_cls (isclass := true) hx hinv hp
      refine single _ s1 e1 x1 p1 n1 rfl ⟨rfl, rfl⟩ ?_ ?_ rfl
      · have := x1.bal
        rw [n1] at this; simp at this; omega
      · rintro ⟨a, b, h⟩; cases h
    | range a b =>
      obtain ⟨ha, hb⟩ := hx
      have hp' : s.p = a.text ++ ('-' :: (b.text ++ (xs.flatMap SetItem.text ++ ']' :: rest))) := by
        rw [hp]; simp [SetItem.text]
      obtain ⟨s1, e1, x1, p1, n1⟩ := newnode_made (.char a.char) hinv
        (p := '-' :: (b.text ++ (xs.flatMap SetItem.text ++ ']' :: rest)))
        (by rw [hp']; cases a <;> simp [Lit.text])
      rw [if_neg (by simp)] at n1
      rw [charnode_lit (isclass := true) ha hp', e1, rbind_ok]
      dsimp only
      have hb1 := x1.bal
      have hl1 : s1.nodes.length = s.nodes.length + 1 := by rw [n1]; simp
      obtain ⟨f', rfl⟩ : ∃ f', f = f' + 1 := ⟨f - 1, by rw [p1] at hb1; simp at hb1; omega⟩
      obtain ⟨s2, e2, x2, p2, n2⟩ := newnode_made .range x1.inv (p := b.text ++ (xs.flatMap SetItem.text ++ ']' :: rest))
        (by rw [p1]; simp)
      rw [if_neg (by simp)] at n2
      have hl2 : s2.nodes.length = s.nodes.length + 2 := by rw [n2]; simp; omega
      rw [classLoop_dash p1, e2, rbind_ok]
      dsimp only
      have hb2 := x2.bal
      obtain ⟨db, tb, htb, hdb⟩ : ∃ d t, b.text = d :: t ∧ charInt d = b.head := by
        cases b with
        | plain c =>
          refine ⟨c, [], rfl, ?_⟩
          unfold charInt
          rw [if_pos (by have := hb.2.1; omega)]
          rfl
        | quoted c => exact ⟨_, _, rfl, rfl⟩
        | ctl c => exact ⟨_, _, rfl, rfl⟩
      have htail : 2 ≤ s2.p.length := by rw [p2, htb]; simp; omega
      rw [p2, htb]
      dsimp only [List.cons_append]
      by_cases hbad : ((s.nodes.length : Nat) : Int) > charInt db
      · rw [if_pos hbad]
        rcases hE with h | h
        · exact h
        · have : s.nodes.length ≤ b.head := h.1 a b rfl
          omega
      · rw [if_neg hbad]
        have hf2 : s2.nodes[s.nodes.length]? = some { type := .char a.char } := by
          rw [x2.pre _ (by omega), n1]; simp
        rw [hf2]
        dsimp only
        rw [if_neg (by simp)]
        have hp3 : (s2.setLeft s1.nodes.length (RType.code (.char a.char))).p =
            b.text ++ (xs.flatMap SetItem.text ++ ']' :: rest) := p2
        rw [escapechar_lit hb hp3, rbind_ok]
        dsimp only
        rw [hl1]
        have hr2 : s2.nodes[s.nodes.length + 1]? = some { type := .range } := by
          rw [n2, ← hl1]; simp
        set s5 : RState := (RState.setRight { s2.setLeft (s.nodes.length + 1) (RType.code (.char a.char)) with
          p := xs.flatMap SetItem.text ++ ']' :: rest } (s.nodes.length + 1) (charInt b.char)).setNext c
            ((s.nodes.length + 1 : Nat) : Int) with hs5
        have hl5 : s5.nodes.length = s.nodes.length + 2 := by
          rw [hs5, setNext_len, setRight_len]; dsimp only; rw [setLeft_len, hl2]
        have hp5 : s5.p = xs.flatMap SetItem.text ++ ']' :: rest := rfl
        have hr5 : s5.nodes[s.nodes.length + 1]? =
            some { type := .range, left := charInt a.char, right := charInt b.char } := by
          rw [hs5, setNext_ne (by omega)]
          exact setRight_self (s := { s2.setLeft (s.nodes.length + 1) (RType.code (.char a.char)) with
            p := xs.flatMap SetItem.text ++ ']' :: rest }) (setLeft_self hr2 _) _
        have hpre5 : ∀ k, k < s.nodes.length → k ≠ c → s5.nodes[k]? = s.nodes[k]? := by
          intro k hk hkc
          rw [hs5, setNext_ne (fun h => hkc h.symm), setRight_ne (by omega)]
          show (s2.setLeft _ _).nodes[k]? = _
          rw [setLeft_ne (by omega), x2.pre k (by omega), x1.pre k hk]
        have hc5 : s5.nodes[c]? = some { nc with next := ((s.nodes.length + 1 : Nat) : Int) } := by
          rw [hs5]
          refine setNext_self ?_ _
          rw [setRight_ne (by omega)]
          show (s2.setLeft _ _).nodes[c]? = _
          rw [setLeft_ne (by omega), x2.pre c (by omega), x1.pre c hcl]
          exact hc
        have hi5 : RInv s5 := by
          rw [hs5]
          refine RInv.setNext (RInv.setRight ?_ _ _) _ _
          exact ⟨(x2.inv.setLeft _ _).len, x2.inv.pos⟩
        have hbal5 : s5.nodes.length + s5.p.length ≤ s.nodes.length + s.p.length := by
          rw [hl5, hp5]
          rw [p2, htb] at hb2
          simp at hb2 ⊢
          omega
        refine (ih (f' + 1 - 1) (s.nodes.length + 1) s5 _ hxs hsep.tail (hE' _ hl5) hp5 (by omega) hi5 hr5 rfl).mono fun r hr => ?_
        refine ClassDone.cons hr hpre5 hcl hc5 hr5 ⟨rfl, rfl, rfl⟩ (by omega) hbal5 hl5 ?_
        rintro a' b' h
        cases h
        omega

theorem cs_caret : cs "^" = ['^'] := rfl

theorem rexClass_rep {E : Prop} {rest : CStr} {neg : Bool} {x : SetItem} {xs : List SetItem} {s : RState}
    (hok : ∀ y ∈ x :: xs, y.Ok) (hst : Opens neg x.text) (hsep : Separate (x :: xs)) (hE : E ∨ PlacedItems (s.nodes.length + 1) (x :: xs))
    (hp : s.p = '[' :: ((if neg then cs "^" else []) ++ (x :: xs).flatMap SetItem.text ++ ']' :: rest))
    (hinv : RInv s) :
    CPost E (fun r => Ext s r.2 ∧ r.2.p = rest ∧ RepAtom r.2.nodes (.set neg x xs) s.nodes.length r.2.nodes.length r.1 (-1) ∧
        r.2.nodes.length = s.nodes.length + 1 + sizeItems (x :: xs) ∧ PlacedItems (s.nodes.length + 1) (x :: xs))
      (do
        let (ret, s) ← rexClass { s with p := (if neg then cs "^" else []) ++ (x :: xs).flatMap SetItem.text ++ ']' :: rest }
        let s ← rexExpect ']' s
        .ok (ret, s)) := by
  obtain ⟨d, t, ht, hd1⟩ := SetItem.head (hok x (by simp))
  have hd3 : neg = false → d ≠ '^' := by
    rintro rfl rfl
    rcases hst with h | h
    · cases h
    · exact h (by rw [ht]; rfl)
  -- the head
  have hhead : ∃ s1, classHead { s with p := (if neg then cs "^" else []) ++ (x :: xs).flatMap SetItem.text ++ ']' :: rest } =
      .ok (s.nodes.length, s1) ∧ Ext s s1 ∧ s1.p = (x :: xs).flatMap SetItem.text ++ ']' :: rest ∧
      s1.nodes = s.nodes ++ [{ type := if neg then .ncls else .cls }] := by
    unfold classHead
    cases neg with
    | true =>
      obtain ⟨s1, e1, x1, p1, n1⟩ := newnode_made .ncls hinv
        (p := '^' :: ((x :: xs).flatMap SetItem.text ++ ']' :: rest)) (by rw [hp]; simp [cs_caret])
      rw [if_neg (by simp)] at n1
      refine ⟨{ s1 with p := (x :: xs).flatMap SetItem.text ++ ']' :: rest }, ?_, ?_, rfl, n1⟩
      · show (newnode .ncls _ >>= _) = _
        have e2 : ({ s with p := (if true = true then cs "^" else []) ++ (x :: xs).flatMap SetItem.text ++ ']' :: rest } : RState) =
            { s with p := '^' :: ((x :: xs).flatMap SetItem.text ++ ']' :: rest) } := by simp [cs_caret]
        rw [e2, e1, rbind_ok]
        simp [cs_caret]
      · refine ⟨⟨x1.inv.len, x1.inv.pos⟩, x1.pre, x1.len, ?_⟩
        have := x1.bal
        rw [p1] at this
        simp at this ⊢
        omega
    | false =>
      obtain ⟨s1, e1, x1, p1, n1⟩ := newnode_made .cls hinv
        (p := (x :: xs).flatMap SetItem.text ++ ']' :: rest) (by rw [hp]; simp)
      rw [if_neg (by simp)] at n1
      refine ⟨s1, ?_, x1, p1, n1⟩
      split
      · rename_i h
        simp [ht] at h
        exact absurd h.1 (hd3 rfl)
      · simp only [Bool.false_eq_true, if_false, List.nil_append]
        exact e1
  obtain ⟨s1, e1, x1, p1, n1⟩ := hhead
  have hl1 : s1.nodes.length = s.nodes.length + 1 := by rw [n1]; simp
  have hnode : s1.nodes[s.nodes.length]? = some { type := if neg then .ncls else .cls } := by rw [n1]; simp
  have hloop := classLoop_rep (E := E) (rest := rest) (x :: xs) (s1.p.length + 1) s.nodes.length s1 _ hok hsep (by rw [hl1]; exact hE)
    p1 (by omega) x1.inv hnode rfl
  have hcls : rexClass { s with p := (if neg then cs "^" else []) ++ (x :: xs).flatMap SetItem.text ++ ']' :: rest } = (do
      let r ← classLoop (s1.p.length + 1) none s.nodes.length s1
      match (classFin r).nodes[s.nodes.length]? with
      | none => .error (.fault (.ub "node index out of range"))
      | some n => .ok (s.nodes.length, ((classFin r).setLeft s.nodes.length n.next).setNext s.nodes.length (-1))) := by
    unfold rexClass
    rw [e1, rbind_ok]
    dsimp only
    split
    · rename_i h
      rw [p1, List.flatMap_cons, ht] at h
      cases h
      exact absurd rfl hd1
    · rfl
  rw [hcls]
  refine CPost.bind (P := fun r => Ext s r.2 ∧ r.2.p = ']' :: rest ∧ r.2.nodes.length + r.2.p.length ≤ s.nodes.length + s.p.length ∧
    RepAtom r.2.nodes (.set neg x xs) s.nodes.length r.2.nodes.length r.1 (-1) ∧
    r.2.nodes.length = s.nodes.length + 1 + sizeItems (x :: xs) ∧ PlacedItems (s.nodes.length + 1) (x :: xs)) ?_ ?_
  · refine CPost.bind hloop fun r hr => ?_
    obtain ⟨v, h1, h2⟩ := hr.link
    rw [h1]
    dsimp only
    have hlt := lt_of_getElem? h1
    have hlen : (((classFin r).setLeft s.nodes.length v).setNext s.nodes.length (-1)).nodes.length = (classFin r).nodes.length := by
      rw [setNext_len, setLeft_len]
    have hlen2 := hr.len
    have hbal := hr.bal
    have hbal1 := x1.bal
    have hpr : ∀ k, k ≠ s.nodes.length → (((classFin r).setLeft s.nodes.length v).setNext s.nodes.length (-1)).nodes[k]? =
        (classFin r).nodes[k]? := fun k hk => by
      rw [setNext_ne (fun h => hk h.symm), setLeft_ne (fun h => hk h.symm)]
    refine ⟨⟨(hr.inv.setLeft _ _).setNext _ _, fun k hk => ?_, by dsimp only; rw [hlen]; omega, ?_⟩, hr.p, ?_, ?_, ?_, ?_⟩
    · dsimp only
      rw [hpr k (by omega), hr.pre k (by omega) (by omega), x1.pre k hk]
    · show _ + (classFin r).p.length ≤ _
      rw [hlen]
      omega
    · show _ + (classFin r).p.length ≤ _
      rw [hlen]
      omega
    · unfold RepAtom
      refine ⟨rfl, by dsimp only; rw [hlen]; omega, _, setNext_self (setLeft_self h1 v) _, rfl, rfl, ?_⟩
      dsimp only
      rw [hlen]
      exact h2.frame (by omega) (Nat.le_refl _) fun k hk _ => hpr k (by omega)
    · dsimp only
      rw [hlen, hr.cnt, hl1]
    · rw [← hl1]; exact hr.placed
  · rintro ⟨ret, s'⟩ ⟨hx, hp', hbal, hrep, hsz⟩
    dsimp only at hx hp' hrep hbal ⊢
    have : rexExpect ']' s' = .ok { s' with p := rest } := by
      unfold rexExpect
      rw [hp']
      dsimp only
      rw [if_pos rfl]
    rw [this, rbind_ok]
    refine ⟨⟨⟨hx.inv.len, hx.inv.pos⟩, hx.pre, hx.len, ?_⟩, rfl, hrep, hsz⟩
    rw [hp'] at hbal
    simp at hbal ⊢
    omega

/-! ### repetitions -/

/-- The value of a string of decimal digits. -/
def digVal (w : CStr) (acc : Nat) : Nat := w.foldl (fun a c => a * 10 + (c.toNat - 48)) acc

theorem digVal_le (w : CStr) : ∀ acc, acc ≤ digVal w acc := by
  induction w with
  | nil => intro acc; exact Nat.le_refl _
  | cons c w ih =>
    intro acc
    have := ih (acc * 10 + (c.toNat - 48))
    show acc ≤ digVal w (acc * 10 + (c.toNat - 48))
    omega

theorem isDigit_nat {c : Char} (h : isDigit c = true) : 48 ≤ c.toNat ∧ c.toNat ≤ 57 := by
  unfold isDigit at h
  rw [Bool.and_eq_true, decide_eq_true_iff, decide_eq_true_iff] at h
  exact h

theorem parseDigits_val {c0 : Char} {p : CStr} (hc0 : isDigit c0 = false) : ∀ (w : CStr) (acc pos : Nat), (∀ c ∈ w, isDigit c = true) →
    acc < pos → pos * 10 ^ w.length ≤ 1000000000 →
    parseDigits (w ++ c0 :: p) (acc : Int) (pos : Int) = .ok (((digVal w acc : Nat) : Int), c0 :: p) := by
  intro w
  induction w with
  | nil =>
    intro acc pos _ _ _
    show parseDigits (c0 :: p) _ _ = _
    rw [parseDigits, if_neg (by rw [hc0]; simp)]
    rfl
  | cons c w ih =>
    intro acc pos hw hpos hlim
    have hd := isDigit_nat (hw c (by simp))
    have hlim' : pos * 10 * 10 ^ w.length ≤ 1000000000 := by
      rw [List.length_cons, Nat.pow_succ] at hlim
      rw [Nat.mul_assoc, Nat.mul_comm 10]
      exact hlim
    have hp1 : 1 ≤ 10 ^ w.length := Nat.one_le_pow _ _ (by omega)
    have hp2 : pos * 10 ≤ 1000000000 := Nat.le_trans (Nat.le_mul_of_pos_right _ hp1) hlim'
    rw [List.cons_append, parseDigits, if_pos (hw c (by simp))]
    have e1 : (acc : Int) * 10 + ((c.toNat : Int) - 48) = ((acc * 10 + (c.toNat - 48) : Nat) : Int) := by omega
    have e2 : (pos : Int) * 10 = ((pos * 10 : Nat) : Int) := by omega
    rw [e1, if_neg (by unfold INT_MAX; omega), if_neg (by omega), e2,
      ih _ _ (fun d hd => hw d (by simp [hd])) (by omega) hlim']
    rfl

theorem digVal_append (w1 w2 : CStr) (acc : Nat) : digVal (w1 ++ w2) acc = digVal w2 (digVal w1 acc) := by
  unfold digVal; rw [List.foldl_append]

theorem digVal_numeral {ds : CStr} {n : Nat} (h : Numeral 10 ds n) : (∀ c ∈ ds, isDigit c = true) ∧ digVal ds 0 = n := by
  have key : ∀ d < 10, ∀ c, DigitIs c d → isDigit c = true ∧ c.toNat - 48 = d := by
    intro d hd c hc
    have : d = 0 ∨ d = 1 ∨ d = 2 ∨ d = 3 ∨ d = 4 ∨ d = 5 ∨ d = 6 ∨ d = 7 ∨ d = 8 ∨ d = 9 := by omega
    rcases this with rfl | rfl | rfl | rfl | rfl | rfl | rfl | rfl | rfl | rfl <;> rcases hc with hc | hc <;>
      (cases hc; decide)
  induction h with
  | one c d hc hd =>
    obtain ⟨h1, h2⟩ := key d hd c hc
    refine ⟨fun c' hc' => ?_, ?_⟩
    · rw [List.mem_singleton] at hc'; rw [hc']; exact h1
    · show 0 * 10 + (c.toNat - 48) = d
      omega
  | snoc ds n c d _ hc hd ih =>
    obtain ⟨h1, h2⟩ := key d hd c hc
    obtain ⟨i1, i2⟩ := ih
    refine ⟨fun c' hc' => ?_, ?_⟩
    · rw [List.mem_append, List.mem_singleton] at hc'
      rcases hc' with h | rfl
      · exact i1 c' h
      · exact h1
    · rw [digVal_append, i2]
      show n * 10 + (c.toNat - 48) = _
      omega

theorem parseNumber_raw {w : CStr} (hw0 : w ≠ []) (hw : w.length ≤ 9) (hd : ∀ c ∈ w, isDigit c = true) {c0 : Char} {p : CStr}
    (hc0 : isDigit c0 = false) {s : RState} (hp : s.p = w ++ c0 :: p) : parseNumber s = .ok (bound w, { s with p := c0 :: p }) := by
  cases w with
  | nil => exact absurd rfl hw0
  | cons c w =>
    have hc := isDigit_nat (hd c (by simp))
    unfold parseNumber
    rw [hp]
    dsimp only [List.cons_append]
    have e1 : (c.toNat : Int) - 48 = ((c.toNat - 48 : Nat) : Int) := by omega
    have e2 : (10 : Int) = ((10 : Nat) : Int) := rfl
    have hw' : w.length ≤ 8 := by simp at hw; omega
    have := parseDigits_val hc0 (p := p) w (c.toNat - 48) 10 (fun d h => hd d (by simp [h])) (by omega)
      (by
        have : 10 ^ w.length ≤ 10 ^ 8 := Nat.pow_le_pow_right (by omega) hw'
        omega)
    rw [e1, e2, this, rbind_ok]
    have h1 : digVal w (c.toNat - 48) = digVal (c :: w) 0 := by
      show _ = digVal w (0 * 10 + (c.toNat - 48))
      rw [Nat.zero_mul, Nat.zero_add]
    have h2 : (((digVal w (c.toNat - 48) : Nat) : Int) % 65536).toNat = bound (c :: w) := by
      rw [h1]
      show _ = digVal (c :: w) 0 % 65536
      omega
    dsimp only
    rw [h2]

theorem parseNumber_val {n : Nat} (hn : n < 65536) {c0 : Char} {p : CStr} (hc0 : isDigit c0 = false) {s : RState}
    (hp : s.p = Nat.toDigits 10 n ++ c0 :: p) : parseNumber s = .ok (n, { s with p := c0 :: p }) := by
  obtain ⟨h1, h2⟩ := digVal_numeral (numeral_toDigits (base := 10) (by decide) (by decide) n)
  have hlen : (Nat.toDigits 10 n).length ≤ 5 :=
    (Nat.length_toDigits_le_iff (by decide) (by decide)).2 (by omega)
  have h0 := Nat.length_toDigits_pos (b := 10) (n := n)
  rw [parseNumber_raw (fun h => by rw [h] at h0; simp at h0) (by omega) h1 hc0 hp]
  have : bound (Nat.toDigits 10 n) = n := by
    show digVal _ 0 % 65536 = n
    rw [h2]; omega
  rw [this]

theorem toDigits_head (n : Nat) : ∃ c w, Nat.toDigits 10 n = c :: w ∧ isDigit c = true := by
  obtain ⟨h1, h2⟩ := digVal_numeral (numeral_toDigits (base := 10) (by decide) (by decide) n)
  cases hds : Nat.toDigits 10 n with
  | nil =>
    have := Nat.length_toDigits_pos (b := 10) (n := n)
    rw [hds] at this
    simp at this
  | cons c w => exact ⟨c, w, rfl, h1 c (by rw [hds]; simp)⟩

/-- What may follow an element. -/
def NoQuant (p : CStr) : Prop := ∀ c t, p = c :: t → c ∉ ['*', '+', '?', '{']

theorem quantifier_brace {s : RState} {c : Char} {p : CStr} (hp : s.p = '{' :: c :: p) (hc : isDigit c = true) :
    quantifier s = (do
      let (p0, s) ← parseNumber { s with p := c :: p }
      match s.p with
      | '}' :: p => .ok (some (p0, p0), { s with p := p })
      | ',' :: p => do
        let (p1, s) ← quantUpper { s with p := p }
        let s ← rexExpect '}' s
        .ok (some (p0, p1), s)
      | _ => .error (.bad ", or } expected")) := by
  unfold quantifier
  rw [hp]
  show (if ¬ isDigit c = true then _ else _) = _
  rw [if_neg (by simp [hc])]
  rfl

theorem quantifier_rep {q : Quant} (hq : q.Ok) {s : RState} {rest : CStr} (hp : s.p = q.text ++ rest)
    (hrest : q = .once → NoQuant rest) :
    quantifier s = .ok (if q = .once then none else some (quantBounds q), { s with p := rest }) := by
  cases q with
  | once =>
    rw [if_pos rfl]
    have hs : ({ s with p := rest } : RState) = s := by
      have : rest = s.p := by rw [hp]; rfl
      rw [this]
    rw [hs]
    refine quantifier_none fun c p h => hrest rfl c p ?_
    rw [← h, hp]; rfl
  | star =>
    rw [if_neg (by simp)]
    have hp' : s.p = '*' :: rest := hp
    unfold quantifier
    rw [hp']
    rfl
  | plus =>
    rw [if_neg (by simp)]
    have hp' : s.p = '+' :: rest := hp
    unfold quantifier
    rw [hp']
    rfl
  | opt =>
    rw [if_neg (by simp)]
    have hp' : s.p = '?' :: rest := hp
    unfold quantifier
    rw [hp']
    rfl
  | exactly n =>
    rw [if_neg (by simp)]
    have hn : n < 32768 := hq
    have hp' : s.p = '{' :: (Nat.toDigits 10 n ++ '}' :: rest) := by
      rw [hp, Quant.text, List.append_assoc, List.cons_append]; rfl
    obtain ⟨c, w, hw, hc⟩ := toDigits_head n
    have hnum := parseNumber_val (n := n) (by omega) (c0 := '}') (p := rest) (by decide)
      (s := { s with p := Nat.toDigits 10 n ++ '}' :: rest }) rfl
    rw [hw, List.cons_append] at hnum hp'
    rw [quantifier_brace hp' hc, hnum, rbind_ok]
    rfl
  | atLeast n =>
    rw [if_neg (by simp)]
    have hn : n < 32768 := hq
    have hp' : s.p = '{' :: (Nat.toDigits 10 n ++ ',' :: '}' :: rest) := by
      rw [hp, Quant.text, List.append_assoc, List.cons_append]; rfl
    obtain ⟨c, w, hw, hc⟩ := toDigits_head n
    have hnum := parseNumber_val (n := n) (by omega) (c0 := ',') (p := '}' :: rest) (by decide)
      (s := { s with p := Nat.toDigits 10 n ++ ',' :: '}' :: rest }) rfl
    rw [hw, List.cons_append] at hnum hp'
    rw [quantifier_brace hp' hc, hnum, rbind_ok]
    rfl
  | between n m =>
    rw [if_neg (by simp)]
    obtain ⟨hn, hm⟩ : n < 32768 ∧ m < 65535 := hq
    have hp' : s.p = '{' :: (Nat.toDigits 10 n ++ ',' :: (Nat.toDigits 10 m ++ '}' :: rest)) := by
      rw [hp, Quant.text]; simp; rfl
    obtain ⟨c, w, hw, hc⟩ := toDigits_head n
    obtain ⟨c', w', hw', hc'⟩ := toDigits_head m
    have hnum := parseNumber_val (n := n) (by omega) (c0 := ',') (p := Nat.toDigits 10 m ++ '}' :: rest) (by decide)
      (s := { s with p := Nat.toDigits 10 n ++ ',' :: (Nat.toDigits 10 m ++ '}' :: rest) }) rfl
    have hnum2 := parseNumber_val (n := m) (by omega) (c0 := '}') (p := rest) (by decide)
      (s := { s with p := Nat.toDigits 10 m ++ '}' :: rest }) rfl
    rw [hw, List.cons_append] at hnum hp'
    rw [quantifier_brace hp' hc, hnum, rbind_ok]
    show (quantUpper { s with p := Nat.toDigits 10 m ++ '}' :: rest } >>= _) = _
    have hu : quantUpper { s with p := Nat.toDigits 10 m ++ '}' :: rest } = .ok (m, { s with p := '}' :: rest }) := by
      unfold quantUpper
      rw [hw'] at hnum2 ⊢
      dsimp only [List.cons_append] at hnum2 ⊢
      rw [if_pos hc', hnum2]
    rw [hu, rbind_ok]
    dsimp only
    have : rexExpect '}' { s with p := '}' :: rest } = .ok { s with p := rest } := by
      unfold rexExpect
      dsimp only
      rw [if_pos rfl]
    rw [this, rbind_ok]
    rfl
  | raw lo hi =>
    rw [if_neg (by simp)]
    obtain ⟨⟨l0, l1, l2, l3⟩, hhi⟩ := hq
    obtain ⟨c, w, rfl⟩ : ∃ c w, lo = c :: w := by
      cases lo with
      | nil => exact absurd rfl l0
      | cons c w => exact ⟨c, w, rfl⟩
    have hc := l2 c (by simp)
    cases hi with
    | none =>
      have hp' : s.p = '{' :: c :: (w ++ '}' :: rest) := by rw [hp, Quant.text]; simp; rfl
      have hnum := parseNumber_raw l0 l1 l2 (c0 := '}') (p := rest) (by decide)
        (s := { s with p := (c :: w) ++ '}' :: rest }) rfl
      rw [List.cons_append] at hnum
      rw [quantifier_brace hp' hc, hnum, rbind_ok]
      rfl
    | some ds =>
      obtain ⟨d1, d2⟩ := hhi ds rfl
      have hp' : s.p = '{' :: c :: (w ++ ',' :: (ds ++ '}' :: rest)) := by rw [hp, Quant.text]; simp; rfl
      have hnum := parseNumber_raw l0 l1 l2 (c0 := ',') (p := ds ++ '}' :: rest) (by decide)
        (s := { s with p := (c :: w) ++ ',' :: (ds ++ '}' :: rest) }) rfl
      rw [List.cons_append] at hnum
      rw [quantifier_brace hp' hc, hnum, rbind_ok]
      show (quantUpper { s with p := ds ++ '}' :: rest } >>= _) = _
      have hu : quantUpper { s with p := ds ++ '}' :: rest } = .ok (upperBound (c :: w) (some ds), { s with p := '}' :: rest }) := by
        unfold quantUpper
        cases ds with
        | nil => rfl
        | cons d ds =>
          dsimp only [List.cons_append]
          rw [if_pos (d2 d (by simp))]
          exact parseNumber_raw (by simp) d1 d2 (by decide) (s := { s with p := d :: (ds ++ '}' :: rest) }) rfl
      rw [hu, rbind_ok]
      dsimp only
      have : rexExpect '}' { s with p := '}' :: rest } = .ok { s with p := rest } := by
        unfold rexExpect
        dsimp only
        rw [if_pos rfl]
      rw [this, rbind_ok]
      rfl

/-! ### elements and lists -/

/-- What may follow a sequence. -/
def Stops (p : CStr) : Prop := p = [] ∨ ∃ c t, p = c :: t ∧ (c = '|' ∨ c = ')')

/-- What may follow a pattern. -/
def Closes (p : CStr) : Prop := p = [] ∨ ∃ t, p = ')' :: t

theorem Stops.noQuant {p : CStr} (h : Stops p) : NoQuant p := by
  intro c t hp
  rcases h with h | ⟨c', t', h, h2⟩
  · rw [h] at hp; cases hp
  · rw [h] at hp; cases hp; rcases h2 with rfl | rfl <;> decide

/-- Atoms, sequences and patterns are not empty. -/
theorem Atom.head {a : Atom} : ∃ d t, a.text = d :: t := by
  cases a with
  | chr l => unfold Atom.text; cases l <;> exact ⟨_, _, rfl⟩
  | cls l => unfold Atom.text; exact ⟨_, _, rfl⟩
  | any => unfold Atom.text; exact ⟨_, _, rfl⟩
  | set neg x xs => unfold Atom.text; exact ⟨_, _, rfl⟩
  | eol => unfold Atom.text; exact ⟨_, _, rfl⟩
  | edge neg => unfold Atom.text; cases neg <;> exact ⟨'\\', _, rfl⟩
  | group capture r => unfold Atom.text; cases capture <;> exact ⟨'(', _, rfl⟩

theorem Elems.head {es : Elems} : ∃ d t, es.text = d :: t := by
  cases es with
  | last a q =>
    obtain ⟨d, t, h1⟩ := Atom.head (a := a)
    exact ⟨d, _, by unfold Elems.text; rw [h1]; rfl⟩
  | more a q es =>
    obtain ⟨d, t, h1⟩ := Atom.head (a := a)
    exact ⟨d, _, by unfold Elems.text; rw [h1]; rfl⟩

theorem Re.head {r : Re} : ∃ d t, r.text = d :: t := by
  have key : ∀ (bol : Bool) (es : Elems) (u : CStr), ∃ d t, (if bol then cs "^" else []) ++ es.text ++ u = d :: t := by
    intro bol es u
    cases bol with
    | true => exact ⟨'^', _, rfl⟩
    | false =>
      obtain ⟨d, t, h1⟩ := Elems.head (es := es)
      exact ⟨d, t ++ u, by simp [h1]⟩
  cases r with
  | branch bol es =>
    obtain ⟨d, t, h1⟩ := key bol es []
    exact ⟨d, t, by unfold Re.text; rw [← h1, List.append_nil]⟩
  | alt bol es r =>
    unfold Re.text
    exact key bol es _

/-- The result of compiling an element, sequence or pattern. -/
structure Built (s : RState) (rest : CStr) (sz : Nat) (P : Nat → Prop) (R : List RNode → Nat → Nat → Nat → Prop)
    (r : Nat × RState) : Prop where
  ext : Ext s r.2
  p : r.2.p = rest
  rep : R r.2.nodes s.nodes.length r.2.nodes.length r.1
  cnt : r.2.nodes.length = s.nodes.length + sz
  placed : P s.nodes.length

theorem wrapGreedy_rep {E : Prop} {a : Atom} {q : Quant} (hq : q.Ok) {s s1 : RState} {ret : Nat} {rest : CStr} (hx : Ext s s1)
    (hp : s1.p = q.text ++ rest) (hrep : RepAtom s1.nodes a s.nodes.length s1.nodes.length ret (-1))
    (hsz : s1.nodes.length = s.nodes.length + a.size) (hpl : a.Placed s.nodes.length) :
    CPost E (Built s rest (a.size + q.size) (fun k => a.Placed k) fun nodes lo hi i => RepQ nodes (RepAtom nodes a) q lo hi i (-1))
      (wrapGreedy ret (if q = .once then none else some (quantBounds q)) { s1 with p := rest }) := by
  by_cases h1 : q = .once
  · subst h1
    rw [if_pos rfl]
    have hs : ({ s1 with p := rest } : RState) = s1 := by
      have : rest = s1.p := by rw [hp]; rfl
      rw [this]
    rw [hs]
    refine ⟨hx, by rw [hp]; rfl, ?_, hsz, hpl⟩
    dsimp only
    unfold RepQ
    rw [if_pos rfl]
    exact hrep
  · rw [if_neg h1]
    have hb : (quantBounds q).1 < 32768 := by
      cases q with
      | exactly n => exact hq
      | atLeast n => exact hq
      | between n m => exact hq.1
      | raw lo hi => exact hq.1.2.2.2
      | once => exact absurd rfl h1
      | star => decide
      | plus => decide
      | opt => decide
    have hql : 1 ≤ q.text.length := by
      cases q with
      | once => exact absurd rfl h1
      | exactly n => simp [Quant.text]
      | atLeast n => simp [Quant.text]
      | between n m => simp [Quant.text]
      | raw lo hi => cases hi <;> simp [Quant.text]
      | star => decide
      | plus => decide
      | opt => decide
    obtain ⟨s2, e2, x2, p2, n2⟩ := newnode_made .greedy hx.inv (p := rest) (by rw [hp, List.length_append]; omega)
    rw [if_neg (by simp)] at n2
    unfold wrapGreedy
    dsimp only
    rw [if_neg (by omega), e2, rbind_ok]
    dsimp only
    have hn2 : s2.nodes[s1.nodes.length]? = some { type := .greedy } := by rw [n2]; simp
    have hl2 : s2.nodes.length = s1.nodes.length + 1 := by rw [n2]; simp
    have hpr : ∀ k, k < s1.nodes.length → ((s2.setLeft s1.nodes.length ret).setRight s1.nodes.length
        ((quantBounds q).1 * 65536 + (quantBounds q).2)).nodes[k]? = s1.nodes[k]? := fun k hk => by
      rw [setRight_ne (by omega), setLeft_ne (by omega), x2.pre k hk]
    have hlen : ((s2.setLeft s1.nodes.length ret).setRight s1.nodes.length
        ((quantBounds q).1 * 65536 + (quantBounds q).2)).nodes.length = s1.nodes.length + 1 := by
      rw [setRight_len, setLeft_len, hl2]
    have hq1 : q.size = 1 := by
      cases q with
      | once => exact absurd rfl h1
      | _ => rfl
    refine ⟨⟨(x2.inv.setLeft _ _).setRight _ _, fun k hk => ?_, ?_, ?_⟩, p2, ?_, by dsimp only; rw [hlen, hsz, hq1]; rfl, hpl⟩
    · dsimp only
      rw [hpr k (by have := hx.len; omega), hx.pre k hk]
    · dsimp only
      rw [hlen]; have := hx.len; omega
    · show _ + s2.p.length ≤ _
      have h3 := x2.bal
      have h4 := hx.bal
      rw [hlen]
      omega
    · dsimp only
      unfold RepQ
      rw [if_neg h1]
      have hbd := hrep.bounds
      refine ⟨by omega, hlen.symm, _, setRight_self (setLeft_self hn2 _) _, rfl, rfl, by push_cast; rfl, ret, rfl, ?_⟩
      exact RepAtom.frame a (fun k h1 h2 => hpr k h2) hrep

/-- The atom is compiled as represented. -/
def AtomC (E : Prop) (a : Atom) : Prop := ∀ (fuel : Nat) (s : RState) (rest : CStr), a.Ok →
    (E ∨ a.Placed s.nodes.length) → s.p = a.text ++ rest → RInv s →
    a.text.length ≤ fuel + 1 →
    CPost E (Built s rest a.size (fun k => a.Placed k) fun nodes lo hi i => RepAtom nodes a lo hi i (-1)) (rexAtom (rexList fuel) s)

/-- The sequence is compiled as represented. -/
def ElemsC (E : Prop) (es : Elems) : Prop := ∀ (fuel : Nat) (s : RState) (rest : CStr), es.Ok →
    (E ∨ es.Placed s.nodes.length) → s.p = es.text ++ rest → Stops rest → RInv s →
    es.text.length ≤ fuel →
    CPost E (Built s rest es.size (fun k => es.Placed k) fun nodes lo hi i => RepElems nodes es lo hi i) (rexElement fuel s)

/-- The pattern is compiled as represented. -/
def ReC (E : Prop) (r : Re) : Prop := ∀ (fuel : Nat) (s : RState) (rest : CStr), r.Ok →
    (E ∨ r.Placed s.nodes.length) → s.p = r.text ++ rest → Closes rest → RInv s →
    r.text.length + 1 ≤ fuel →
    CPost E (Built s rest r.size (fun k => r.Placed k) fun nodes lo hi i => RepRe nodes r lo hi i) (rexList fuel s)

section
variable {E : Prop}

theorem atomC_chr (l : Lit) : AtomC E (.chr l) := by
  intro fuel s rest hok hE hp hinv hf
  unfold Atom.Ok at hok
  unfold Atom.text at hp
  have hl : LitOk false l := hok
  obtain ⟨s1, e1, x1, p1, n1⟩ := newnode_made (.char l.char) hinv (p := rest)
    (by rw [hp]; cases l <;> simp [Lit.text])
  rw [if_neg (by simp)] at n1
  have he : rexAtom (rexList fuel) s = charnode false s := by
    obtain ⟨d, t, h1⟩ := Atom.head (a := .chr l)
    have h3 : s.p = d :: (t ++ rest) := by
      rw [hp]; unfold Atom.text at h1; rw [h1]; rfl
    have h4 : d ≠ '(' ∧ d ≠ '[' ∧ d ≠ '$' ∧ d ≠ '.' := by
      unfold Atom.text at h1
      cases l with
      | plain c =>
        cases h1
        refine ⟨?_, ?_, ?_, ?_⟩ <;> rintro rfl <;> exact hok.2.2 (by decide)
      | quoted c => cases h1; decide
      | ctl c => cases h1; decide
    unfold rexAtom
    rw [h3]
    split
    · rename_i h; cases h; exact absurd rfl h4.1
    · rename_i h; cases h; exact absurd rfl h4.2.1
    · rename_i h; cases h; exact absurd rfl h4.2.2.1
    · rename_i h; cases h; exact absurd rfl h4.2.2.2
    · rfl
  rw [he, charnode_lit hl hp, e1]
  refine ⟨x1, p1, ?_, by dsimp only; rw [n1]; unfold Atom.size; simp, by unfold Atom.Placed; trivial⟩
  unfold RepAtom
  exact ⟨rfl, by dsimp only; rw [n1]; simp, { type := .char l.char }, by dsimp only; rw [n1]; simp, rfl, rfl⟩

theorem atomC_cls (l : Char) : AtomC E (.cls l) := by
  intro fuel s rest hok hE hp hinv hf
  unfold Atom.Ok at hok
  unfold Atom.text at hp
  obtain ⟨s1, e1, x1, p1, n1⟩ := charnode_cls (isclass := false) hok hinv (p := rest) hp
  have he : rexAtom (rexList fuel) s = charnode false s := by
    unfold rexAtom
    have hp' : s.p = '\\' :: l :: rest := hp
    rw [hp']
    rfl
  rw [he, e1]
  refine ⟨x1, p1, ?_, by dsimp only; rw [n1]; unfold Atom.size; simp, by unfold Atom.Placed; trivial⟩
  unfold RepAtom
  exact ⟨rfl, by dsimp only; rw [n1]; simp, { type := .ccls, left := charInt l }, by dsimp only; rw [n1]; simp, rfl, rfl, rfl⟩

theorem atomC_any  : AtomC E (.any) := by
  intro fuel s rest hok hE hp hinv hf
  unfold Atom.text at hp
  have hp' : s.p = '.' :: rest := hp
  obtain ⟨s1, e1, x1, p1, n1⟩ := newnode_made .dot hinv (p := rest) (by rw [hp']; simp)
  rw [if_neg (by simp)] at n1
  have he : rexAtom (rexList fuel) s = newnode .dot { s with p := rest } := by
    unfold rexAtom
    rw [hp']
    rfl
  rw [he, e1]
  refine ⟨x1, p1, ?_, by dsimp only; rw [n1]; unfold Atom.size; simp, by unfold Atom.Placed; trivial⟩
  unfold RepAtom
  exact ⟨rfl, by dsimp only; rw [n1]; simp, { type := .dot }, by dsimp only; rw [n1]; simp, rfl, rfl⟩

theorem atomC_eol  : AtomC E (.eol) := by
  intro fuel s rest hok hE hp hinv hf
  unfold Atom.text at hp
  have hp' : s.p = '$' :: rest := hp
  obtain ⟨s1, e1, x1, p1, n1⟩ := newnode_made .eol hinv (p := rest) (by rw [hp']; simp)
  rw [if_neg (by simp)] at n1
  have he : rexAtom (rexList fuel) s = newnode .eol { s with p := rest } := by
    unfold rexAtom
    rw [hp']
    rfl
  rw [he, e1]
  refine ⟨x1, p1, ?_, by dsimp only; rw [n1]; unfold Atom.size; simp, by unfold Atom.Placed; trivial⟩
  unfold RepAtom
  exact ⟨rfl, by dsimp only; rw [n1]; simp, { type := .eol }, by dsimp only; rw [n1]; simp, rfl, rfl⟩

theorem charnode_edge {neg : Bool} {s : RState} (hs : RInv s) {p : CStr}
    (hp : s.p = '\\' :: (if neg then 'B' else 'b') :: p) :
    ∃ s', charnode false s = .ok (s.nodes.length, s') ∧ Ext s s' ∧ s'.p = p ∧
      s'.nodes = s.nodes ++ [{ type := .wb, left := charInt (if neg then 'B' else 'b') }] := by
  obtain ⟨s1, e1, x1, p1, n1⟩ := newnode_made .wb hs (p := p) (by rw [hp]; simp)
  rw [if_neg (by simp)] at n1
  have hc : charnode false s = (do
      let (n, s) ← newnode .wb { s with p := p }
      .ok (n, s.setLeft n (charInt (if neg then 'B' else 'b')))) := by
    unfold charnode
    rw [hp]
    cases neg <;> rfl
  have hn : (s1.setLeft s.nodes.length (charInt (if neg then 'B' else 'b'))).nodes =
      s.nodes ++ [{ type := .wb, left := charInt (if neg then 'B' else 'b') }] := by
    unfold RState.setLeft
    dsimp only
    rw [n1]
    apply List.ext_getElem?
    intro k
    rw [List.getElem?_modify]
    by_cases hk : k < s.nodes.length
    · rw [List.getElem?_append_left hk, List.getElem?_append_left hk, List.getElem?_eq_getElem hk]
      simp only [Option.map_eq_map, Option.map_some]
      rw [if_neg (by omega)]
    · obtain ⟨j, rfl⟩ : ∃ j, k = s.nodes.length + j := ⟨k - s.nodes.length, by omega⟩
      rw [List.getElem?_append_right (by omega), List.getElem?_append_right (by omega), Nat.add_sub_cancel_left]
      cases j <;> simp
  refine ⟨s1.setLeft s.nodes.length (charInt (if neg then 'B' else 'b')), ?_, ⟨⟨?_, x1.inv.pos⟩, ?_, ?_, ?_⟩, p1, hn⟩
  · rw [hc, e1, rbind_ok]
  · have := x1.inv.len
    simpa [RState.setLeft] using this
  · intro k hk; rw [hn]; exact List.getElem?_append_left hk
  · rw [hn]; simp
  · have : (s1.setLeft s.nodes.length (charInt (if neg then 'B' else 'b'))).p = p := p1
    rw [hn, this, hp]; simp; omega

theorem atomC_edge (neg : Bool) : AtomC E (.edge neg) := by
  intro fuel s rest hok hE hp hinv hf
  unfold Atom.text at hp
  have hp' : s.p = '\\' :: (if neg then 'B' else 'b') :: rest := by rw [hp]; cases neg <;> rfl
  obtain ⟨s1, e1, x1, p1, n1⟩ := charnode_edge hinv hp'
  have he : rexAtom (rexList fuel) s = charnode false s := by
    unfold rexAtom
    rw [hp']
    cases neg <;> rfl
  rw [he, e1]
  refine ⟨x1, p1, ?_, by dsimp only; rw [n1]; unfold Atom.size; simp, by unfold Atom.Placed; trivial⟩
  unfold RepAtom
  exact ⟨rfl, by dsimp only; rw [n1]; simp, { type := .wb, left := charInt (if neg then 'B' else 'b') },
    by dsimp only; rw [n1]; simp, rfl, rfl, rfl⟩

theorem atomC_set (neg : Bool) (x : SetItem) (xs : List SetItem) : AtomC E (.set neg x xs) := by
  intro fuel s rest hok hE hp hinv hf
  unfold Atom.Ok at hok
  unfold Atom.text at hp
  have hp' : s.p = '[' :: ((if neg then cs "^" else []) ++ (x :: xs).flatMap SetItem.text ++ ']' :: rest) := by
    rw [hp]; simp; rfl
  have hE' : E ∨ PlacedItems (s.nodes.length + 1) (x :: xs) := by
    simpa only [Atom.Placed] using hE
  have he : rexAtom (rexList fuel) s = (do
      let (ret, s) ← rexClass { s with p := (if neg then cs "^" else []) ++ (x :: xs).flatMap SetItem.text ++ ']' :: rest }
      let s ← rexExpect ']' s
      .ok (ret, s)) := by
    unfold rexAtom
    rw [hp']
    rfl
  rw [he]
  exact (rexClass_rep hok.1 hok.2.1 hok.2.2 hE' hp' hinv).mono fun r hr => ⟨hr.1, hr.2.1, hr.2.2.1,
    by rw [hr.2.2.2.1]; unfold Atom.size; omega, by unfold Atom.Placed; exact hr.2.2.2.2⟩

theorem atomC_group (capture : Bool) (r : Re) (ih : ReC E r) : AtomC E (.group capture r) := by
  intro fuel s rest hok hE hp hinv hf
  unfold Atom.Ok at hok
  have hf' : r.text.length + 1 ≤ fuel := by
    unfold Atom.text at hf
    simp only [List.length_append] at hf
    have h1 : 1 ≤ (if capture = true then cs "(" else cs "(?:").length := by split <;> decide
    have h2 : (cs ")").length = 1 := rfl
    omega
  unfold Atom.text at hp
  have hE' : E ∨ r.Placed (s.nodes.length + 1) := by simpa only [Atom.Placed] using hE
  obtain ⟨hok, hq⟩ := hok
  obtain ⟨d, t, ht⟩ := Re.head (r := r)
  have hd : capture = true → d ≠ '?' := by
    rintro h rfl
    exact hq h (by rw [ht]; rfl)
  have hp' : s.p = '(' :: ((if capture then [] else cs "?:") ++ r.text ++ ')' :: rest) := by
    rw [hp]; cases capture <;> simp <;> rfl
  have hhead : ∃ s1, groupHead { s with p := (if capture then [] else cs "?:") ++ r.text ++ ')' :: rest } = .ok (s.nodes.length, s1) ∧
      Ext s s1 ∧ s1.p = r.text ++ ')' :: rest ∧
      ∃ v, s1.nodes = s.nodes ++ [{ type := if capture then .expr else .nocap, right := v }] := by
    unfold groupHead
    obtain ⟨s1, e1, x1, p1, n1⟩ := newnode_made (if capture then .expr else .nocap) hinv (p := r.text ++ ')' :: rest)
      (by rw [hp']; simp)
    refine ⟨s1, ?_, x1, p1, _, n1⟩
    cases capture with
    | true =>
      split
      · rename_i h
        simp [ht] at h
        exact absurd h.1 (hd rfl)
      · exact e1
    | false =>
      show (rexExpect ':' _ >>= _) = _
      unfold rexExpect
      dsimp only
      show ((if ':' = ':' then _ else _) >>= _) = _
      rw [if_pos rfl, rbind_ok]
      exact e1
  obtain ⟨s1, e1, x1, p1, v, n1⟩ := hhead
  have hl1 : s1.nodes.length = s.nodes.length + 1 := by rw [n1]; simp
  have he : rexAtom (rexList fuel) s = (do
      let (newn, s') ← rexList fuel s1
      let s' ← rexExpect ')' (s'.setLeft s.nodes.length newn)
      .ok (s.nodes.length, s')) := by
    unfold rexAtom
    rw [hp']
    show (groupHead _ >>= _) = _
    rw [e1, rbind_ok]
  rw [he]
  have hb1 := x1.bal
  refine CPost.bind (ih fuel s1 (')' :: rest) hok (by rw [hl1]; exact hE') p1
    (Or.inr ⟨_, rfl⟩) x1.inv hf') ?_
  rintro ⟨k, s2⟩ ⟨x2, p2, hrep, hsz, hpl⟩
  dsimp only at x2 p2 hrep ⊢
  have hex : rexExpect ')' (s2.setLeft s.nodes.length k) = .ok { s2.setLeft s.nodes.length k with p := rest } := by
    have hp3 : (s2.setLeft s.nodes.length k).p = ')' :: rest := p2
    unfold rexExpect
    rw [hp3]
    dsimp only
    rw [if_pos rfl]
  rw [hex, rbind_ok]
  have hlen : (s2.setLeft s.nodes.length k).nodes.length = s2.nodes.length := setLeft_len _ _ _
  have hn2 : s2.nodes[s.nodes.length]? = some { type := if capture then .expr else .nocap, right := v } := by
    rw [x2.pre _ (by omega), n1]; simp
  have hb2 := x2.bal
  have hle := x2.len
  refine ⟨⟨⟨(x2.inv.setLeft _ _).len, x2.inv.pos⟩, fun j hj => ?_, by dsimp only; rw [hlen]; omega, ?_⟩, rfl, ?_,
    by dsimp only at hsz ⊢; rw [hlen, hsz, hl1]; unfold Atom.size; omega, by unfold Atom.Placed; rw [← hl1]; exact hpl⟩
  · dsimp only
    rw [setLeft_ne (by omega), x2.pre j (by omega), x1.pre j hj]
  · dsimp only
    rw [hlen]
    rw [p2] at hb2
    simp at hb2
    omega
  · dsimp only
    unfold RepAtom
    refine ⟨rfl, by rw [hlen]; omega, _, setLeft_self hn2 _, rfl, rfl, k, rfl, ?_⟩
    rw [hlen]
    rw [hl1] at hrep
    exact RepRe.frame r (fun j h1 h2 => setLeft_ne (by omega) _) hrep

theorem elemsC_last (a : Atom) (q : Quant) (ha : AtomC E a) : ElemsC E (.last a q) := by
  intro fuel s rest hok hE hp hst hinv hf
  unfold Elems.Ok at hok
  unfold Elems.text at hp hf
  simp only [List.length_append] at hf
  have hE' : E ∨ a.Placed s.nodes.length := by simpa only [Elems.Placed] using hE
  obtain ⟨d, t, hd⟩ := Atom.head (a := a)
  obtain ⟨f, rfl⟩ : ∃ f, fuel = f + 1 := ⟨fuel - 1, by rw [hd] at hf; simp at hf; omega⟩
  rw [List.append_assoc] at hp
  rw [rexElement]
  refine CPost.bind (ha f s (q.text ++ rest) hok.1 hE' hp hinv (by omega)) ?_
  rintro ⟨ret, s1⟩ ⟨x1, p1, hrep, hsz, hpl⟩
  dsimp only at x1 p1 hrep ⊢
  rw [quantifier_rep hok.2 p1 (fun _ => hst.noQuant), rbind_ok]
  dsimp only
  refine CPost.bind (wrapGreedy_rep (E := E) hok.2 x1 p1 hrep hsz hpl) ?_
  rintro ⟨i, s2⟩ ⟨x2, p2, hrep2, hsz2, hpl2⟩
  dsimp only at x2 p2 hrep2 ⊢
  have hfin : Built s rest (Elems.last a q).size (fun k => (Elems.last a q).Placed k)
      (fun nodes lo hi i => RepElems nodes (.last a q) lo hi i) (i, s2) :=
    ⟨x2, p2, by dsimp only; unfold RepElems; exact hrep2, by unfold Elems.size; exact hsz2,
      by unfold Elems.Placed; exact hpl2⟩
  rw [p2]
  rcases hst with rfl | ⟨c, t, rfl, hc⟩
  · exact hfin
  · dsimp only
    rw [if_neg (by rcases hc with rfl | rfl <;> decide)]
    exact hfin

theorem elemsC_more (a : Atom) (q : Quant) (es : Elems) (ha : AtomC E a) (hes : ElemsC E es) : ElemsC E (.more a q es) := by
  intro fuel s rest hok hE hp hst hinv hf
  unfold Elems.Ok at hok
  unfold Elems.text at hp hf
  simp only [List.length_append] at hf
  have hE1 : E ∨ a.Placed s.nodes.length := by
    unfold Elems.Placed at hE; tauto
  have hE2 : E ∨ es.Placed (s.nodes.length + a.size + q.size) := by
    unfold Elems.Placed at hE; tauto
  obtain ⟨d, t, hd⟩ := Atom.head (a := a)
  obtain ⟨d', t', hd'⟩ := Elems.head (es := es)
  have hcont := hok.2.2.2
  unfold Continues at hcont
  rw [hd', List.head?_cons] at hcont
  obtain ⟨f, rfl⟩ : ∃ f, fuel = f + 1 := ⟨fuel - 1, by rw [hd] at hf; simp at hf; omega⟩
  rw [List.append_assoc, List.append_assoc] at hp
  rw [rexElement]
  refine CPost.bind (ha f s (q.text ++ (es.text ++ rest)) hok.1 hE1 hp hinv (by omega)) ?_
  rintro ⟨ret, s1⟩ ⟨x1, p1, hrep, hsz, hpl⟩
  dsimp only at x1 p1 hrep ⊢
  have hnq : q = .once → NoQuant (es.text ++ rest) := by
    intro hq c u hu
    rw [hd'] at hu
    cases hu
    have h1 := hcont.1
    have h2 := hcont.2 hq
    intro hm
    simp at h1 h2 hm
    tauto
  rw [quantifier_rep hok.2.1 p1 hnq, rbind_ok]
  dsimp only
  refine CPost.bind (wrapGreedy_rep (E := E) hok.2.1 x1 p1 hrep hsz hpl) ?_
  rintro ⟨i, s2⟩ ⟨x2, p2, hrep2, hsz2, hpl2⟩
  dsimp only at x2 p2 hrep2 ⊢
  have hgo : ∃ c u, s2.p = c :: u ∧ (c ≠ '|' ∧ c ≠ ')' ∧ c ≠ '*' ∧ c ≠ '+') := by
    rw [p2, hd']
    refine ⟨d', _, rfl, ?_, ?_, ?_, ?_⟩ <;> rintro rfl <;> exact hcont.1 (by decide)
  obtain ⟨c, u, hcu, hc⟩ := hgo
  have hb2 := x2.bal
  have hbd := RepQ.bounds hrep2
  have hshort : s2.p.length + 1 ≤ s.p.length := by
    have : s.nodes.length + 1 ≤ s2.nodes.length := by omega
    omega
  rw [hcu]
  dsimp only
  rw [if_pos hc]
  refine CPost.bind (hes f s2 rest hok.2.2.1 (by rw [show s2.nodes.length = _ from hsz2, ← Nat.add_assoc]; exact hE2) p2 hst x2.inv
    (by rw [hd] at hf; simp only [List.length_cons] at hf; omega)) ?_
  rintro ⟨k, s3⟩ ⟨x3, p3, hrep3, hsz3, hpl3⟩
  dsimp only at x3 p3 hrep3 ⊢
  have hlen : (s3.setNext i k).nodes.length = s3.nodes.length := setNext_len _ _ _
  have hbd3 := hrep3.bounds
  have hsz2' : s2.nodes.length = s.nodes.length + (a.size + q.size) := hsz2
  have hsz3' : s3.nodes.length = s2.nodes.length + es.size := hsz3
  refine ⟨⟨x3.inv.setNext _ _, fun j hj => ?_, ?_, ?_⟩, p3, ?_, by dsimp only; rw [hlen, hsz3', hsz2']; rw [Elems.size]; omega,
    by unfold Elems.Placed; exact ⟨hpl, by rw [Nat.add_assoc, ← hsz2']; exact hpl3⟩⟩
  · dsimp only
    rw [setNext_ne (by omega), x3.pre j (by omega), x2.pre j hj]
  · dsimp only; rw [hlen]; omega
  · show _ + s3.p.length ≤ _
    have := x3.bal
    rw [hlen]; omega
  · dsimp only
    unfold RepElems
    rw [hlen]
    refine ⟨s2.nodes.length, k, by omega, by omega, ?_, ?_⟩
    · refine hrep2.setNext (fun j h1 h2 h3 => ?_) fun n hn => ?_
      · rw [setNext_ne (fun h => h3 h.symm), x3.pre j h2]
      · refine setNext_self ?_ _
        rw [x3.pre _ (by omega)]; exact hn
    · exact RepElems.frame es (fun j h1 h2 => setNext_ne (by omega) _) hrep3

theorem listHead_rep (es : Elems) (hes : ElemsC E es) (bol : Bool) (fuel : Nat) (s : RState) (rest : CStr) (hok : es.Ok)
    (hst0 : Opens bol es.text) (hE : E ∨ es.Placed (s.nodes.length + bol.toNat))
    (hp : s.p = (if bol then cs "^" else []) ++ es.text ++ rest) (hst : Stops rest) (hinv : RInv s) (hf : es.text.length ≤ fuel) :
    CPost E (Built s rest (bol.toNat + es.size) (fun k => es.Placed (k + bol.toNat)) fun nodes lo hi i => RepBranch nodes (RepElems nodes es) bol lo hi i) (listHead (rexElement fuel) s) := by
  cases bol with
  | false =>
    obtain ⟨d, t, hd⟩ := Elems.head (es := es)
    have hp' : s.p = es.text ++ rest := by rw [hp]; rfl
    have he : listHead (rexElement fuel) s = rexElement fuel s := by
      unfold listHead
      split
      · rename_i h
        rw [hp', hd] at h
        cases h
        rcases hst0 with h | h
        · cases h
        · exact absurd (by rw [hd]; rfl) h
      · rfl
    rw [he]
    refine (hes fuel s rest hok hE hp' hst hinv hf).mono fun r hr => ?_
    refine ⟨hr.ext, hr.p, ?_, by rw [hr.cnt]; simp, hr.placed⟩
    unfold RepBranch
    rw [if_neg (by simp)]
    exact hr.rep
  | true =>
    have hp' : s.p = '^' :: (es.text ++ rest) := by rw [hp]; rfl
    obtain ⟨s1, e1, x1, p1, n1⟩ := newnode_made .bol hinv (p := es.text ++ rest) (by rw [hp']; simp)
    rw [if_neg (by simp)] at n1
    have hb1 := x1.bal
    have hl1 : s1.nodes.length = s.nodes.length + 1 := by rw [n1]; simp
    have he : listHead (rexElement fuel) s = (do
        let (e, s') ← rexElement fuel s1
        .ok (s.nodes.length, s'.setNext s.nodes.length e)) := by
      unfold listHead
      rw [hp']
      show (newnode .bol _ >>= _) = _
      rw [e1, rbind_ok]
    rw [he]
    refine CPost.bind (hes fuel s1 rest hok (by rw [hl1]; exact hE) p1 hst x1.inv (by omega)) ?_
    rintro ⟨k, s2⟩ ⟨x2, p2, hrep, hsz, hpl⟩
    dsimp only at x2 p2 hrep ⊢
    have hb2 := x2.bal
    have hle := x2.len
    have hlen : (s2.setNext s.nodes.length k).nodes.length = s2.nodes.length := setNext_len _ _ _
    have hn2 : s2.nodes[s.nodes.length]? = some { type := .bol } := by
      rw [x2.pre _ (by omega), n1]; simp
    refine ⟨⟨x2.inv.setNext _ _, fun j hj => ?_, by dsimp only; rw [hlen]; omega, ?_⟩, p2, ?_,
      by dsimp only at hsz ⊢; rw [hlen, hsz, hl1]; simp; omega, by rw [hl1] at hpl; exact hpl⟩
    · dsimp only
      rw [setNext_ne (by omega), x2.pre j (by omega), x1.pre j hj]
    · show _ + s2.p.length ≤ _
      rw [hlen]; omega
    · dsimp only
      unfold RepBranch
      rw [if_pos rfl, hlen]
      refine ⟨rfl, by omega, _, setNext_self hn2 _, rfl, k, rfl, ?_⟩
      rw [hl1] at hrep
      exact RepElems.frame es (fun j h1 h2 => setNext_ne (by omega) _) hrep

theorem reC_branch (bol : Bool) (es : Elems) (hes : ElemsC E es) : ReC E (.branch bol es) := by
  intro fuel s rest hok hE hp hcl hinv hf
  unfold Re.Ok at hok
  unfold Re.text at hp hf
  simp only [List.length_append] at hf
  have hE' : E ∨ es.Placed (s.nodes.length + bol.toNat) := by simpa only [Re.Placed] using hE
  obtain ⟨f, rfl⟩ : ∃ f, fuel = f + 1 := ⟨fuel - 1, by omega⟩
  have hst : Stops rest := by
    rcases hcl with rfl | ⟨t, rfl⟩
    · exact Or.inl rfl
    · exact Or.inr ⟨_, _, rfl, Or.inr rfl⟩
  rw [rexList]
  refine CPost.bind (listHead_rep (E := E) es hes bol f s rest hok.1 hok.2 hE' hp hst hinv (by omega)) ?_
  rintro ⟨i, s1⟩ ⟨x1, p1, hrep, hsz, hpl⟩
  dsimp only at x1 p1 hrep ⊢
  have hfin : Built s rest (Re.branch bol es).size (fun k => (Re.branch bol es).Placed k)
      (fun nodes lo hi i => RepRe nodes (.branch bol es) lo hi i) (i, s1) :=
    ⟨x1, p1, by dsimp only; unfold RepRe; exact hrep, by unfold Re.size; exact hsz, by unfold Re.Placed; exact hpl⟩
  rw [p1]
  rcases hcl with rfl | ⟨t, rfl⟩
  · exact hfin
  · exact hfin

theorem reC_alt (bol : Bool) (es : Elems) (r : Re) (hes : ElemsC E es) (hr : ReC E r) : ReC E (.alt bol es r) := by
  intro fuel s rest hok hE hp hcl hinv hf
  unfold Re.Ok at hok
  unfold Re.text at hp hf
  simp only [List.length_append, List.length_cons] at hf
  have hE1 : E ∨ es.Placed (s.nodes.length + bol.toNat) := by unfold Re.Placed at hE; tauto
  have hE2 : E ∨ r.Placed (s.nodes.length + bol.toNat + es.size + 1) := by unfold Re.Placed at hE; tauto
  obtain ⟨f, rfl⟩ : ∃ f, fuel = f + 1 := ⟨fuel - 1, by omega⟩
  rw [List.append_assoc, List.cons_append] at hp
  rw [rexList]
  refine CPost.bind (listHead_rep (E := E) es hes bol f s ('|' :: (r.text ++ rest)) hok.1 hok.2.2 hE1 hp
    (Or.inr ⟨_, _, rfl, Or.inl rfl⟩) hinv (by omega)) ?_
  rintro ⟨k1, s1⟩ ⟨x1, p1, hrep, hsz, hpl⟩
  dsimp only at x1 p1 hrep ⊢
  rw [p1]
  obtain ⟨s2, e2, x2, p2, n2⟩ := newnode_made .or x1.inv (p := r.text ++ rest) (by rw [p1]; simp)
  rw [if_neg (by simp)] at n2
  show CPost E _ (newnode .or _ >>= _)
  rw [e2, rbind_ok]
  dsimp only
  have hb1 := x1.bal
  have hb2 := x2.bal
  have hl2 : s2.nodes.length = s1.nodes.length + 1 := by rw [n2]; simp
  have hbd := RepBranch.bounds hrep
  have hn2 : s2.nodes[s1.nodes.length]? = some { type := .or } := by rw [n2]; simp
  have hp2' : (s2.setLeft s1.nodes.length k1).p = r.text ++ rest := p2
  have hl2' : (s2.setLeft s1.nodes.length k1).nodes.length = s1.nodes.length + 1 := by rw [setLeft_len, hl2]
  have hpp : (s2.setLeft s1.nodes.length k1).p.length = s2.p.length := rfl
  have hsz' : s1.nodes.length = s.nodes.length + (bol.toNat + es.size) := hsz
  refine CPost.bind (hr f (s2.setLeft s1.nodes.length k1) rest hok.2.1
    (by rw [hl2', hsz', ← Nat.add_assoc]; exact hE2) hp2' hcl (x2.inv.setLeft _ _) (by omega)) ?_
  rintro ⟨k2, s3⟩ ⟨x3, p3, hrep3, hsz3, hpl3⟩
  dsimp only at x3 p3 hrep3 ⊢
  have hle3 := x3.len
  have hb3 := x3.bal
  have hlen : (s3.setRight s1.nodes.length k2).nodes.length = s3.nodes.length := setRight_len _ _ _
  have hkeep : ∀ j, j < s1.nodes.length → (s3.setRight s1.nodes.length k2).nodes[j]? = s1.nodes[j]? := fun j hj => by
    rw [setRight_ne (by omega), x3.pre j (by omega), setLeft_ne (by omega), x2.pre j hj]
  have hsz3' : s3.nodes.length = s1.nodes.length + 1 + r.size := by rw [← hl2']; exact hsz3
  rw [hl2', hsz', ← Nat.add_assoc] at hpl3
  refine ⟨⟨x3.inv.setRight _ _, fun j hj => ?_, by dsimp only; rw [hlen]; omega, ?_⟩, p3, ?_,
    by dsimp only; rw [hlen, hsz3', hsz']; rw [Re.size]; omega, by unfold Re.Placed; exact ⟨hpl, hpl3⟩⟩
  · dsimp only
    rw [hkeep j (by omega), x1.pre j hj]
  · show _ + s3.p.length ≤ _
    rw [hlen]; omega
  · dsimp only
    unfold RepRe
    rw [hlen]
    have hn3 : s3.nodes[s1.nodes.length]? = some { type := .or, left := (k1 : Int) } := by
      rw [x3.pre _ (by omega)]; exact setLeft_self hn2 _
    refine ⟨_, setRight_self hn3 _, rfl, rfl, by omega, by omega, k1, k2, rfl, rfl, ?_, ?_⟩
    · exact hrep.frame (fun j h1 h2 => hkeep j h2)
        fun lo' h' i x => RepElems.frame es (fun j h1 h2 => hkeep j h2) x
    · rw [hl2'] at hrep3
      exact RepRe.frame r (fun j h1 h2 => setRight_ne (by omega) _) hrep3

end

mutual
theorem rexAtom_rep (E : Prop) : ∀ a : Atom, AtomC E a
  | .chr l => atomC_chr l
  | .cls l => atomC_cls l
  | .any => atomC_any
  | .eol => atomC_eol
  | .edge neg => atomC_edge neg
  | .set neg x xs => atomC_set neg x xs
  | .group capture r => atomC_group capture r (rexList_rep E r)
theorem rexElement_rep (E : Prop) : ∀ es : Elems, ElemsC E es
  | .last a q => elemsC_last a q (rexAtom_rep E a)
  | .more a q es => elemsC_more a q es (rexAtom_rep E a) (rexElement_rep E es)
theorem rexList_rep (E : Prop) : ∀ r : Re, ReC E r
  | .branch bol es => reC_branch bol es (rexElement_rep E es)
  | .alt bol es r => reC_alt bol es r (rexElement_rep E es) (rexList_rep E r)
end

theorem rexCompile_rep {E : Prop} {r : Re} (hok : r.Ok)
    (hE : E ∨ r.Compiles) :
    (E ∧ rexCompile r.text = .ok none) ∨ r.Compiles ∧
    ∃ (nodes : List RNode) (n : RNode) (k : Nat), rexCompile r.text = .ok (some nodes) ∧ nodes[0]? = some n ∧ n.type = .expr ∧ n.left = k ∧ n.next = -1 ∧
      RepRe nodes r 1 nodes.length k := by
  obtain ⟨d, t, hd⟩ := Re.head (r := r)
  have hs : RInv ⟨r.text, [], r.text.length, 0⟩ := ⟨Nat.zero_le _, by rw [hd]; simp⟩
  obtain ⟨s1, e1, i1, p1, n1⟩ := newnode_eq .expr hs
  simp only [List.length_nil, List.nil_append, if_true] at e1 p1 n1
  have hl1 : s1.nodes.length = 1 := by rw [n1]; rfl
  have hlist := rexList_rep E r (2 * r.text.length + 2) s1 [] hok
    (by rw [hl1]; exact hE) (by rw [p1]; simp) (Or.inl rfl) i1 (by omega)
  unfold rexCompile
  dsimp only
  rw [e1, rbind_ok]
  dsimp only
  generalize rexList (2 * r.text.length + 2) s1 = x at hlist
  cases x with
  | error e =>
    cases e with
    | bad w => exact Or.inl ⟨hlist, rfl⟩
    | fault f => exact absurd hlist id
  | ok a =>
    obtain ⟨k, s2⟩ := a
    obtain ⟨x2, p2, hrep, -, hpl⟩ := hlist
    dsimp only at x2 p2 hrep
    rw [rbind_ok]
    dsimp only
    have hp3 : (s2.setLeft 0 (k : Nat)).p = [] := p2
    rw [hp3, if_neg (by simp)]
    refine Or.inr ⟨by rw [hl1] at hpl; exact hpl, ?_⟩
    have h0 : s2.nodes[0]? = some { type := .expr, right := 0 } := by
      rw [x2.pre 0 (by omega), n1]; rfl
    refine ⟨_, _, k, rfl, setLeft_self h0 _, rfl, rfl, rfl, ?_⟩
    rw [setLeft_len]
    rw [hl1] at hrep
    exact RepRe.frame r (fun j h1 h2 => setLeft_ne (by omega) _) hrep

end Argtable
