import Verif.Spec.Rex
import Verif.Spec.Scan
import Verif.Proofs.Live
import Verif.Proofs.Date
/-!
# Literal patterns (C32) and arg_rex entries
-/

namespace Argtable

open Spec

/-- The nodes of a literal, from index `n` on. -/
def lits (n : Nat) : CStr → List RNode
  | [] => []
  | c :: w => { type := .char c, next := if w = [] then -1 else (n : Int) + 1 } :: lits (n + 1) w

theorem quantifier_none {s : RState} (h : ∀ c p, s.p = c :: p → c ∉ ['*', '+', '?', '{']) :
    quantifier s = .ok (none, s) := by
  unfold quantifier
  split
  · rename_i p hp; exact absurd (by simp) (h _ _ hp)
  · rename_i p hp; exact absurd (by simp) (h _ _ hp)
  · rename_i p hp; exact absurd (by simp) (h _ _ hp)
  · rename_i p hp; exact absurd (by simp) (h _ _ hp)
  · rfl

theorem ordinary_ne {c : Char} (h : Ordinary c) {d : Char} (hd : d ∈ cs "\\^$.[(|)*+?{") : c ≠ d := by
  rintro rfl; exact h.2.2 hd

theorem charnode_plain {c : Char} {p : CStr} {s : RState} (hp : s.p = c :: p) (hc : Ordinary c) (b : Bool) :
    charnode b s = newnode (.char c) { s with p := p } := by
  have hpr : isPrint c = true := by
    unfold isPrint
    rw [Bool.and_eq_true, decide_eq_true_iff, decide_eq_true_iff]
    exact ⟨hc.1, hc.2.1⟩
  have hbs : c ≠ '\\' := ordinary_ne hc (by decide)
  unfold charnode
  rw [hp]
  split
  · rename_i h; cases h
  · rename_i h; cases h; exact absurd rfl hbs
  · rename_i h; cases h; exact absurd rfl hbs
  · rename_i h; cases h
    rw [if_pos hpr]

theorem rexAtom_plain {list : RState → RM (Nat × RState)} {c : Char} {p : CStr} {s : RState} (hp : s.p = c :: p)
    (hc : Ordinary c) : rexAtom list s = newnode (.char c) { s with p := p } := by
  unfold rexAtom
  split
  · rename_i h; rw [hp] at h; cases h; exact absurd rfl (ordinary_ne hc (by decide))
  · rename_i h; rw [hp] at h; cases h; exact absurd rfl (ordinary_ne hc (by decide))
  · rename_i h; rw [hp] at h; cases h; exact absurd rfl (ordinary_ne hc (by decide))
  · rename_i h; rw [hp] at h; cases h; exact absurd rfl (ordinary_ne hc (by decide))
  · exact charnode_plain hp hc false

theorem rbind_ok {α β : Type} (a : α) (f : α → RM β) : ((Except.ok a : RM α) >>= f) = f a := rfl

theorem rexElement_lit : ∀ (w : CStr) (s : RState) (fuel : Nat), s.p = w → w ≠ [] → (∀ c ∈ w, Ordinary c) →
    w.length ≤ fuel → RInv s →
    ∃ s', rexElement fuel s = .ok (s.nodes.length, s') ∧ s'.p = [] ∧
      s'.nodes = s.nodes ++ lits s.nodes.length w := by
  intro w
  induction w with
  | nil => intro s fuel _ h; exact absurd rfl h
  | cons c w ih =>
    intro s fuel hp _ hord hf hinv
    obtain ⟨f, rfl⟩ : ∃ f, fuel = f + 1 := ⟨fuel - 1, by simp at hf; omega⟩
    have hc := hord c (by simp)
    obtain ⟨s1, e1, i1, p1, n1⟩ := newnode_eq (.char c) (s := { s with p := w }) ⟨hinv.len, hinv.pos⟩
    rw [if_neg (by simp)] at n1
    dsimp only at e1 p1 n1
    have hq : quantifier s1 = .ok (none, s1) := quantifier_none fun d p hd => by
      rw [p1] at hd
      have := hord d (by rw [hd]; simp)
      intro hm
      exact this.2.2 (by
        simp only [List.mem_cons, List.not_mem_nil, or_false] at hm
        rcases hm with rfl | rfl | rfl | rfl <;> decide)
    rw [rexElement, rexAtom_plain hp hc, e1, rbind_ok]
    dsimp only
    rw [hq, rbind_ok]
    dsimp only
    rw [wrapGreedy, rbind_ok]
    dsimp only
    rw [p1]
    cases w with
    | nil =>
      refine ⟨s1, rfl, by rw [p1], ?_⟩
      rw [n1]
      rfl
    | cons d w =>
      have hd := hord d (by simp)
      dsimp only
      rw [if_pos ⟨ordinary_ne hd (by decide), ordinary_ne hd (by decide), ordinary_ne hd (by decide), ordinary_ne hd (by decide)⟩]
      obtain ⟨s2, e2, p2, n2⟩ := ih s1 f p1 (by simp) (fun c' hc' => hord c' (List.mem_cons_of_mem _ hc')) (by simp at hf ⊢; omega) i1
      rw [e2, rbind_ok]
      refine ⟨_, rfl, p2, ?_⟩
      dsimp only [RState.setNext]
      have hl1 : s1.nodes.length = s.nodes.length + 1 := by rw [n1]; simp
      rw [n2, hl1, n1, List.append_assoc]
      apply List.ext_getElem?
      intro k
      rw [List.getElem?_modify]
      by_cases h1 : k < s.nodes.length
      · rw [List.getElem?_append_left h1, List.getElem?_append_left h1, List.getElem?_eq_getElem h1]
        simp only [Option.map_eq_map, Option.map_some]
        rw [if_neg (by omega)]
      · obtain ⟨k, rfl⟩ : ∃ j, k = s.nodes.length + j := ⟨k - s.nodes.length, by omega⟩
        rw [List.getElem?_append_right (by omega)]
        conv_rhs => rw [List.getElem?_append_right (by omega)]
        rw [Nat.add_sub_cancel_left]
        cases k with
        | zero => simp [lits]
        | succ k =>
          have : (fun a : RNode => if s.nodes.length = s.nodes.length + (k + 1) then
              { type := a.type, left := a.left, right := a.right, next := ((s.nodes.length + 1 : Nat) : Int) }
              else a) = id := by funext a; rw [if_neg (by omega)]; rfl
          rw [this]
          simp [lits]

theorem rexCompile_lit {pat : CStr} (hne : pat ≠ []) (hord : ∀ c ∈ pat, Ordinary c) :
    rexCompile pat = .ok (some ({ type := .expr, left := 1, right := 0 } :: lits 1 pat)) := by
  have hs : RInv ⟨pat, [], pat.length, 0⟩ := ⟨Nat.zero_le _, List.length_pos_of_ne_nil hne⟩
  obtain ⟨s1, e1, i1, p1, n1⟩ := newnode_eq .expr hs
  simp only [List.length_nil, List.nil_append, if_true] at e1 p1 n1
  obtain ⟨c, w, hcw⟩ : ∃ c w, pat = c :: w := by
    cases pat with
    | nil => exact absurd rfl hne
    | cons c w => exact ⟨c, w, rfl⟩
  have hl1 : s1.nodes.length = 1 := by rw [n1]; rfl
  obtain ⟨s2, e2, p2, n2⟩ := rexElement_lit pat s1 (2 * pat.length + 1) p1 hne hord (by omega) i1
  rw [hl1] at e2 n2
  have hhead : listHead (rexElement (2 * pat.length + 1)) s1 = rexElement (2 * pat.length + 1) s1 := by
    unfold listHead
    split
    · rename_i h
      rw [p1, hcw] at h
      cases h
      exact absurd rfl (ordinary_ne (hord '^' (by rw [hcw]; simp)) (by decide))
    · rfl
  have hlist : rexList (2 * pat.length + 2) s1 = .ok (1, s2) := by
    rw [rexList, hhead, e2, rbind_ok]
    dsimp only
    rw [p2]
  unfold rexCompile
  dsimp only
  rw [e1, rbind_ok]
  dsimp only
  rw [hlist, rbind_ok]
  dsimp only
  have hp3 : (s2.setLeft 0 (1 : Nat)).p = [] := p2
  rw [hp3, if_neg (by simp)]
  dsimp only [RState.setLeft]
  rw [n2, n1]
  rfl

/-! ### matching -/

theorem lits_get : ∀ (w : CStr) (n k : Nat), (lits n w)[k]? = (w[k]?).map fun c =>
    { type := .char c, next := if k + 1 = w.length then -1 else ((n + k : Nat) : Int) + 1 } := by
  intro w
  induction w with
  | nil => intro n k; simp [lits]
  | cons c w ih =>
    intro n k
    cases k with
    | zero =>
      simp only [lits, List.getElem?_cons_zero, Option.map_some, Nat.zero_add, List.length_cons, Nat.add_zero]
      cases w with
      | nil => rfl
      | cons d w => simp
    | succ k =>
      rw [lits, List.getElem?_cons_succ, ih (n + 1) k, List.getElem?_cons_succ]
      congr 1
      funext d
      simp only [List.length_cons]
      have e1 : (n + 1 + k : Nat) = n + (k + 1) := by omega
      rw [e1]
      by_cases h : k + 1 = w.length
      · rw [if_pos h, if_pos (by omega)]
      · rw [if_neg h, if_neg (by omega)]

/-- One character. -/
def SameChar (icase : Bool) (c d : Char) : Prop := if icase then c = toLower d ∨ c = toUpper d else c = d

instance (icase : Bool) (c d : Char) : Decidable (SameChar icase c d) := by unfold SameChar; infer_instance

theorem matchnode_char {nodes : List RNode} {ic : Bool} {text : CStr} {fuel i str : Nat} {d : Char} {x : Option Int}
    {n : RNode} (hn : nodes[i]? = some n) (ht : n.type = .char d) (hd : 0 < d.toNat ∧ d.toNat < 128)
    (hs : str ≤ text.length) :
    matchnode nodes ic text (fuel + 1) i str x = .ok (match text[str]? with
      | some c => if SameChar ic c d then some (str + 1) else none
      | none => none) := by
  rw [matchnode, nodeAt_eq hn, bind_ok, ht]
  dsimp only
  have htext : textAt text str = .ok (text.getD str '\x00') := by
    unfold textAt
    split
    · rfl
    · rename_i h
      rw [if_pos (by omega)]
      have : text[str]? = none := List.getElem?_eq_none (by omega)
      rw [List.getD_eq_getElem?_getD, this]; rfl
  rw [htext, bind_ok]
  have hcr := case_range hd
  cases hc : text[str]? with
  | none =>
    rw [List.getD_eq_getElem?_getD, hc]
    dsimp only [Option.getD]
    cases ic with
    | true =>
      rw [if_pos rfl, if_pos ⟨ne_nul hcr.1.1, ne_nul hcr.2.1⟩]
    | false =>
      rw [if_neg (by simp), if_pos (ne_nul hd.1)]
  | some c =>
    rw [List.getD_eq_getElem?_getD, hc]
    dsimp only [Option.getD]
    cases ic with
    | true =>
      have hiff : SameChar true c d ↔ (c = toLower d ∨ c = toUpper d) := Iff.rfl
      rw [if_pos rfl]
      by_cases h : c = toLower d ∨ c = toUpper d
      · rw [if_pos (hiff.2 h), if_neg (by tauto)]
      · rw [if_neg (fun h' => h (hiff.1 h')), if_pos (by tauto)]
    | false =>
      have hiff : SameChar false c d ↔ c = d := Iff.rfl
      rw [if_neg (by simp)]
      by_cases h : c = d
      · rw [if_pos (hiff.2 h), if_neg (by tauto)]
      · rw [if_neg (fun h' => h (hiff.1 h')), if_pos h]

theorem exprChain_lit {nodes : List RNode} {m : Matcher} {x : Option Int} {text pat : CStr} {ic : Bool} {b : Nat}
    (hget : ∀ k, nodes[b + k]? = (lits b pat)[k]?)
    (hm : ∀ k d y str, pat[k]? = some d → str ≤ text.length → m ((b + k : Nat) : Int) str y = .ok (match text[str]? with
      | some c => if SameChar ic c d then some (str + 1) else none
      | none => none)) :
    ∀ (w : CStr) (k fuel str : Nat), w ≠ [] → pat.drop k = w → w.length ≤ fuel → str ≤ text.length →
      (exprChain nodes m x fuel ((b + k : Nat) : Int) str = .ok (some (str + w.length)) ∧
        List.Forall₂ (SameChar ic) ((text.drop str).take w.length) w ∧ str + w.length ≤ text.length) ∨
      (exprChain nodes m x fuel ((b + k : Nat) : Int) str = .ok none ∧
        ¬ List.Forall₂ (SameChar ic) ((text.drop str).take w.length) w) := by
  intro w
  induction w with
  | nil => intro k fuel str h; exact absurd rfl h
  | cons d w ih =>
    intro k fuel str _ hdrop hf hs
    obtain ⟨f, rfl⟩ : ∃ f, fuel = f + 1 := ⟨fuel - 1, by simp at hf; omega⟩
    have hk : pat[k]? = some d := by
      have := congrArg List.head? hdrop
      rw [List.head?_drop] at this
      exact this
    have hdrop2 : pat.drop (k + 1) = w := by
      have := congrArg List.tail hdrop
      rw [List.tail_drop] at this
      exact this
    have hlen : k + 1 + w.length = pat.length := by
      have := congrArg List.length hdrop
      rw [List.length_drop, List.length_cons] at this
      omega
    have hn := hget k
    rw [lits_get, hk, Option.map_some] at hn
    rw [exprChain, nodeAt_eq hn, bind_ok]
    dsimp only
    rw [hm k d _ str hk hs, bind_ok]
    cases hc : text[str]? with
    | none =>
      right
      refine ⟨rfl, fun h => ?_⟩
      rw [List.getElem?_eq_none_iff] at hc
      rw [List.drop_eq_nil_of_le hc, List.take_nil] at h
      cases h
    | some c =>
      have hlt : str < text.length := (List.getElem?_eq_some_iff.1 hc).1
      have hdr : text.drop str = c :: text.drop (str + 1) := by
        rw [List.drop_eq_getElem_cons hlt]
        congr 1
        exact (List.getElem?_eq_some_iff.1 hc).2
      rw [hdr, List.length_cons, List.take_succ_cons]
      by_cases hsc : SameChar ic c d
      · dsimp only
        rw [if_pos hsc]
        dsimp only
        cases w with
        | nil =>
          rw [if_neg (by rw [if_pos (by simpa using hlen)]; simp)]
          left
          exact ⟨rfl, by simp [hsc], hlt⟩
        | cons e w =>
          rw [if_neg (c := k + 1 = pat.length) (by simp at hlen; omega)]
          rw [if_pos (by omega)]
          have e1 : ((b + k : Nat) : Int) + 1 = ((b + (k + 1) : Nat) : Int) := by omega
          rw [e1]
          have := ih (k + 1) f (str + 1) (by simp) hdrop2 (by simp at hf ⊢; omega) (by omega)
          have e2 : str + 1 + (e :: w).length = str + ((e :: w).length + 1) := by omega
          rw [e2] at this
          rcases this with ⟨a1, a2, a3⟩ | ⟨a1, a2⟩
          · exact Or.inl ⟨a1, .cons hsc a2, a3⟩
          · right
            refine ⟨a1, fun h => a2 ?_⟩
            cases h with
            | cons _ h => exact h
      · dsimp only
        rw [if_neg hsc]
        right
        refine ⟨rfl, fun h => ?_⟩
        cases h with
        | cons h _ => exact hsc h

theorem lits_length (w : CStr) : ∀ n, (lits n w).length = w.length := by
  induction w with
  | nil => intro n; rfl
  | cons c w ih => intro n; simp [lits, ih]

theorem lower_iff {c d : Char} (h1 : 32 ≤ d.toNat) (h2 : d.toNat ≤ 126) :
    (c = toLower d ∨ c = toUpper d) ↔ toLower c = toLower d := by
  by_cases hc : c.toNat < 128
  · have key : ∀ n m : Fin 128, (Char.ofNat n.val = toLower (Char.ofNat m.val) ∨
        Char.ofNat n.val = toUpper (Char.ofNat m.val)) ↔
        toLower (Char.ofNat n.val) = toLower (Char.ofNat m.val) := by decide +kernel
    have := key ⟨c.toNat, hc⟩ ⟨d.toNat, by omega⟩
    simpa only [Char.ofNat_toNat] using this
  · have hl : toLower c = c := by
      unfold toLower
      rw [if_neg]
      rw [Bool.and_eq_true, decide_eq_true_iff, decide_eq_true_iff]
      rintro ⟨_, h⟩
      have : c.toNat ≤ 90 := h
      omega
    rw [hl]
    have hr := case_range (d := d) ⟨by omega, by omega⟩
    constructor
    · rintro (rfl | rfl)
      · rfl
      · exact absurd hr.2.2 hc
    · rintro rfl; exact Or.inl rfl

theorem sameChar_iff (ic : Bool) {c d : Char} (hd : Ordinary d) : SameChar ic c d ↔
    if ic then toLower c = toLower d else c = d := by
  unfold SameChar
  cases ic with
  | false => simp
  | true => exact lower_iff hd.1 hd.2.1

theorem forall2_same (ic : Bool) : ∀ {a w : CStr}, (∀ c ∈ w, Ordinary c) →
    (List.Forall₂ (SameChar ic) a w ↔ SameUpTo ic a w) := by
  intro a w
  induction w generalizing a with
  | nil => intro _; unfold SameUpTo SameText; cases ic <;> simp
  | cons d w ih =>
    intro hord
    have hd := sameChar_iff ic (c := d) (hord d (by simp))
    have ih := fun a => ih (a := a) fun c hc => hord c (by simp [hc])
    cases a with
    | nil => unfold SameUpTo SameText; cases ic <;> simp
    | cons c a =>
      rw [List.forall₂_cons, ih, sameChar_iff ic (hord d (by simp))]
      unfold SameUpTo SameText
      cases ic <;> simp

theorem rexMatch_lit {pat : CStr} (hne : pat ≠ []) (hord : ∀ c ∈ pat, Ordinary c) (ic : Bool) (text : CStr) :
    ∃ b, rexMatch ({ type := .expr, left := 1, right := 0 } :: lits 1 pat) ic text = .ok b ∧
      (b = true ↔ SameUpTo ic text pat) := by
  have hlen : ({ type := .expr, left := 1, right := 0 } :: lits 1 pat : List RNode).length = pat.length + 1 := by
    simp [lits_length]
  obtain ⟨nodes, hnodes⟩ : ∃ ns, ns = ({ type := .expr, left := 1, right := 0 } :: lits 1 pat : List RNode) := ⟨_, rfl⟩
  rw [← hnodes] at hlen ⊢
  have hget : ∀ k, nodes[1 + k]? = (lits 1 pat)[k]? := fun k => by
    rw [hnodes, Nat.add_comm, List.getElem?_cons_succ]
  obtain ⟨f, hf⟩ : ∃ f, (nodes.length + 1) * (nodes.length + 1) = f + 1 + 1 :=
    ⟨(nodes.length + 1) * (nodes.length + 1) - 2, by rw [hlen]; rw [Nat.add_mul, Nat.mul_add]; omega⟩
  have hch := exprChain_lit (x := none) (text := text) (ic := ic) hget
    (m := matchnode nodes ic text (f + 1)) (fun k d y str hk hs => by
      have hn := hget k
      rw [lits_get, hk, Option.map_some] at hn
      have hd := hord d (List.mem_of_getElem? hk)
      exact matchnode_char hn rfl ⟨by have := hd.1; omega, by have := hd.2.1; omega⟩ hs)
    pat 0 (nodes.length + 1) 0 hne rfl (by omega) (Nat.zero_le _)
  have h0 : nodes[0]? = some { type := .expr, left := 1, right := 0 } := by rw [hnodes]; rfl
  have hm : matchnode nodes ic text (f + 1 + 1) 0 0 none =
      exprChain nodes (matchnode nodes ic text (f + 1)) none (nodes.length + 1) ((1 + 0 : Nat) : Int) 0 := by
    rw [matchnode]
    have := nodeAt_eq h0
    rw [Int.ofNat_zero] at this
    rw [this, bind_ok]
    rfl
  unfold rexMatch
  rw [hf, hm]
  rw [List.drop_zero] at hch
  rw [Nat.zero_add] at hch
  rcases hch with ⟨e, h1, h2⟩ | ⟨e, h1⟩
  · rw [e, bind_ok]
    refine ⟨_, rfl, ?_⟩
    rw [decide_eq_true_iff, Option.some.injEq]
    constructor
    · intro he
      rw [he, List.take_length] at h1
      exact (forall2_same ic hord).1 h1
    · intro hs
      have := ((forall2_same ic hord).2 hs).length_eq
      omega
  · rw [e, bind_ok]
    refine ⟨_, rfl, ?_⟩
    rw [decide_eq_true_iff]
    constructor
    · intro h; cases h
    · intro hs
      have h2 := (forall2_same ic hord).2 hs
      have := h2.length_eq
      rw [← this, List.take_length] at h1
      exact absurd h2 h1

/-! ### entries -/

section
variable {δ : Type}

theorem give_rex {pat : CStr} {ic : Bool} {h : Hdr (Obj δ)} {o : StrObj} (hd : RexEntry pat ic h o) :
    (o.sval.length : Int) = h.maxcount ∧ (o.count : Int) ≤ h.maxcount ∧ h.parent = .rex o ∧
    ∀ q a, give { h with parent := .rex q } a = (do
      let (o, e) ← rexScan pat ic h.maxcount q a
      .ok (.rex o, e)) := by
  cases hd with
  | mk so lo fm dt mn mx ic gl h ov o hh hc hlen =>
    obtain ⟨hm, -, -, -, -, -, -, -, -, -, hs, -⟩ := argRexn_inv hh
    refine ⟨hlen, hc, rfl, fun q a => ?_⟩
    unfold give
    dsimp only
    rw [hs, hm]

theorem give_rex' {pat : CStr} {ic : Bool} {h : Hdr (Obj δ)} {o : StrObj} (hd : RexEntry pat ic h o) (a : Option CStr) :
    give h a = (do
      let (o, e) ← rexScan pat ic h.maxcount o a
      .ok (.rex o, e)) := by
  obtain ⟨-, -, hp, hg⟩ := give_rex hd
  rw [← hg, ← hp]

theorem rexEntry_compiled {pat : CStr} {ic : Bool} {h : Hdr (Obj δ)} {o : StrObj} (hd : RexEntry pat ic h o) :
    ∃ r, rexCompile pat = .ok r := by
  cases hd with
  | mk so lo fm dt mn mx ic gl h ov o hh hc hlen =>
    obtain ⟨-, -, -, -, -, -, -, -, -, -, -, hr⟩ := argRexn_inv hh
    exact hr

theorem rexEntry_ne {pat : CStr} {ic : Bool} {h : Hdr (Obj δ)} {o : StrObj} (hd : RexEntry pat ic h o) :
    pat ≠ [] := by
  obtain ⟨r, hr⟩ := rexEntry_compiled hd
  rintro rfl
  have : rexCompile [] = .error (.ub "trex_newnode: write outside the node array") := rfl
  rw [this] at hr; cases hr

theorem rexEntry_set {pat : CStr} {ic : Bool} {h : Hdr (Obj δ)} {o q : StrObj} (hd : RexEntry pat ic h o)
    (h1 : (q.count : Int) ≤ h.maxcount) (h2 : (q.sval.length : Int) = h.maxcount) :
    RexEntry pat ic { h with parent := .rex q } q := by
  cases hd with
  | mk so lo fm dt mn mx ic gl h ov o hh hc hlen =>
    exact .mk so lo _ dt mn mx _ gl h ov q hh h1 h2

end

end Argtable
