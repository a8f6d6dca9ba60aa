import Verif.Model.RexMem
import Verif.Proofs.RegexMatch
/-!
# Captures stay inside their array and do not influence matching; `arg_rex_scanfn` releases its memory
-/

namespace Argtable

/-! ### Captures -/

/-- The captures of the nodes fit an array of `n` elements. -/
def CapsFit (nodes : List RNode) (n : Nat) : Prop :=
  ∀ x ∈ nodes, x.type = .expr → 0 ≤ x.right ∧ x.right < n

/-- `y` does what `x` does, on the side keeping the size of the array. -/
def LiftC {α : Type} (N : Nat) (x : M α) (y : M (α × MState)) : Prop :=
  match x with
  | .error e => y = .error e
  | .ok r => ∃ c : MState, y = .ok (r, c) ∧ c.caps.length = N

theorem LiftC.bind {α β : Type} {N : Nat} {x : M α} {y : M (α × MState)} {f : α → M β}
    {g : α × MState → M (β × MState)} (h : LiftC N x y)
    (hf : ∀ r c, c.caps.length = N → LiftC N (f r) (g (r, c))) : LiftC N (x >>= f) (y >>= g) := by
  cases x with
  | error e => have : y = .error e := h; rw [this]; exact (rfl : _ = _)
  | ok r => obtain ⟨c, e, hc⟩ := h; rw [e]; exact hf r c hc

/-- The same prefix that does not concern the captures. -/
theorem LiftC.pre {α β : Type} {N : Nat} {x : M α} {f : α → M β} {g : α → M (β × MState)}
    (hf : ∀ r, LiftC N (f r) (g r)) : LiftC N (x >>= f) (x >>= g) := by
  cases x with
  | error e => exact (rfl : _ = _)
  | ok r => exact hf r

theorem LiftC.ok {α : Type} {N : Nat} {r : α} {c : MState} (hc : c.caps.length = N) :
    LiftC N (.ok r) (.ok (r, c)) := ⟨c, rfl, hc⟩

def LiftM (N : Nat) (m : Matcher) (mc : MatcherC) : Prop :=
  ∀ i s nx c, c.caps.length = N → LiftC N (m i s nx) (mc i s nx c)

theorem lift_stop {N : Nat} {nodes : List RNode} {m : Matcher} {mc : MatcherC} (hm : LiftM N m mc)
    (gs next : Option Int) (s : Nat) (c : MState) (hc : c.caps.length = N) :
    LiftC N (greedyStopTest nodes m gs next s) (greedyStopTestC nodes mc gs next s c) := by
  unfold greedyStopTest greedyStopTestC
  cases gs with
  | none => exact .ok hc
  | some g =>
    refine .pre fun gn => ?_
    dsimp only
    split
    · refine .pre fun gnext => ?_
      exact .bind (hm g s gnext c hc) fun r c hc => .ok hc
    · exact .ok hc

theorem lift_greedy {N : Nat} {nodes : List RNode} {m : Matcher} {mc : MatcherC} (hm : LiftM N m mc)
    (eol p0 p1 : Nat) (left : Int) (gs next : Option Int) : ∀ (k nm s good : Nat) (c : MState), c.caps.length = N →
    LiftC N (greedyLoop nodes eol m p0 p1 left gs next k nm s good)
      (greedyLoopC nodes eol mc p0 p1 left gs next k nm s good c)
  | 0, _, _, _, _, _ => by unfold greedyLoop greedyLoopC; exact (rfl : _ = _)
  | k + 1, nm, s, good, c, hc => by
    unfold greedyLoop greedyLoopC
    split
    · refine .bind (hm left s gs c hc) fun r c hc => ?_
      cases r with
      | none => exact .ok hc
      | some s =>
        dsimp only
        refine .bind (lift_stop hm gs next s c hc) fun stop c hc => ?_
        dsimp only
        split
        · exact .ok hc
        · split
          · exact .ok hc
          · exact lift_greedy hm eol p0 p1 left gs next k _ s s c hc
    · exact .ok hc

theorem lift_or {N : Nat} {nodes : List RNode} {m : Matcher} {mc : MatcherC} (hm : LiftM N m mc) :
    ∀ (k : Nat) (temp : Int) (s : Nat) (c : MState), c.caps.length = N →
    LiftC N (orChain nodes m k temp s) (orChainC nodes mc k temp s c)
  | 0, _, _, _, _ => by unfold orChain orChainC; exact (rfl : _ = _)
  | k + 1, temp, s, c, hc => by
    unfold orChain orChainC
    refine .bind (hm temp s none c hc) fun r c hc => ?_
    cases r with
    | none => exact .ok hc
    | some s =>
      dsimp only
      refine .pre fun n => ?_
      split
      · exact lift_or hm k _ s c hc
      · exact .ok hc

theorem lift_chain {N : Nat} {nodes : List RNode} {m : Matcher} {mc : MatcherC} (hm : LiftM N m mc)
    (next : Option Int) : ∀ (k : Nat) (i : Int) (s : Nat) (c : MState), c.caps.length = N →
    LiftC N (exprChain nodes m next k i s) (exprChainC nodes mc next k i s c)
  | 0, _, _, _, _ => by unfold exprChain exprChainC; exact (rfl : _ = _)
  | k + 1, i, s, c, hc => by
    unfold exprChain exprChainC
    refine .pre fun n => ?_
    dsimp only
    refine .bind (hm i s _ c hc) fun r c hc => ?_
    cases r with
    | none => exact .ok hc
    | some s =>
      dsimp only
      split
      · exact lift_chain hm next k _ s c hc
      · exact .ok hc

theorem setCap_ok {i : Nat} {s : MState} (h : i < s.caps.length) (c : RCap) :
    ∃ s', setCap i c s = .ok s' ∧ s'.caps.length = s.caps.length ∧ s'.curr = s.curr :=
  ⟨{ s with caps := s.caps.set i c }, if_pos h, by simp, rfl⟩

theorem getCap_ok {i : Nat} {s : MState} (h : i < s.caps.length) : ∃ c, getCap i s = .ok c :=
  ⟨s.caps[i], by rw [getCap, List.getElem?_eq_getElem h]⟩

theorem lift_expr {N : Nat} {nodes : List RNode} {m : Matcher} {mc : MatcherC} (hm : LiftM N m mc) (node : RNode)
    (hn : node.type = .nocap ∨ node.type = .expr ∧ 0 ≤ node.right ∧ node.right < N)
    (next : Option Int) (str : Nat) (c : MState) (hc : c.caps.length = N) :
    LiftC N (exprChain nodes m next (nodes.length + 1) node.left str) (exprC nodes mc node next str c) := by
  unfold exprC
  by_cases hcond : node.type ≠ .nocap ∧ node.right = c.curr
  · rw [if_pos hcond]
    have hlt : c.curr < N := by
      rcases hn with h | ⟨_, _, h⟩
      · exact absurd h hcond.1
      · have := hcond.2; omega
    dsimp only
    obtain ⟨old, e1⟩ := getCap_ok (s := c) (by rw [hc]; exact hlt)
    obtain ⟨c1, e2, l2, _⟩ := setCap_ok (s := c) (by rw [hc]; exact hlt) { old with beg := some str }
    rw [e1]
    show LiftC N _ (setCap c.curr _ c >>= _)
    rw [e2]
    show LiftC N _ (exprChainC nodes mc next (nodes.length + 1) node.left str { c1 with curr := c1.curr + 1 } >>= _)
    have hch := lift_chain (nodes := nodes) hm next (nodes.length + 1) node.left str { c1 with curr := c1.curr + 1 } (by dsimp only; omega)
    revert hch
    cases exprChain nodes m next (nodes.length + 1) node.left str with
    | error e => intro h; have h : _ = _ := h; rw [h]; exact (rfl : _ = _)
    | ok r =>
      rintro ⟨c2, e3, l3⟩
      rw [e3]
      show LiftC N _ (match r with | none => _ | some cur => _)
      cases r with
      | none =>
        obtain ⟨c4, e4, l4, _⟩ := setCap_ok (s := c2) (i := c.curr) (by omega) {}
        refine ⟨c4, ?_, by omega⟩
        show (setCap c.curr {} c2 >>= _) = _
        rw [e4]; rfl
      | some cur =>
        obtain ⟨old', e5⟩ := getCap_ok (s := c2) (i := c.curr) (by omega)
        obtain ⟨c4, e4, l4, _⟩ := setCap_ok (s := c2) (i := c.curr) (by omega)
          { old' with len := (cur : Int) - (old'.beg.getD 0 : Nat) }
        refine ⟨c4, ?_, by omega⟩
        show (getCap c.curr c2 >>= _) = _
        rw [e5]
        show (setCap c.curr _ c2 >>= _) = _
        rw [e4]; rfl
  · rw [if_neg hcond]
    exact lift_chain hm next _ _ _ c hc

theorem lift_matchnode {N : Nat} {nodes : List RNode} (hn : CapsFit nodes N) (ic : Bool) (text : CStr) :
    ∀ fuel, LiftM N (matchnode nodes ic text fuel) (matchnodeC nodes ic text fuel)
  | 0 => fun i s nx c _ => by unfold matchnode matchnodeC; exact (rfl : _ = _)
  | fuel + 1 => fun i s nx c hc => by
    have hm := lift_matchnode hn ic text fuel
    unfold matchnode matchnodeC
    cases hnode : nodeAt nodes i with
    | error e => exact (rfl : _ = _)
    | ok node =>
      have hmem : node ∈ nodes := by
        unfold nodeAt at hnode
        split at hnode
        · cases hnode
        · cases hg : nodes[i.toNat]? with
          | none => rw [hg] at hnode; cases hnode
          | some n => rw [hg] at hnode; cases hnode; exact List.mem_of_getElem? hg
      rw [bind_ok, bind_ok]
      dsimp only
      cases ht : node.type with
      | greedy =>
        dsimp only
        refine .bind (lift_greedy hm _ _ _ _ _ _ _ _ _ _ c hc) fun r c hc => ?_
        dsimp only
        split <;> exact .ok hc
      | or =>
        dsimp only
        refine .bind (lift_or hm _ _ _ c hc) fun r c hc => ?_
        cases r with
        | none => exact lift_or hm _ _ _ c hc
        | some s => exact .ok hc
      | expr => exact lift_expr hm node (.inr ⟨ht, hn node hmem ht⟩) nx s c hc
      | nocap => exact lift_expr hm node (.inl ht) nx s c hc
      | wb =>
        dsimp only
        refine .pre fun b => ?_
        split <;> exact .ok hc
      | bol => exact .ok hc
      | eol => exact .ok hc
      | dot => exact .ok hc
      | ncls =>
        dsimp only
        refine .pre fun b => ?_
        exact .pre fun b => .ok hc
      | cls =>
        dsimp only
        refine .pre fun b => ?_
        exact .pre fun b => .ok hc
      | ccls =>
        dsimp only
        exact .pre fun b => .ok hc
      | range => exact .ok hc
      | char d =>
        dsimp only
        refine .pre fun ch => ?_
        split <;> exact .ok hc

/-! ### What compiling does to the captures -/

theorem hbind_ok' {ε α β : Type} {x : Except ε α} {f : α → Except ε β} {b : β} (h : (x >>= f) = .ok b) :
    ∃ a, x = .ok a ∧ f a = .ok b := by
  cases x with
  | error e => cases h
  | ok a => exact ⟨a, rfl, h⟩

/-- Nodes keep their type, and the captures of all nodes keep fitting. -/
structure KeepsCaps (s s' : RState) : Prop where
  typ : ∀ (i : Nat) (n : RNode), s.nodes[i]? = some n → ∃ n', s'.nodes[i]? = some n' ∧ n'.type = n.type
  fit : CapsFit s.nodes s.nsub → CapsFit s'.nodes s'.nsub

theorem KeepsCaps.refl (s : RState) : KeepsCaps s s := ⟨fun _ n h => ⟨n, h, rfl⟩, id⟩

theorem KeepsCaps.trans {s s1 s2 : RState} (h1 : KeepsCaps s s1) (h2 : KeepsCaps s1 s2) : KeepsCaps s s2 where
  typ := fun i n h => by
    obtain ⟨n1, e1, t1⟩ := h1.typ i n h
    obtain ⟨n2, e2, t2⟩ := h2.typ i n1 e1
    exact ⟨n2, e2, t2.trans t1⟩
  fit := fun h => h2.fit (h1.fit h)

theorem keeps_p (s : RState) (p : CStr) : KeepsCaps s { s with p := p } := ⟨fun _ n h => ⟨n, h, rfl⟩, id⟩

theorem keeps_modify (s : RState) (i : Nat) (f : RNode → RNode) (ht : ∀ n, (f n).type = n.type)
    (hr : ∀ n, s.nodes[i]? = some n → n.type = .expr → (f n).right = n.right) :
    KeepsCaps s { s with nodes := s.nodes.modify i f } where
  typ := fun j n h => by
    simp only [List.getElem?_modify, h]
    by_cases hij : i = j
    · exact ⟨f n, by simp [hij], ht n⟩
    · exact ⟨n, by simp [hij], rfl⟩
  fit := fun h x hx ht' => by
    obtain ⟨j, hj⟩ := List.mem_iff_getElem?.1 hx
    simp only [List.getElem?_modify] at hj
    cases hn : s.nodes[j]? with
    | none => rw [hn] at hj; cases hj
    | some n =>
      rw [hn] at hj
      simp only [Option.map_eq_map, Option.map_some, Option.some.injEq] at hj
      have hmem := List.mem_of_getElem? hn
      by_cases hij : i = j
      · rw [if_pos hij] at hj
        subst hj
        rw [ht] at ht'
        rw [hr n (by rw [hij]; exact hn) ht']
        exact h n hmem ht'
      · rw [if_neg hij] at hj
        subst hj
        exact h n hmem ht'

theorem keeps_left (s : RState) (i : Nat) (v : Int) : KeepsCaps s (s.setLeft i v) :=
  keeps_modify s i _ (fun _ => rfl) (fun _ _ _ => rfl)

theorem keeps_next (s : RState) (i : Nat) (v : Int) : KeepsCaps s (s.setNext i v) :=
  keeps_modify s i _ (fun _ => rfl) (fun _ _ _ => rfl)

theorem keeps_right (s : RState) (i : Nat) (v : Int) {n : RNode} (h : s.nodes[i]? = some n) (hn : n.type ≠ .expr) :
    KeepsCaps s (s.setRight i v) :=
  keeps_modify s i _ (fun _ => rfl) (fun m hm ht => by rw [h] at hm; cases hm; exact absurd ht hn)

/-- The result of a compiler function. -/
def KeepsR {α : Type} (s : RState) (x : RM (α × RState)) : Prop := ∀ a s', x = .ok (a, s') → KeepsCaps s s'

theorem KeepsR.bind {α β : Type} {s : RState} {x : RM (α × RState)} {f : α × RState → RM (β × RState)}
    (h : KeepsR s x) (hf : ∀ a s', KeepsCaps s s' → KeepsR s' (f (a, s'))) : KeepsR s (x >>= f) := by
  intro b s2 e
  cases x with
  | error e' => cases e
  | ok r => exact (h r.1 r.2 rfl).trans (hf r.1 r.2 (h r.1 r.2 rfl) b s2 e)

theorem KeepsR.step {β : Type} {s s1 : RState} {x : RM (β × RState)} (h : KeepsCaps s s1) (hx : KeepsR s1 x) :
    KeepsR s x := fun a s' e => h.trans (hx a s' e)

theorem KeepsR.ok {α : Type} {s s' : RState} {a : α} (h : KeepsCaps s s') : KeepsR s (.ok (a, s')) := by
  intro b t e; cases e; exact h

theorem KeepsR.err {α : Type} {s : RState} {e : RErr} : KeepsR (α := α) s (.error e) := by
  intro b t h; cases h

theorem newnode_out {ty : RType} {s s' : RState} {n : Nat} (h : newnode ty s = .ok (n, s')) :
    n = s.nodes.length ∧ (∃ x, s'.nodes = s.nodes ++ [x] ∧ x.type = ty) ∧ KeepsCaps s s' := by
  unfold newnode at h
  dsimp only at h
  generalize (if s.nalloc < s.nodes.length + 1 then s.nalloc * 2 else s.nalloc) = na at h
  by_cases hna : s.nodes.length < na
  · rw [if_pos hna] at h
    cases h
    refine ⟨rfl, ⟨_, rfl, rfl⟩, ⟨?_, ?_⟩⟩
    · intro i n hi
      exact ⟨n, by rw [List.getElem?_append_left (lt_of_getElem? hi)]; exact hi, rfl⟩
    · intro hf x hx ht
      rcases List.mem_append.1 hx with hx | hx
      · have := hf x hx ht
        dsimp only
        split <;> omega
      · rw [List.mem_singleton] at hx
        subst hx
        have ht : ty = .expr := ht
        simp [ht]
  · rw [if_neg hna] at h
    cases h

theorem keeps_newnode (ty : RType) (s : RState) : KeepsR s (newnode ty s) := fun _ _ h => (newnode_out h).2.2

theorem newnode_at {ty : RType} {s s' : RState} {n : Nat} (h : newnode ty s = .ok (n, s')) :
    ∃ x, s'.nodes[n]? = some x ∧ x.type = ty := by
  obtain ⟨h1, ⟨x, h2, h3⟩, _⟩ := newnode_out h
  exact ⟨x, by rw [h2, h1]; simp, h3⟩

theorem keeps_charclass (c : Char) (s : RState) : KeepsR s (rexCharclass c s) :=
  .bind (keeps_newnode _ _) fun _ _ _ => .ok (keeps_left _ _ _)

theorem keeps_charnode (b : Bool) (s : RState) : KeepsR s (charnode b s) := by
  unfold charnode
  split
  · exact .err
  · exact .err
  · split
    · exact .step (keeps_p s _) (keeps_newnode _ _)
    · split
      · exact .step (keeps_p s _) (keeps_charclass _ _)
      · split
        · exact .step (keeps_p s _) (.bind (keeps_newnode _ _) fun _ _ _ => .ok (keeps_left _ _ _))
        · exact .step (keeps_p s _) (keeps_newnode _ _)
  · split
    · exact .step (keeps_p s _) (keeps_newnode _ _)
    · exact .err

theorem keeps_escapechar (s : RState) : KeepsR s (escapechar s) := by
  unfold escapechar
  split
  · exact .err
  · exact .err
  · exact .ok (keeps_p s _)
  · split
    · exact .ok (keeps_p s _)
    · exact .err

theorem ite_err_ok {ε α : Type} {c : Prop} [Decidable c] {e : ε} {x : Except ε α} {r : α}
    (h : (if c then .error e else x) = .ok r) : x = .ok r := by
  by_cases hc : c
  · rw [if_pos hc] at h; cases h
  · rw [if_neg hc] at h; exact h

theorem keeps_classLoop : ∀ (fuel : Nat) (first : Option Nat) (chain : Nat) (s : RState) (f : Option Nat) (c : Nat)
    (s' : RState), classLoop fuel first chain s = .ok (f, c, s') → KeepsCaps s s'
  | 0, _, _, _, _, _, _, h => by unfold classLoop at h; cases h
  | fuel + 1, first, chain, s, f, c, s', h => by
    unfold classLoop at h
    split at h
    · cases h; exact .refl s
    · split at h
      · rename_i f0 p0 _
        obtain ⟨⟨r, s1⟩, e1, h⟩ := hbind_ok' h
        dsimp only at h
        replace h := ite_err_ok h
        split at h
        · cases h
        · split at h
          · cases h
          · obtain ⟨⟨t, s2⟩, e2, h⟩ := hbind_ok' h
            dsimp only at h
            have k1 := (keeps_p s p0).trans (newnode_out e1).2.2
            obtain ⟨x, hx, tx⟩ := newnode_at e1
            have k2 := (keeps_left s1 r _).trans (keeps_escapechar _ _ _ e2)
            obtain ⟨y, hy, ty⟩ := k2.typ r x hx
            have k3 := keeps_right s2 r (charInt t) hy (by rw [ty, tx]; simp)
            exact k1.trans (k2.trans (k3.trans ((keeps_next _ chain r).trans
              (keeps_classLoop fuel _ _ _ _ _ _ h))))
      · obtain ⟨⟨n, s1⟩, e1, h⟩ := hbind_ok' h
        exact (keeps_next s _ _).trans ((keeps_charnode _ _ _ _ e1).trans (keeps_classLoop fuel _ _ _ _ _ _ h))
      · obtain ⟨⟨n, s1⟩, e1, h⟩ := hbind_ok' h
        exact (keeps_charnode _ _ _ _ e1).trans (keeps_classLoop fuel _ _ _ _ _ _ h)

theorem keeps_classHead (s : RState) : KeepsR s (classHead s) := by
  unfold classHead
  split
  · exact .bind (keeps_newnode _ _) fun _ _ _ => .ok (keeps_p _ _)
  · exact keeps_newnode _ _

theorem keeps_class (s : RState) : KeepsR s (rexClass s) := by
  unfold rexClass
  refine .bind (keeps_classHead s) fun ret s _ => ?_
  dsimp only
  split
  · exact .err
  · intro n s' h
    obtain ⟨⟨first, chain, s1⟩, e1, h⟩ := hbind_ok' h
    have k1 := keeps_classLoop _ _ _ _ _ _ _ e1
    dsimp only at h
    cases first with
    | none =>
      dsimp only at h
      split at h
      · cases h
      · cases h
        exact k1.trans ((keeps_left _ _ _).trans (keeps_next _ _ _))
    | some f =>
      dsimp only at h
      split at h
      · cases h
      · cases h
        exact k1.trans ((keeps_next _ _ _).trans ((keeps_left _ _ _).trans (keeps_next _ _ _)))

theorem keeps_expect (c : Char) {s s' : RState} (h : rexExpect c s = .ok s') : KeepsCaps s s' := by
  unfold rexExpect at h
  split at h
  · split at h
    · cases h; exact keeps_p s _
    · cases h
  · cases h

theorem keeps_number (s : RState) : KeepsR s (parseNumber s) := by
  unfold parseNumber
  split
  · intro n s' h
    obtain ⟨⟨k, p⟩, e, h⟩ := hbind_ok' h
    cases h
    exact keeps_p s _
  · exact .err

theorem keeps_upper (s : RState) : KeepsR s (quantUpper s) := by
  unfold quantUpper
  split
  · split
    · exact keeps_number s
    · exact .ok (.refl s)
  · exact .ok (.refl s)

theorem keeps_quantifier (s : RState) : KeepsR s (quantifier s) := by
  unfold quantifier
  split
  · exact .ok (keeps_p s _)
  · exact .ok (keeps_p s _)
  · exact .ok (keeps_p s _)
  · split
    · split
      · exact .err
      · refine .step (keeps_p s _) (.bind (keeps_number _) fun p0 s _ => ?_)
        dsimp only
        split
        · exact .ok (keeps_p s _)
        · refine .step (keeps_p s _) (.bind (keeps_upper _) fun p1 s _ => ?_)
          intro q s' h
          obtain ⟨s2, e, h⟩ := hbind_ok' h
          cases h
          exact keeps_expect _ e
        · exact .err
    · exact .err
  · exact .ok (.refl s)

theorem keeps_groupHead (s : RState) : KeepsR s (groupHead s) := by
  unfold groupHead
  split
  · intro n s' h
    obtain ⟨s2, e, h⟩ := hbind_ok' h
    exact (keeps_p s _).trans ((keeps_expect _ e).trans (keeps_newnode _ _ _ _ h))
  · exact keeps_newnode _ _

theorem keeps_atom {list : RState → RM (Nat × RState)} (hl : ∀ s, KeepsR s (list s)) (s : RState) :
    KeepsR s (rexAtom list s) := by
  unfold rexAtom
  split
  · refine .step (keeps_p s _) (.bind (keeps_groupHead _) fun expr s _ => .bind (hl s) fun newn s _ => ?_)
    intro n s' h
    obtain ⟨s2, e, h⟩ := hbind_ok' h
    cases h
    exact (keeps_left _ _ _).trans (keeps_expect _ e)
  · refine .step (keeps_p s _) (.bind (keeps_class _) fun ret s _ => ?_)
    intro n s' h
    obtain ⟨s2, e, h⟩ := hbind_ok' h
    cases h
    exact keeps_expect _ e
  · exact .step (keeps_p s _) (keeps_newnode _ _)
  · exact .step (keeps_p s _) (keeps_newnode _ _)
  · exact keeps_charnode _ _

theorem keeps_wrap (ret : Nat) (q : Option (Nat × Nat)) (s : RState) : KeepsR s (wrapGreedy ret q s) := by
  unfold wrapGreedy
  split
  · exact .ok (.refl s)
  · split
    · exact .err
    · intro m s' h
      obtain ⟨⟨n, s1⟩, e, h⟩ := hbind_ok' h
      obtain ⟨x, hx, tx⟩ := newnode_at e
      obtain ⟨y, hy, ty⟩ := (keeps_left s1 n (ret : Int)).typ n x hx
      cases h
      exact (newnode_out e).2.2.trans ((keeps_left _ _ _).trans (keeps_right _ _ _ hy (by rw [ty, tx]; simp)))

theorem keeps_listHead {element : RState → RM (Nat × RState)} (he : ∀ s, KeepsR s (element s)) (s : RState) :
    KeepsR s (listHead element s) := by
  unfold listHead
  split
  · exact .step (keeps_p s _) (.bind (keeps_newnode _ _) fun b s _ => .bind (he s) fun e s _ => .ok (keeps_next _ _ _))
  · exact he s

theorem keeps_rex : ∀ fuel, (∀ s, KeepsR s (rexElement fuel s)) ∧ (∀ s, KeepsR s (rexList fuel s))
  | 0 => ⟨fun s => by rw [rexElement]; exact .err, fun s => by rw [rexList]; exact .err⟩
  | fuel + 1 => by
    have ih := keeps_rex fuel
    refine ⟨fun s => ?_, fun s => ?_⟩
    · rw [rexElement]
      refine .bind (keeps_atom ih.2 s) fun ret s _ => .bind (keeps_quantifier s) fun q s _ =>
        .bind (keeps_wrap ret q s) fun ret s _ => ?_
      dsimp only
      split
      · exact .ok (.refl s)
      · split
        · exact .bind (ih.1 s) fun n s _ => .ok (keeps_next _ _ _)
        · exact .ok (.refl s)
    · rw [rexList]
      refine .bind (keeps_listHead ih.1 s) fun ret s _ => ?_
      dsimp only
      split
      · rename_i p _
        refine .step (keeps_p s p) ?_
        intro m s' h
        obtain ⟨⟨temp, s1⟩, e, h⟩ := hbind_ok' h
        obtain ⟨⟨tr, s2⟩, e2, h⟩ := hbind_ok' h
        obtain ⟨x, hx, tx⟩ := newnode_at e
        have k2 := (keeps_left s1 temp (ret : Int)).trans (ih.2 _ _ _ e2)
        obtain ⟨y, hy, ty⟩ := k2.typ temp x hx
        cases h
        exact (newnode_out e).2.2.trans (k2.trans (keeps_right _ _ _ hy (by rw [ty, tx]; simp)))
      · exact .ok (.refl s)

/-- The captures of a compiled expression fit the array allocated for them. -/
theorem compileNodes_fit {pattern : CStr} {nodes : List RNode} {n : Nat} (h : compileNodes pattern = .ok (nodes, n)) :
    CapsFit nodes n := by
  unfold compileNodes at h
  obtain ⟨⟨first, s1⟩, e1, h⟩ := hbind_ok' h
  obtain ⟨⟨res, s2⟩, e2, h⟩ := hbind_ok' h
  dsimp only at h
  split at h
  · cases h
  · cases h
    have k := (newnode_out e1).2.2.trans (((keeps_rex _).2 _ _ _ e2).trans (keeps_left s2 first res))
    exact k.fit (by intro x hx; cases hx)

end Argtable
