import Verif.Model.RexDepth
import Verif.Spec.RexDepth
import Verif.Proofs.RexMatch
import Verif.Proofs.RegexRun
import Verif.Proofs.RegexTrees
/-!
# Lemmas about the depth of the calls of `arg_rex`
-/

namespace Argtable
open Spec

/-! ### more room changes nothing -/

section
variable {nodes : List RNode}

/-- One matcher is another, up to a lack of room. -/
def AgreesM (m m' : Matcher) : Prop := ∀ i s x, Agrees (m i s x) (m' i s x)

theorem greedyStopTest_agrees {m m' : Matcher} (h : AgreesM m m') (g x : Option Int) (s : Nat) :
    Agrees (greedyStopTest nodes m g x s) (greedyStopTest nodes m' g x s) := by
  cases g with
  | none => exact .rfl
  | some g =>
    unfold greedyStopTest
    refine Agrees.bind .rfl fun gn => ?_
    by_cases hc : gn.type ≠ .greedy ∨ gn.p0 ≠ 0
    · rw [if_pos hc, if_pos hc]
      exact Agrees.bind .rfl fun gx => Agrees.bind (h _ _ _) fun _ => .rfl
    · rw [if_neg hc, if_neg hc]
      exact .rfl

theorem greedyLoop_agrees {m m' : Matcher} (h : AgreesM m m') {eol p0 p1 : Nat} {left : Int} {g x : Option Int} :
    ∀ k nm s good, Agrees (greedyLoop nodes eol m p0 p1 left g x k nm s good) (greedyLoop nodes eol m' p0 p1 left g x k nm s good) := by
  intro k
  induction k with
  | zero => intro nm s good; exact .rfl
  | succ k ih =>
    intro nm s good
    rw [greedyLoop, greedyLoop]
    by_cases hc : nm = 65535 ∨ nm < p1
    · rw [if_pos hc, if_pos hc]
      refine Agrees.bind (h _ _ _) fun r => ?_
      cases r with
      | none => exact .rfl
      | some s' =>
        dsimp only
        refine Agrees.bind (greedyStopTest_agrees h _ _ _) fun stop => ?_
        by_cases h1 : stop ∧ greedyOk p0 p1 (nm + 1)
        · rw [if_pos h1, if_pos h1]; exact .rfl
        · rw [if_neg h1, if_neg h1]
          by_cases h2 : s' ≥ eol
          · rw [if_pos h2, if_pos h2]; exact .rfl
          · rw [if_neg h2, if_neg h2]; exact ih _ _ _
    · rw [if_neg hc, if_neg hc]
      exact .rfl

theorem orChain_agrees {m m' : Matcher} (h : AgreesM m m') :
    ∀ k t s, Agrees (orChain nodes m k t s) (orChain nodes m' k t s) := by
  intro k
  induction k with
  | zero => intro t s; exact .rfl
  | succ k ih =>
    intro t s
    rw [orChain, orChain]
    refine Agrees.bind (h _ _ _) fun r => ?_
    cases r with
    | none => exact .rfl
    | some s' =>
      refine Agrees.bind .rfl fun n => ?_
      by_cases hc : n.next ≠ -1
      · rw [if_pos hc, if_pos hc]; exact ih _ _
      · rw [if_neg hc, if_neg hc]; exact .rfl

theorem exprChain_agrees {m m' : Matcher} (h : AgreesM m m') {x : Option Int} :
    ∀ k i s, Agrees (exprChain nodes m x k i s) (exprChain nodes m' x k i s) := by
  intro k
  induction k with
  | zero => intro i s; exact .rfl
  | succ k ih =>
    intro i s
    rw [exprChain, exprChain]
    refine Agrees.bind .rfl fun n => ?_
    dsimp only
    refine Agrees.bind (h _ _ _) fun r => ?_
    cases r with
    | none => exact .rfl
    | some s' =>
      dsimp only
      by_cases hc : n.next ≠ -1
      · rw [if_pos hc, if_pos hc]; exact ih _ _
      · rw [if_neg hc, if_neg hc]; exact .rfl

theorem matchnode_agrees (ic : Bool) (text : CStr) :
    ∀ d e, d ≤ e → AgreesM (matchnode nodes ic text d) (matchnode nodes ic text e) := by
  intro d
  induction d with
  | zero => intro e _ i s x; exact Or.inl rfl
  | succ d ih =>
    intro e he i s x
    obtain ⟨e, rfl⟩ : ∃ e', e = e' + 1 := ⟨e - 1, by omega⟩
    have h := ih e (by omega)
    rw [matchnode, matchnode]
    refine Agrees.bind .rfl fun n => ?_
    dsimp only
    cases ht : n.type with
    | greedy => exact Agrees.bind (greedyLoop_agrees h _ _ _ _) fun _ => .rfl
    | or =>
      dsimp only
      refine Agrees.bind (orChain_agrees h _ _ _) fun r => ?_
      cases r with
      | some s' => exact .rfl
      | none => exact orChain_agrees h _ _ _
    | expr => exact exprChain_agrees h _ _ _
    | nocap => exact exprChain_agrees h _ _ _
    | _ => exact .rfl

end

theorem rexMatchIn_agrees (nodes : List RNode) (ic : Bool) (text : CStr) {d e : Nat} (h : d ≤ e) :
    Agrees (rexMatchIn d nodes ic text) (rexMatchIn e nodes ic text) :=
  Agrees.bind (matchnode_agrees ic text d e h _ _ _) fun _ => .rfl

/-- The compiler functions, up to a lack of room. -/
def AgreesC {α : Type} (x y : RM α) : Prop := x = .error (.fault .fuel) ∨ x = y

theorem AgreesC.rfl {α : Type} {x : RM α} : AgreesC x x := Or.inr (Eq.refl x)

theorem AgreesC.bind {α β : Type} {x y : RM α} {f g : α → RM β} (h : AgreesC x y) (hf : ∀ a, AgreesC (f a) (g a)) :
    AgreesC (x >>= f) (y >>= g) := by
  rcases h with h | h
  · rw [h]; exact Or.inl (Eq.refl _)
  · rw [h]
    cases y with
    | error e => exact .rfl
    | ok a => exact hf a

theorem rexAtom_agrees {l l' : RState → RM (Nat × RState)} (h : ∀ s, AgreesC (l s) (l' s)) (s : RState) :
    AgreesC (rexAtom l s) (rexAtom l' s) := by
  unfold rexAtom
  split
  · exact AgreesC.bind .rfl fun a => AgreesC.bind (h _) fun _ => .rfl
  all_goals exact .rfl

theorem listHead_agrees {l l' : RState → RM (Nat × RState)} (h : ∀ s, AgreesC (l s) (l' s)) (s : RState) :
    AgreesC (listHead l s) (listHead l' s) := by
  unfold listHead
  split
  · exact AgreesC.bind .rfl fun a => AgreesC.bind (h _) fun _ => .rfl
  · exact h _

theorem rex_agrees : ∀ d e, d ≤ e → (∀ s, AgreesC (rexElement d s) (rexElement e s)) ∧ ∀ s, AgreesC (rexList d s) (rexList e s) := by
  intro d
  induction d with
  | zero =>
    intro e _
    exact ⟨fun s => Or.inl (by rw [rexElement]), fun s => Or.inl (by rw [rexList])⟩
  | succ d ih =>
    intro e he
    obtain ⟨e, rfl⟩ : ∃ e', e = e' + 1 := ⟨e - 1, by omega⟩
    obtain ⟨h1, h2⟩ := ih e (by omega)
    constructor
    · intro s
      rw [rexElement, rexElement]
      refine AgreesC.bind (rexAtom_agrees h2 _) fun a => ?_
      refine AgreesC.bind .rfl fun q => ?_
      refine AgreesC.bind .rfl fun b => ?_
      obtain ⟨ret, s2⟩ := b
      dsimp only
      cases s2.p with
      | nil => exact .rfl
      | cons c p =>
        dsimp only
        by_cases hc : c ≠ '|' ∧ c ≠ ')' ∧ c ≠ '*' ∧ c ≠ '+'
        · rw [if_pos hc, if_pos hc]
          exact AgreesC.bind (h1 _) fun _ => .rfl
        · rw [if_neg hc, if_neg hc]; exact .rfl
    · intro s
      rw [rexList, rexList]
      refine AgreesC.bind (listHead_agrees h1 _) fun a => ?_
      obtain ⟨ret, s2⟩ := a
      dsimp only
      split
      · refine AgreesC.bind .rfl fun b => ?_
        exact AgreesC.bind (h2 _) fun _ => .rfl
      · exact .rfl

theorem rexCompileIn_agrees (pat : CStr) {d e : Nat} (h : d ≤ e) : Agrees (rexCompileIn d pat) (rexCompileIn e pat) := by
  unfold rexCompileIn
  dsimp only
  generalize hx : (newnode .expr ⟨pat, [], pat.length, 0⟩ >>= _ : RM (List RNode)) = x
  generalize hy : (newnode .expr ⟨pat, [], pat.length, 0⟩ >>= _ : RM (List RNode)) = y
  have hxy : AgreesC x y := by
    rw [← hx, ← hy]
    refine AgreesC.bind .rfl fun a => ?_
    exact AgreesC.bind ((rex_agrees d e h).2 _) fun _ => .rfl
  rcases hxy with rfl | rfl
  · exact Or.inl rfl
  · exact .rfl

theorem rexCompileIn_eq (pat : CStr) : rexCompileIn (2 * pat.length + 2) pat = rexCompile pat := rfl

theorem rexMatchIn_eq (nodes : List RNode) (ic : Bool) (text : CStr) :
    rexMatchIn ((nodes.length + 1) * (nodes.length + 1)) nodes ic text = rexMatch nodes ic text := rfl

/-- What a run with enough room gives is what any run with enough room gives. -/
theorem Agrees.both {α : Type} {f : Nat → M α} (h : ∀ d e, d ≤ e → Agrees (f d) (f e)) {d e : Nat}
    (hd : f d ≠ .error .fuel) (he : f e ≠ .error .fuel) : f d = f e := by
  rcases Nat.le_total d e with hde | hde
  · exact (h d e hde).resolve_left hd
  · exact ((h e d hde).resolve_left he).symm

/-- With twice the length of the pattern, and two, there is room for compiling it. -/
theorem rexCompileIn_room (pat : CStr) {d : Nat} (h : 2 * pat.length + 2 ≤ d) : rexCompileIn d pat = rexCompile pat := by
  rcases rexCompileIn_agrees pat h with h1 | h1
  · rw [rexCompileIn_eq] at h1
    exact absurd h1 (rexCompile_not_fuel pat)
  · rw [← h1, rexCompileIn_eq]

/-- With as much room as there are nodes, there is room for matching. -/
theorem rexMatchIn_room {pat : CStr} {nodes : List RNode} (hc : rexCompile pat = .ok (some nodes)) (ic : Bool) (text : CStr) {d : Nat}
    (h : nodes.length ≤ d) : rexMatchIn d nodes ic text = rexMatch nodes ic text := by
  have hne : pat ≠ [] := by rintro rfl; cases hc
  have hp := rexCompile_post hne
  rw [hc] at hp
  have hd : rexMatchIn d nodes ic text ≠ .error .fuel := by
    have h2 : MPost False (fun _ => True) (rexMatchIn d nodes ic text) := by
      unfold rexMatchIn
      exact MPost.bind (matchnode_ok (P := False) (fun h => h.elim) _ 0 nodes.length nodes.length 0 0 none hp.1
        (Nat.le_refl _) (Or.inl rfl) (by omega) (fun h => h.elim)) fun _ _ => trivial
    intro he
    rw [he] at h2
    cases h2.1
  have hm := rexMatch_not_fuel ic text hc
  rw [← rexMatchIn_eq] at hm ⊢
  exact Agrees.both (f := fun d => rexMatchIn d nodes ic text) (fun d e h => rexMatchIn_agrees nodes ic text h) hd hm

/-- Compiling a tree: `E` is false if it must succeed. -/
theorem rexCompileIn_tree {r : Re} (hok : r.Ok) {d : Nat} (hd : r.text.length + 1 ≤ d) :
    rexCompileIn d r.text ≠ .error .fuel ∧ ∀ nodes, rexCompileIn d r.text = .ok (some nodes) → nodes.length = r.size + 1 := by
  obtain ⟨c, t, hct⟩ := Re.head (r := r)
  have hs : RInv ⟨r.text, [], r.text.length, 0⟩ := ⟨Nat.zero_le _, by rw [hct]; simp⟩
  obtain ⟨s1, e1, i1, p1, n1⟩ := newnode_eq .expr hs
  simp only [List.length_nil, List.nil_append, if_true] at e1 p1 n1
  have hl1 : s1.nodes.length = 1 := by rw [n1]; rfl
  have hlist := rexList_rep True r d s1 [] hok (Or.inl trivial) (by rw [p1]; simp) (Or.inl rfl) i1 hd
  unfold rexCompileIn
  dsimp only
  rw [e1, rbind_ok]
  dsimp only
  generalize rexList d s1 = x at hlist
  cases x with
  | error e =>
    cases e with
    | bad w => exact ⟨nofun, nofun⟩
    | fault f => exact absurd hlist id
  | ok a =>
    obtain ⟨k, s2⟩ := a
    obtain ⟨x2, p2, hrep, hsz, hpl⟩ := hlist
    dsimp only at x2 p2 hrep hsz
    rw [rbind_ok]
    dsimp only
    have hp3 : (s2.setLeft 0 (k : Nat)).p = [] := p2
    rw [hp3, if_neg (by simp)]
    refine ⟨nofun, fun nodes hn => ?_⟩
    cases hn
    rw [setLeft_len, hsz, hl1, Nat.add_comm]

/-! ### deep patterns -/

/-- Opening parentheses need two calls each. -/
theorem rexList_deep : ∀ (k d : Nat) (s : RState) (rest : CStr), RInv s → s.p = List.replicate k '(' ++ rest →
    rest.head? ≠ some '?' → d < 2 * k + 2 → rexList d s = .error (.fault .fuel) := by
  intro k
  induction k with
  | zero =>
    intro d s rest hinv hp hq hd
    match d, hd with
    | 0, _ => rw [rexList]
    | 1, _ =>
      rw [rexList]
      have h : listHead (rexElement 0) s = .error (.fault .fuel) := by
        unfold listHead
        split
        · rename_i p _
          obtain ⟨s', e, -⟩ := newnode_eq .bol (s := { s with p := p }) ⟨hinv.len, hinv.pos⟩
          rw [e, rbind_ok]
          dsimp only
          rw [rexElement]; rfl
        · rw [rexElement]
      rw [h]; rfl
  | succ k ih =>
    intro d s rest hinv hp hq hd
    have hp' : s.p = '(' :: (List.replicate k '(' ++ rest) := hp
    have hlh : ∀ f : RState → RM (Nat × RState), listHead f s = f s := fun f => by
      unfold listHead; rw [hp']; rfl
    match d with
    | 0 => rw [rexList]
    | 1 => rw [rexList, hlh, rexElement]; rfl
    | d + 2 =>
      rw [rexList, hlh, rexElement]
      have ha : rexAtom (rexList d) s = .error (.fault .fuel) := by
        unfold rexAtom
        rw [hp']
        obtain ⟨s', e, i', p', -⟩ := newnode_eq .expr (s := { s with p := List.replicate k '(' ++ rest }) ⟨hinv.len, hinv.pos⟩
        have hg : groupHead { s with p := List.replicate k '(' ++ rest } = newnode .expr { s with p := List.replicate k '(' ++ rest } := by
          unfold groupHead
          split
          · rename_i p hpp
            exfalso
            cases k with
            | zero => exact hq (by dsimp only at hpp; rw [List.replicate_zero, List.nil_append] at hpp; rw [hpp]; rfl)
            | succ k => cases hpp
          · rfl
        show (groupHead _ >>= _) = _
        rw [hg, e, rbind_ok]
        dsimp only
        rw [ih d s' rest i' p' hq (by omega)]
        rfl
      rw [ha]; rfl

theorem rexCompileIn_deep {k d : Nat} {rest : CStr} (hne : List.replicate k '(' ++ rest ≠ []) (hq : rest.head? ≠ some '?') (hd : d < 2 * k + 2) :
    rexCompileIn d (List.replicate k '(' ++ rest) = .error .fuel := by
  generalize hpat : List.replicate k '(' ++ rest = pat at hne
  have hs : RInv ⟨pat, [], pat.length, 0⟩ := ⟨Nat.zero_le _, List.length_pos_of_ne_nil hne⟩
  obtain ⟨s1, e1, i1, p1, n1⟩ := newnode_eq .expr hs
  unfold rexCompileIn
  dsimp only
  rw [e1, rbind_ok]
  dsimp only
  rw [rexList_deep k d s1 rest i1 (by rw [p1, hpat]) hq hd]
  rfl

theorem nested_text : ∀ k, (nested k).text = List.replicate k '(' ++ 'a' :: List.replicate k ')' := by
  intro k
  induction k with
  | zero => unfold nested Re.text Elems.text Atom.text; rfl
  | succ k ih =>
    unfold nested Re.text Elems.text Atom.text
    rw [ih, if_pos rfl, if_neg (by simp)]
    have h1 : cs "(" = ['('] := rfl
    have h2 : cs ")" = [')'] := rfl
    have h3 : Quant.once.text = [] := rfl
    rw [h1, h2, h3, List.append_nil, List.nil_append, List.replicate_succ, List.replicate_succ' (a := ')')]
    simp

theorem nested_ok : ∀ k, (nested k).Ok ∧ (∀ n, (nested k).Placed n) ∧ (nested k).size = k + 1 := by
  intro k
  induction k with
  | zero =>
    refine ⟨?_, fun k => ?_, ?_⟩
    · unfold nested Re.Ok Elems.Ok Atom.Ok Opens Elems.text Atom.text
      exact ⟨⟨⟨by decide, by decide, by decide⟩, trivial⟩, Or.inr (by decide)⟩
    · unfold nested Re.Placed Elems.Placed; rw [Atom.Placed] <;> simp
    · unfold nested Re.size Elems.size; rw [Atom.size] <;> simp [Quant.size]
  | succ k ih =>
    refine ⟨?_, fun n => ?_, ?_⟩
    · unfold nested Re.Ok Elems.Ok Atom.Ok Opens
      refine ⟨⟨⟨ih.1, fun _ => ?_⟩, trivial⟩, Or.inr ?_⟩
      · rw [nested_text]
        cases k <;> simp [List.replicate_succ]
      · unfold Elems.text Atom.text
        exact fun h => absurd (show some '(' = some '^' from h) (by decide)
    · unfold nested Re.Placed Elems.Placed Atom.Placed
      exact ih.2.1 _
    · unfold nested Re.size Elems.size Atom.size
      rw [ih.2.2]
      simp [Quant.size]
      omega

theorem matchnode_deep {nodes : List RNode} (ic : Bool) (text : CStr) : ∀ (k d : Nat) {lo hi i : Nat} (s : Nat) (x : Option Int),
    RepRe nodes (nested k) lo hi i → d ≤ k → matchnode nodes ic text d i s x = .error .fuel := by
  intro k
  induction k with
  | zero =>
    intro d lo hi i s x _ hd
    cases Nat.le_zero.1 hd
    rw [matchnode]
  | succ k ih =>
    intro d lo hi i s x hrep hd
    cases d with
    | zero => rw [matchnode]
    | succ d =>
      unfold nested RepRe RepBranch at hrep
      rw [if_neg (by simp)] at hrep
      unfold RepElems RepQ at hrep
      rw [if_pos rfl] at hrep
      unfold RepAtom at hrep
      obtain ⟨_, _, n, hn, _, ht, m, hm, hre⟩ := hrep
      rw [if_pos rfl] at ht
      rw [matchnode, nodeAt_eq hn, bind_ok]
      dsimp only
      rw [ht, hm]
      dsimp only
      obtain ⟨n', hn'⟩ : ∃ n', nodes[m]? = some n' := by
        cases k <;> · unfold nested RepRe RepBranch at hre
                      rw [if_neg (by simp)] at hre
                      unfold RepElems RepQ at hre
                      rw [if_pos rfl] at hre
                      unfold RepAtom at hre
                      obtain ⟨_, _, n', hn', _⟩ := hre
                      exact ⟨n', hn'⟩
      rw [exprChain, nodeAt_eq hn', bind_ok]
      dsimp only
      rw [ih d s _ hre (by omega)]
      rfl

theorem rexMatchIn_deep {k d : Nat} {nodes : List RNode} (hc : rexCompile (nested k).text = .ok (some nodes)) (ic : Bool) (text : CStr)
    (hd : d ≤ k + 1) : rexMatchIn d nodes ic text = .error .fuel := by
  obtain ⟨hok, hfit, -⟩ := nested_ok k
  rcases rexCompile_rep (E := False) hok (Or.inr (hfit 1)) with ⟨h, _⟩ | ⟨-, nodes', n, i, hc', h0, ht, hl, hx, hrep⟩
  · exact h.elim
  · rw [hc] at hc'
    cases hc'
    have h0' : nodeAt nodes 0 = .ok n := nodeAt_eq (i := 0) h0
    cases d with
    | zero => rfl
    | succ d =>
      obtain ⟨n', hn'⟩ : ∃ n', nodes[i]? = some n' := by
        cases k <;> · unfold nested RepRe RepBranch at hrep
                      rw [if_neg (by simp)] at hrep
                      unfold RepElems RepQ at hrep
                      rw [if_pos rfl] at hrep
                      unfold RepAtom at hrep
                      obtain ⟨_, _, n', hn', _⟩ := hrep
                      exact ⟨n', hn'⟩
      unfold rexMatchIn
      rw [matchnode, h0', bind_ok]
      dsimp only
      rw [ht, hl]
      dsimp only
      rw [exprChain, nodeAt_eq hn', bind_ok]
      dsimp only
      rw [matchnode_deep ic text k d 0 _ hrep (by omega)]
      rfl

end Argtable
