import Verif.Spec.Context
import Verif.Proofs.Outcome
/-!
# Command lines in context
-/

namespace Argtable

open Spec

variable {σ : Type}

theorem observe_of_shows {m : Nat} {argv : List CStr} {g : GState} {es : List (Hdr σ)}
    {errs : List ErrRec} {r : Nat × Table σ × GState} (h : Shows m argv g es errs r) :
    observe r = (min errs.length m, es, recorded m errs) := by
  unfold observe
  rw [h.ret, h.entries, h.rel.slots]

/-- Command lines with the same reading have the same effect. -/
theorem sameEffect_of_tokenize (env : Bool) (t : Table σ) (m : Nat) (hend : EndOK m t.fin)
    (hwf : WF (t.entries.map declOf)) (argv argv' : List CStr) (hargs : CArgs argv.tail)
    (hargs' : CArgs argv'.tail)
    (h : tokenize (t.entries.map declOf) env argv.tail
      = tokenize (t.entries.map declOf) env argv'.tail) : SameEffect env t argv argv' := by
  have key : ∀ (argv argv' : List CStr), CArgs argv.tail → CArgs argv'.tail →
      tokenize (t.entries.map declOf) env argv.tail
      = tokenize (t.entries.map declOf) env argv'.tail → ∀ g g' r, Returns env argv t g r →
      ∃ r', Returns env argv' t g' r' ∧ observe r' = observe r := by
    intro argv argv' hargs hargs' h g g' r hr
    cases htok : tokenize (t.entries.map declOf) env argv.tail with
    | none => exact absurd hr (argParse_hung env t hwf argv hargs g htok r)
    | some p =>
      obtain ⟨evs, ops⟩ := p
      obtain ⟨es, errs, hm, hs⟩ := returns_inv env t m hend hwf argv hargs g htok hr
      obtain ⟨r', h1, h2⟩ := argParse_returns env t m hend hwf argv' hargs' g' (h ▸ htok) hm
      exact ⟨r', h1, by rw [observe_of_shows hs, observe_of_shows h2]⟩
  exact fun g g' => ⟨fun r => key argv argv' hargs hargs' h g g' r,
    fun r => key argv' argv hargs' hargs h.symm g' g r⟩

/-! ### the dependence of a cluster on the next argument -/

/-- `readLong` uses the next argument or not, independently of its content; if it does not use it, its
events do not depend on it. -/
theorem readLong_next (ds : List Decl) (whole body v w : CStr) :
    (readLong ds whole (some v) body).2 = (readLong ds whole (some w) body).2 ∧
    ((readLong ds whole (some v) body).2 = false →
      ∀ n, readLong ds whole n body = readLong ds whole (some v) body) := by
  unfold readLong
  dsimp only
  cases resolve (longTable ds 0) (body.takeWhile (· ≠ '=')) with
  | none => simp
  | some l =>
    obtain ⟨_, i, k⟩ := l
    by_cases he : '=' ∈ body
    · simp only [he, if_true]
      cases k <;> simp
    · simp only [he, if_false]
      cases k <;> simp

theorem readCluster_next (ds : List Decl) (whole v w : CStr) : ∀ (body : CStr),
    (readCluster ds whole (some v) body).map (·.2) = (readCluster ds whole (some w) body).map (·.2) ∧
    ((readCluster ds whole (some v) body).map (·.2) ≠ some true →
      ∀ n, readCluster ds whole n body = readCluster ds whole (some v) body) := by
  intro body
  induction body with
  | nil => simp [readCluster]
  | cons c tl ih =>
    unfold readCluster
    split
    · split
      · simp
      · have := readLong_next ds whole tl v w
        refine ⟨by simp [this.1], ?_⟩
        intro h n
        simp only [Option.map_some, ne_eq, Option.some.injEq, Bool.not_eq_true] at h
        rw [this.2 h n]
    · cases hl : shortLookup c ds 0 with
      | none =>
        dsimp only
        refine ⟨by have := ih.1; simp only [Option.map_map] at *; exact this, ?_⟩
        intro h n
        rw [ih.2 (by simp only [Option.map_map] at *; exact h) n]
      | some p =>
        obtain ⟨i, k⟩ := p
        cases k with
        | no =>
          dsimp only
          refine ⟨by have := ih.1; simp only [Option.map_map] at *; exact this, ?_⟩
          intro h n
          rw [ih.2 (by simp only [Option.map_map] at *; exact h) n]
        | req =>
          dsimp only
          split
          · simp
          · simp
        | opt => simp

theorem usesNext_true {ds : List Decl} {a : CStr} (h : usesNext ds a = true) (v : CStr) :
    ∃ evs, readCluster ds a (some v) a.tail = some (evs, true) := by
  unfold usesNext at h
  have h1 := (readCluster_next ds a v [] a.tail).1
  split at h
  · rename_i e u he
    subst h
    rw [he] at h1
    cases hr : readCluster ds a (some v) a.tail with
    | none => rw [hr] at h1; simp at h1
    | some p =>
      rw [hr] at h1
      simp at h1
      exact ⟨p.1, by rw [← h1]⟩
  · cases h

theorem usesNext_false {ds : List Decl} {a : CStr} (h : usesNext ds a = false) (n : Option CStr) :
    readCluster ds a n a.tail = (readCluster ds a none a.tail).map fun p => (p.1, false) := by
  unfold usesNext at h
  have h1 := (readCluster_next ds a [] [] a.tail).2
  cases hr : readCluster ds a (some []) a.tail with
  | none =>
    rw [hr] at h1
    rw [h1 (by simp) n, h1 (by simp) none]; rfl
  | some p =>
    rw [hr] at h1 h
    dsimp only at h
    rw [h1 (by simp [h]) n, h1 (by simp [h]) none]
    simp [← h]

/-! ### reading in context -/

/-- Combining the readings of two parts. -/
def joinRead (x y : Option (List Ev × List CStr)) : Option (List Ev × List CStr) :=
  x.bind fun p => y.map fun q => (p.1 ++ q.1, p.2 ++ q.2)

theorem joinRead_assoc_left (e : List Ev) (o : List CStr) (x y : Option (List Ev × List CStr)) :
    joinRead (x.map fun p => (e ++ p.1, o ++ p.2)) y
      = (joinRead x y).map fun p => (e ++ p.1, o ++ p.2) := by
  unfold joinRead
  cases x <;> cases y <;> simp

theorem isOperand_dd : isOperand ['-', '-'] = false := rfl

/-- Unfolding of `tokenize` at an operand. -/
theorem tokenize_operand {ds : List Decl} {a : CStr} (rest : List CStr) (h : isOperand a = true) :
    tokenize ds false (a :: rest) = (tokenize ds false rest).map fun p => (p.1, a :: p.2) := by
  rw [tokenize, if_neg (by rintro rfl; simp [isOperand] at h), if_pos h]
  simp

/-- Unfolding of `tokenize` at an option without separate value. -/
theorem tokenize_option {ds : List Decl} {posix : Bool} {a : CStr} (rest : List CStr)
    (h : isOption a = true) (hu : usesNext ds a = false) :
    tokenize ds posix (a :: rest) = (readCluster ds a none a.tail).bind fun p =>
      (tokenize ds posix rest).map fun q => (p.1 ++ q.1, q.2) := by
  unfold isOption at h
  simp only [Bool.and_eq_true, Bool.not_eq_true', bne_iff_ne, ne_eq] at h
  rw [tokenize, if_neg h.2, if_neg (by simp [h.1])]
  rw [usesNext_false hu rest.head?]
  cases readCluster ds a none a.tail with
  | none => rfl
  | some p => rfl

/-- Unfolding of `tokenize` at an option with separate value. -/
theorem tokenize_option_val {ds : List Decl} {posix : Bool} {a v : CStr} (rest : List CStr)
    (h : isOption a = true) {evs : List Ev}
    (hu : readCluster ds a (some v) a.tail = some (evs, true)) :
    tokenize ds posix (a :: v :: rest) =
      (tokenize ds posix rest).map fun q => (evs ++ q.1, q.2) := by
  unfold isOption at h
  simp only [Bool.and_eq_true, Bool.not_eq_true', bne_iff_ne, ne_eq] at h
  rw [tokenize, if_neg h.2, if_neg (by simp [h.1])]
  simp only [List.head?_cons, hu]

theorem complete_append (ds : List Decl) : ∀ (n : Nat) (pre : List CStr), pre.length ≤ n →
    complete ds pre = true → ∀ rest, tokenize ds false (pre ++ rest)
      = joinRead (tokenize ds false pre) (tokenize ds false rest) := by
  intro n
  induction n with
  | zero =>
    intro pre hn _ rest
    have : pre = [] := List.length_eq_zero_iff.1 (by omega)
    subst this
    simp only [List.nil_append, tokenize, joinRead, Option.bind_some]
    cases tokenize ds false rest <;> simp
  | succ n ih =>
    intro pre hn hc rest
    cases pre with
    | nil =>
      simp only [List.nil_append, tokenize, joinRead, Option.bind_some]
      cases tokenize ds false rest <;> simp
    | cons a pre =>
      simp only [List.length_cons] at hn
      unfold complete at hc
      split at hc
      · cases hc
      · rename_i hdd
        split at hc
        · rename_i hop
          rw [List.cons_append, tokenize_operand _ hop, tokenize_operand _ hop,
            ih pre (by omega) hc rest]
          have := joinRead_assoc_left [] [a] (tokenize ds false pre) (tokenize ds false rest)
          simpa using this.symm
        · rename_i hop
          have hopt : isOption a = true := by
            unfold isOption; simp [hop, hdd]
          split at hc
          · rename_i hu
            cases pre with
            | nil => cases hc
            | cons v pre =>
              obtain ⟨evs, he⟩ := usesNext_true hu v
              simp only [List.cons_append, tokenize_option_val _ hopt he]
              rw [ih pre (by simp only [List.length_cons] at hn; omega) hc rest]
              have := joinRead_assoc_left evs [] (tokenize ds false pre) (tokenize ds false rest)
              simpa using this.symm
          · rename_i hu
            simp only [Bool.not_eq_true] at hu
            rw [List.cons_append, tokenize_option _ hopt hu, tokenize_option _ hopt hu,
              ih pre (by omega) hc rest]
            cases readCluster ds a none a.tail with
            | none => rfl
            | some p =>
              have := joinRead_assoc_left p.1 [] (tokenize ds false pre) (tokenize ds false rest)
              simpa using this.symm

theorem optionsOnly_append (ds : List Decl) (posix : Bool) : ∀ (n : Nat) (pre : List CStr),
    pre.length ≤ n → optionsOnly ds pre = true → ∀ rest, tokenize ds posix (pre ++ rest)
      = joinRead (tokenize ds posix pre) (tokenize ds posix rest) := by
  intro n
  induction n with
  | zero =>
    intro pre hn _ rest
    have : pre = [] := List.length_eq_zero_iff.1 (by omega)
    subst this
    simp only [List.nil_append, tokenize, joinRead, Option.bind_some]
    cases tokenize ds posix rest <;> simp
  | succ n ih =>
    intro pre hn hc rest
    cases pre with
    | nil =>
      simp only [List.nil_append, tokenize, joinRead, Option.bind_some]
      cases tokenize ds posix rest <;> simp
    | cons a pre =>
      simp only [List.length_cons] at hn
      unfold optionsOnly at hc
      split at hc
      · cases hc
      · rename_i hdd
        split at hc
        · cases hc
        · rename_i hop
          have hopt : isOption a = true := by
            unfold isOption; simp [hop, hdd]
          split at hc
          · rename_i hu
            cases pre with
            | nil => cases hc
            | cons v pre =>
              obtain ⟨evs, he⟩ := usesNext_true hu v
              simp only [List.cons_append, tokenize_option_val _ hopt he]
              rw [ih pre (by simp only [List.length_cons] at hn; omega) hc rest]
              have := joinRead_assoc_left evs [] (tokenize ds posix pre) (tokenize ds posix rest)
              simpa using this.symm
          · rename_i hu
            simp only [Bool.not_eq_true] at hu
            rw [List.cons_append, tokenize_option _ hopt hu, tokenize_option _ hopt hu,
              ih pre (by omega) hc rest]
            cases readCluster ds a none a.tail with
            | none => rfl
            | some p =>
              have := joinRead_assoc_left p.1 [] (tokenize ds posix pre) (tokenize ds posix rest)
              simpa using this.symm

/-- No operand in the part read under `optionsOnly`. -/
theorem optionsOnly_ops (ds : List Decl) (posix : Bool) : ∀ (n : Nat) (pre : List CStr),
    pre.length ≤ n → optionsOnly ds pre = true → ∀ evs ops, tokenize ds posix pre = some (evs, ops) →
      ops = [] := by
  intro n
  induction n with
  | zero =>
    intro pre hn _ evs ops h
    have : pre = [] := List.length_eq_zero_iff.1 (by omega)
    subst this
    simp [tokenize] at h
    exact h.2
  | succ n ih =>
    intro pre hn hc evs ops h
    cases pre with
    | nil => simp [tokenize] at h; exact h.2
    | cons a pre =>
      simp only [List.length_cons] at hn
      unfold optionsOnly at hc
      split at hc
      · cases hc
      · rename_i hdd
        split at hc
        · cases hc
        · rename_i hop
          have hopt : isOption a = true := by
            unfold isOption; simp [hop, hdd]
          split at hc
          · rename_i hu
            cases pre with
            | nil => cases hc
            | cons v pre =>
              obtain ⟨evs', he⟩ := usesNext_true hu v
              rw [tokenize_option_val _ hopt he, Option.map_eq_some_iff] at h
              obtain ⟨q, hq, h⟩ := h
              cases h
              exact ih pre (by simp only [List.length_cons] at hn; omega) hc _ _ hq
          · rename_i hu
            simp only [Bool.not_eq_true] at hu
            rw [tokenize_option _ hopt hu] at h
            obtain ⟨p, _, h⟩ := Option.bind_eq_some_iff.1 h
            rw [Option.map_eq_some_iff] at h
            obtain ⟨q, hq, h⟩ := h
            cases h
            exact ih pre (by omega) hc _ _ hq

theorem stillOn_append {env : Bool} {ds : List Decl} {pre : List CStr}
    (h : stillOn env ds pre = true) (rest : List CStr) :
    tokenize ds env (pre ++ rest) = joinRead (tokenize ds env pre) (tokenize ds env rest) := by
  unfold stillOn at h
  cases env with
  | false => exact complete_append ds _ pre (Nat.le_refl _) (by simpa using h) rest
  | true => exact optionsOnly_append ds true _ pre (Nat.le_refl _) (by simpa using h) rest

theorem readsAs_of_tokenize {env : Bool} {t : Table σ} {m : Nat} (hend : EndOK m t.fin)
    (hwf : WF (t.entries.map declOf)) {argv : List CStr} (hargs : CArgs argv.tail) {evs : List Ev}
    {ops : List CStr} (htok : tokenize (t.entries.map declOf) env argv.tail = some (evs, ops)) :
    ReadsAs env t m argv evs ops := by
  intro g
  obtain ⟨N, h⟩ := argParse_spec env t m hend hwf argv hargs g htok
  have := h N (Nat.le_refl _)
  cases hm : meaning t.entries evs ops with
  | ok q =>
    rw [hm] at this
    obtain ⟨r, h1, h2⟩ := this
    exact ⟨r, ⟨N, h1⟩, h2⟩
  | error f =>
    rw [hm] at this
    cases f with
    | ub w => exact ⟨N, this⟩
    | fuel => trivial

theorem optionPart_read (ds : List Decl) : ∀ (n : Nat) (args : List CStr), args.length ≤ n →
    complete ds args = true → optionsOnly ds (optionPart ds args) = true ∧
      tokenize ds false args = (tokenize ds false (optionPart ds args)).map fun p =>
        (p.1, operandPart ds args) := by
  intro n
  induction n with
  | zero =>
    intro args hn _
    have : args = [] := List.length_eq_zero_iff.1 (by omega)
    subst this
    exact ⟨rfl, rfl⟩
  | succ n ih =>
    intro args hn hc
    cases args with
    | nil => exact ⟨rfl, rfl⟩
    | cons a args =>
      simp only [List.length_cons] at hn
      unfold complete at hc
      split at hc
      · cases hc
      · rename_i hdd
        split at hc
        · rename_i hop
          obtain ⟨h1, h2⟩ := ih args (by omega) hc
          rw [optionPart.eq_def, operandPart.eq_def]
          simp only [if_pos hop]
          rw [tokenize_operand _ hop, h2]
          refine ⟨h1, ?_⟩
          cases tokenize ds false (optionPart ds args) <;> rfl
        · rename_i hop
          have hopt : isOption a = true := by
            unfold isOption; simp [hop, hdd]
          split at hc
          · rename_i hu
            cases args with
            | nil => cases hc
            | cons v args =>
              obtain ⟨evs, he⟩ := usesNext_true hu v
              obtain ⟨h1, h2⟩ := ih args (by simp only [List.length_cons] at hn; omega) hc
              rw [optionPart.eq_def, operandPart.eq_def]
              simp only [if_neg hop, if_pos hu]
              rw [tokenize_option_val _ hopt he, tokenize_option_val _ hopt he, h2]
              refine ⟨?_, ?_⟩
              · rw [optionsOnly, if_neg hdd, if_neg hop, if_pos hu]; exact h1
              · cases tokenize ds false (optionPart ds args) <;> rfl
          · rename_i hu
            obtain ⟨h1, h2⟩ := ih args (by omega) hc
            rw [optionPart.eq_def, operandPart.eq_def]
            simp only [if_neg hop, if_neg hu]
            simp only [Bool.not_eq_true] at hu
            rw [tokenize_option _ hopt hu, tokenize_option _ hopt hu, h2]
            refine ⟨?_, ?_⟩
            · rw [optionsOnly.eq_def]
              simp only [if_neg hdd, if_neg hop, hu]
              exact h1
            · cases readCluster ds a none a.tail <;>
                cases tokenize ds false (optionPart ds args) <;> rfl

/-! ### denotation of long names -/

theorem find?_split {α : Type} {p : α → Bool} : ∀ {l : List α} {a : α}, l.find? p = some a →
    ∃ b c, l = b ++ a :: c ∧ p a = true ∧ ∀ x ∈ b, p x = false := by
  intro l
  induction l with
  | nil => intro a h; cases h
  | cons x l ih =>
    intro a h
    rw [List.find?_cons] at h
    split at h
    · rename_i hx; cases h; exact ⟨[], l, rfl, hx, by simp⟩
    · rename_i hx
      obtain ⟨b, c, h1, h2, h3⟩ := ih h
      refine ⟨x :: b, c, by simp [h1], h2, ?_⟩
      intro y hy
      rcases List.mem_cons.1 hy with rfl | hy
      · simpa using hx
      · exact h3 y hy

theorem filter_cons_split {α : Type} {p : α → Bool} : ∀ {l : List α} {a : α} {r : List α},
    l.filter p = a :: r → ∃ b c, l = b ++ a :: c ∧ p a = true ∧ (∀ x ∈ b, p x = false) := by
  intro l
  induction l with
  | nil => intro a r h; cases h
  | cons x l ih =>
    intro a r h
    rw [List.filter_cons] at h
    split at h
    · rename_i hx; cases h; exact ⟨[], l, rfl, hx, by simp⟩
    · rename_i hx
      obtain ⟨b, c, h1, h2, h3⟩ := ih h
      refine ⟨x :: b, c, by simp [h1], h2, ?_⟩
      intro y hy
      rcases List.mem_cons.1 hy with rfl | hy
      · simpa using hx
      · exact h3 y hy

theorem split_unique {α : Type} {p : α → Prop} : ∀ {b b' : List α} {a a' : α} {c c' : List α},
    b ++ a :: c = b' ++ a' :: c' → p a → p a' → (∀ x ∈ b, ¬ p x) → (∀ x ∈ b', ¬ p x) → a = a' := by
  intro b
  induction b with
  | nil =>
    intro b' a a' c c' h ha ha' hb hb'
    cases b' with
    | nil => simp at h; exact h.1
    | cons y b' => simp at h; exact absurd (h.1 ▸ ha) (hb' y (by simp))
  | cons x b ih =>
    intro b' a a' c c' h ha ha' hb hb'
    cases b' with
    | nil => simp at h; exact absurd (h.1 ▸ ha') (hb x (by simp))
    | cons y b' =>
      simp at h
      exact ih h.2 ha ha' (fun z hz => hb z (by simp [hz])) (fun z hz => hb' z (by simp [hz]))

theorem denotes_unique {ls : List Long} {p : CStr} {l l' : Long} (h : Denotes ls p l)
    (h' : Denotes ls p l') : l = l' := by
  rcases h with ⟨b, c, h1, h2, h3⟩ | ⟨h0, ⟨b, c, h1, h2, h3⟩, _⟩ <;>
    rcases h' with ⟨b', c', h1', h2', h3'⟩ | ⟨h0', ⟨b', c', h1', h2', h3'⟩, _⟩
  · exact split_unique (p := fun k : Long => k.name = p) (h1.symm.trans h1') h2 h2' h3 h3'
  · exact absurd h2 (h0' l (by rw [h1]; simp))
  · exact absurd h2' (h0 l' (by rw [h1']; simp))
  · exact split_unique (p := fun k : Long => p <+: k.name) (h1.symm.trans h1') h2 h2' h3 h3'

theorem resolve_denotes (ds : List Decl) (p : CStr) :
    match resolve (longTable ds 0) p with
    | some l => Denotes (longTable ds 0) p l
    | none => ∀ l, ¬ Denotes (longTable ds 0) p l := by
  have hk := (longTable_kind ds 0).2
  generalize hls : longTable ds 0 = ls at hk
  unfold resolve
  cases hf : ls.find? (fun l => l.name == p) with
  | some l =>
    obtain ⟨b, c, h1, h2, h3⟩ := find?_split hf
    exact Or.inl ⟨b, c, h1, by simpa using h2, fun k hk => by simpa using h3 k hk⟩
  | none =>
    have hno : ∀ k ∈ ls, k.name ≠ p := by
      intro k hk
      simpa using List.find?_eq_none.1 hf k hk
    dsimp only
    cases hfl : ls.filter (fun l => p.isPrefixOf l.name) with
    | nil =>
      have hnp : ∀ k ∈ ls, ¬ p <+: k.name := by
        intro k hk hp
        have := List.filter_eq_nil_iff.1 hfl k hk
        exact this (List.isPrefixOf_iff_prefix.2 hp)
      rintro l (⟨b, c, h1, h2, _⟩ | ⟨_, ⟨b, c, h1, h2, _⟩, _⟩)
      · exact hno l (by rw [h1]; simp) h2
      · exact hnp l (by rw [h1]; simp) h2
    | cons l rest =>
      dsimp only
      obtain ⟨b, c, h1, h2, h3⟩ := filter_cons_split hfl
      have hmem : ∀ k ∈ ls, p <+: k.name → k = l ∨ k ∈ rest := by
        intro k hk hp
        have : k ∈ ls.filter (fun l => p.isPrefixOf l.name) :=
          List.mem_filter.2 ⟨hk, List.isPrefixOf_iff_prefix.2 hp⟩
        rw [hfl] at this
        simpa using this
      by_cases hall : (rest.all fun m => m.entry == l.entry) = true
      · rw [if_pos hall]
        refine Or.inr ⟨hno, ⟨b, c, h1, List.isPrefixOf_iff_prefix.1 h2, fun k hk hp => ?_⟩, ?_⟩
        · have := h3 k hk
          rw [List.isPrefixOf_iff_prefix.2 hp] at this; cases this
        · intro k hk' hp
          have he : k.entry = l.entry := by
            rcases hmem k hk' hp with rfl | hr
            · rfl
            · simpa using List.all_eq_true.1 hall k hr
          exact ⟨he, hk k hk' l (by rw [h1]; simp) he⟩
      · rw [if_neg hall]
        rintro l' (⟨b', c', h1', h2', _⟩ | ⟨_, ⟨b', c', h1', h2', h3'⟩, h4⟩)
        · exact hno l' (by rw [h1']; simp) h2'
        · have : l = l' := split_unique (p := fun k : Long => p <+: k.name) (h1.symm.trans h1')
            (List.isPrefixOf_iff_prefix.1 h2) h2' (fun x hx hp => by
              have := h3 x hx
              rw [List.isPrefixOf_iff_prefix.2 hp] at this; cases this) h3'
          subst this
          apply hall
          rw [List.all_eq_true]
          intro k hkr
          have : k ∈ ls.filter (fun l => p.isPrefixOf l.name) := by rw [hfl]; simp [hkr]
          obtain ⟨hkl, hkp⟩ := List.mem_filter.1 this
          simpa using (h4 k hkl (List.isPrefixOf_iff_prefix.1 hkp)).1

theorem resolve_eq_some {ds : List Decl} {p : CStr} {l : Long}
    (h : Denotes (longTable ds 0) p l) : resolve (longTable ds 0) p = some l := by
  have := resolve_denotes ds p
  cases hr : resolve (longTable ds 0) p with
  | none => rw [hr] at this; exact absurd h (this l)
  | some l' => rw [hr] at this; rw [denotes_unique this h]

theorem resolve_eq_none {ds : List Decl} {p : CStr}
    (h : ∀ l, ¬ Denotes (longTable ds 0) p l) : resolve (longTable ds 0) p = none := by
  have := resolve_denotes ds p
  cases hr : resolve (longTable ds 0) p with
  | none => rfl
  | some l' => rw [hr] at this; exact absurd this (h l')

end Argtable
