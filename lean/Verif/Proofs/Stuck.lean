import Verif.Proofs.Context
/-!
# Command lines without a reading
-/

namespace Argtable

open Spec

variable {σ : Type}

theorem readCluster_none_iff (ds : List Decl) (w : CStr) (n : Option CStr) : ∀ body : CStr,
    readCluster ds w n body = none ↔ ∃ fs, body = fs ++ ['-'] ∧
      ∀ c ∈ fs, c ≠ '-' ∧ ∀ i k, shortLookup c ds 0 = some (i, k) → k = .no := by
  intro body
  induction body with
  | nil => simp [readCluster]
  | cons c tl ih =>
    rw [readCluster]
    by_cases hc : c = '-'
    · subst hc
      rw [if_pos rfl]
      by_cases ht : tl = []
      · subst ht
        simp only [if_true, true_iff]
        exact ⟨[], rfl, by simp⟩
      · rw [if_neg ht]
        simp only [reduceCtorEq, false_iff]
        rintro ⟨fs, h, hfs⟩
        cases fs with
        | nil => simp at h; exact ht h
        | cons d fs =>
          simp only [List.cons_append, List.cons.injEq] at h
          exact (hfs d (by simp)).1 h.1.symm
    · rw [if_neg hc]
      have key : (∀ i k, shortLookup c ds 0 = some (i, k) → k = .no) →
          ((∃ fs, c :: tl = fs ++ ['-'] ∧
            ∀ c ∈ fs, c ≠ '-' ∧ ∀ i k, shortLookup c ds 0 = some (i, k) → k = .no) ↔
          readCluster ds w n tl = none) := by
        intro hk
        rw [ih]
        constructor
        · rintro ⟨fs, h, hfs⟩
          cases fs with
          | nil => simp at h; exact absurd h.1 hc
          | cons d fs =>
            simp only [List.cons_append, List.cons.injEq] at h
            exact ⟨fs, h.2, fun x hx => hfs x (by simp [hx])⟩
        · rintro ⟨fs, rfl, hfs⟩
          refine ⟨c :: fs, rfl, ?_⟩
          intro x hx
          rcases List.mem_cons.1 hx with rfl | hx
          · exact ⟨hc, hk⟩
          · exact hfs x hx
      have nokey : ∀ i k, shortLookup c ds 0 = some (i, k) → k ≠ .no →
          ¬ ∃ fs, c :: tl = fs ++ ['-'] ∧
            ∀ c ∈ fs, c ≠ '-' ∧ ∀ i k, shortLookup c ds 0 = some (i, k) → k = .no := by
        rintro i k hl hk ⟨fs, h, hfs⟩
        cases fs with
        | nil => simp at h; exact absurd h.1 hc
        | cons d fs =>
          simp only [List.cons_append, List.cons.injEq] at h
          rw [← h.1] at hfs
          exact hk ((hfs c (by simp)).2 i k hl)
      cases hl : shortLookup c ds 0 with
      | none =>
        rw [hl] at key
        rw [key (by simp)]
        simp
      | some p =>
        obtain ⟨i, k⟩ := p
        cases k with
        | no =>
          rw [hl] at key
          rw [key (by simp)]
          simp
        | req =>
          have := nokey i .req hl (by simp)
          simp only [this, iff_false]
          split
          · simp
          · cases n <;> simp
        | opt =>
          have := nokey i .opt hl (by simp)
          simp [this]

theorem stuck_iff {ds : List Decl} {a : CStr} (ho : isOption a = true) (n : Option CStr) :
    readCluster ds a n a.tail = none ↔ Stuck ds a := by
  rw [readCluster_none_iff]
  unfold isOption at ho
  simp only [Bool.and_eq_true, Bool.not_eq_true', bne_iff_ne, ne_eq] at ho
  unfold Stuck
  constructor
  · rintro ⟨fs, h, hfs⟩
    match a, ho, h with
    | '-' :: b :: c, ho, h =>
      refine ⟨fs, ?_, by simpa using h, hfs⟩
      rintro rfl
      simp at h
      exact ho.2 (by simp [h])
    | [], ho, h => simp [isOperand] at ho
    | [x], ho, h => simp [isOperand] at ho
    | x :: y :: z, ho, h =>
      by_cases hx : x = '-'
      · subst hx
        refine ⟨fs, ?_, by simpa using h, hfs⟩
        rintro rfl
        simp at h
        exact ho.2 (by simp [h])
      · exfalso
        have := ho.1
        unfold isOperand at this
        split at this
        · rename_i heq; cases heq; exact hx rfl
        · cases this
  · rintro ⟨fs, _, rfl, hfs⟩
    exact ⟨fs, rfl, hfs⟩

/-- The command lines without a reading are those with a stuck cluster among the arguments that are
examined for options. -/
theorem tokenize_none_iff (env : Bool) (ds : List Decl) : ∀ (n : Nat) (args : List CStr),
    args.length ≤ n → (tokenize ds env args = none ↔
      ∃ pre a post, args = pre ++ a :: post ∧ stillOn env ds pre = true ∧ Stuck ds a) := by
  intro n
  have hstill : stillOn env ds [] = true := by unfold stillOn; cases env <;> rfl
  have hstuckopt : ∀ a, Stuck ds a → isOption a = true := by
    rintro a ⟨fs, hne, rfl, hfs⟩
    cases fs with
    | nil => exact absurd rfl hne
    | cons c fs =>
      have := (hfs c (by simp)).1
      simp [isOption, isOperand]
  induction n with
  | zero =>
    intro args hn
    have : args = [] := List.length_eq_zero_iff.1 (by omega)
    subst this
    simp [tokenize]
  | succ n ih =>
    intro args hn
    cases args with
    | nil => simp [tokenize]
    | cons a rest =>
      simp only [List.length_cons] at hn
      by_cases hdd : a = ['-', '-']
      · subst hdd
        rw [tokenize, if_pos rfl]
        simp only [reduceCtorEq, false_iff]
        rintro ⟨pre, b, post, h, hp, hs⟩
        cases pre with
        | nil =>
          simp at h
          have := hstuckopt b hs
          rw [← h.1] at this
          simp [isOption] at this
        | cons x pre =>
          simp only [List.cons_append, List.cons.injEq] at h
          rw [← h.1] at hp
          unfold stillOn complete optionsOnly at hp
          cases env <;> simp at hp
      · by_cases hop : isOperand a = true
        · cases env with
          | true =>
            rw [tokenize, if_neg hdd, if_pos hop, if_pos rfl]
            simp only [reduceCtorEq, false_iff]
            rintro ⟨pre, b, post, h, hp, hs⟩
            cases pre with
            | nil =>
              simp at h
              have := hstuckopt b hs
              rw [← h.1] at this
              simp [isOption, hop] at this
            | cons x pre =>
              simp only [List.cons_append, List.cons.injEq] at h
              rw [← h.1] at hp
              unfold stillOn optionsOnly at hp
              simp [hdd, hop] at hp
          | false =>
            rw [tokenize, if_neg hdd, if_pos hop, if_neg (by simp)]
            rw [Option.map_eq_none_iff, ih rest (by omega)]
            constructor
            · rintro ⟨pre, b, post, rfl, hp, hs⟩
              refine ⟨a :: pre, b, post, rfl, ?_, hs⟩
              unfold stillOn complete
              simpa [hdd, hop, stillOn] using hp
            · rintro ⟨pre, b, post, h, hp, hs⟩
              cases pre with
              | nil =>
                simp at h
                have := hstuckopt b hs
                rw [← h.1] at this
                simp [isOption, hop] at this
              | cons x pre =>
                simp only [List.cons_append, List.cons.injEq] at h
                refine ⟨pre, b, post, h.2, ?_, hs⟩
                rw [← h.1] at hp
                unfold stillOn complete at hp
                simpa [hdd, hop, stillOn] using hp
        · have ho : isOption a = true := by
            unfold isOption; simp [hop, hdd]
          simp only [Bool.not_eq_true] at hop
          by_cases hst : Stuck ds a
          · have hr := (stuck_iff ho rest.head?).2 hst
            rw [tokenize, if_neg hdd, if_neg (by simp [hop]), hr]
            simp only [true_iff]
            exact ⟨[], a, rest, rfl, hstill, hst⟩
          · cases hu : usesNext ds a with
            | false =>
              rw [tokenize_option _ ho hu]
              cases hr : readCluster ds a none a.tail with
              | none => exact absurd ((stuck_iff ho none).1 hr) hst
              | some p =>
                rw [Option.bind_some, Option.map_eq_none_iff, ih rest (by omega)]
                constructor
                · rintro ⟨pre, b, post, rfl, hp, hs⟩
                  refine ⟨a :: pre, b, post, rfl, ?_, hs⟩
                  unfold stillOn complete optionsOnly
                  simpa [hdd, hop, hu, stillOn] using hp
                · rintro ⟨pre, b, post, h, hp, hs⟩
                  cases pre with
                  | nil =>
                    simp at h
                    rw [h.1] at hst
                    exact absurd hs hst
                  | cons x pre =>
                    simp only [List.cons_append, List.cons.injEq] at h
                    refine ⟨pre, b, post, h.2, ?_, hs⟩
                    rw [← h.1] at hp
                    unfold stillOn complete optionsOnly at hp
                    simpa [hdd, hop, hu, stillOn] using hp
            | true =>
              cases rest with
              | nil =>
                rw [tokenize, if_neg hdd, if_neg (by simp [hop])]
                have : readCluster ds a ([] : List CStr).head? a.tail ≠ none := by
                  intro h; exact hst ((stuck_iff ho _).1 h)
                have hnone : ¬ ∃ pre b post, [a] = pre ++ b :: post ∧ stillOn env ds pre = true ∧
                    Stuck ds b := by
                  rintro ⟨pre, b, post, h, hp, hs⟩
                  cases pre with
                  | nil => simp at h; rw [h.1] at hst; exact hst hs
                  | cons x pre => simp at h
                cases hr : readCluster ds a ([] : List CStr).head? a.tail with
                | none => exact absurd hr this
                | some p =>
                  obtain ⟨e, u⟩ := p
                  cases u <;> simp only [tokenize, Option.map_some, reduceCtorEq, false_iff] <;> exact hnone
              | cons v rest =>
                simp only [List.length_cons] at hn
                obtain ⟨evs, he⟩ := usesNext_true hu v
                rw [tokenize_option_val _ ho he, Option.map_eq_none_iff, ih rest (by omega)]
                constructor
                · rintro ⟨pre, b, post, rfl, hp, hs⟩
                  refine ⟨a :: v :: pre, b, post, rfl, ?_, hs⟩
                  unfold stillOn complete optionsOnly
                  simpa [hdd, hop, hu, stillOn] using hp
                · rintro ⟨pre, b, post, h, hp, hs⟩
                  cases pre with
                  | nil =>
                    simp at h
                    rw [h.1] at hst
                    exact absurd hs hst
                  | cons x pre =>
                    cases pre with
                    | nil =>
                      simp only [List.cons_append, List.cons.injEq] at h
                      rw [← h.1] at hp
                      unfold stillOn complete optionsOnly at hp
                      cases env <;> simp [hdd, hop, hu] at hp
                    | cons y pre =>
                      simp only [List.cons_append, List.cons.injEq] at h
                      refine ⟨pre, b, post, h.2.2, ?_, hs⟩
                      rw [← h.1] at hp
                      unfold stillOn complete optionsOnly at hp
                      simpa [hdd, hop, hu, stillOn] using hp

/-! ### headers do not change -/

theorem Spec.SameHdr.refl (h : Hdr σ) : SameHdr h h := rfl

theorem Spec.SameHdr.trans {h k l : Hdr σ} (h1 : SameHdr h k) (h2 : SameHdr k l) : SameHdr h l := by
  unfold SameHdr at *
  rw [h2, h1]

theorem sameHdr_set (h : Hdr σ) (p : σ) : SameHdr h { h with parent := p } := rfl

theorem Spec.Frame.refl (es : List (Hdr σ)) : Frame es es := by
  induction es with
  | nil => exact .nil
  | cons h t ih => exact .cons (SameHdr.refl h) ih

theorem Spec.Frame.trans {a b c : List (Hdr σ)} (h1 : Frame a b) (h2 : Frame b c) : Frame a c := by
  induction h1 generalizing c with
  | nil => cases h2; exact .nil
  | cons h _ ih =>
    cases h2 with
    | cons h' t' => exact .cons (h.trans h') (ih t')

theorem frame_set (es : List (Hdr σ)) (i : Nat) (h : Hdr σ) (he : es[i]? = some h) (p : σ) :
    Frame es (es.set i { h with parent := p }) := by
  induction es generalizing i with
  | nil => simp at he
  | cons k t ih =>
    cases i with
    | zero =>
      simp at he
      subst he
      exact .cons (sameHdr_set _ p) (Frame.refl t)
    | succ i => exact .cons (SameHdr.refl k) (ih i (by simpa using he))

theorem resetAll_frame : ∀ (es es' : List (Hdr σ)), resetAll es = .ok es' → Frame es es' := by
  intro es
  induction es with
  | nil => intro es' h; cases h; exact .nil
  | cons h t ih =>
    intro es' he
    unfold resetAll at he
    cases hr : h.resetfn with
    | none =>
      rw [hr] at he
      cases ht : resetAll t with
      | error e => rw [ht] at he; cases he
      | ok t' =>
        rw [ht] at he
        cases he
        refine .cons ?_ (ih t' ht)
        rw [← hr]
        exact SameHdr.refl h
    | some f =>
      rw [hr] at he
      cases hf : f h.parent with
      | error e => simp only [bind, Except.bind, hf] at he; cases he
      | ok p =>
        simp only [bind, Except.bind, hf] at he
        cases ht : resetAll t with
        | error e => rw [ht] at he; cases he
        | ok t' =>
          rw [ht] at he
          cases he
          refine .cons ?_ (ih t' ht)
          rw [← hr]
          exact sameHdr_set h p

theorem deliver_frame {s s' : List (Hdr σ) × List ErrRec} {ev : Ev} (h : deliver s ev = .ok s') :
    Frame s.1 s'.1 := by
  cases ev with
  | fail c a => cases h; exact Frame.refl _
  | deliver i a =>
    unfold deliver at h
    dsimp only at h
    cases he : s.1[i]? with
    | none => rw [he] at h; cases h
    | some k =>
      rw [he] at h
      dsimp only at h
      cases hs : k.scanfn with
      | none => rw [hs] at h; cases h; exact Frame.refl _
      | some f =>
        rw [hs] at h
        dsimp only at h
        cases hf : f k.parent a with
        | error e => rw [hf] at h; cases h
        | ok q =>
          rw [hf] at h
          cases h
          dsimp only
          rw [← hs]
          exact frame_set _ _ _ he _

theorem deliverAll_frame : ∀ (evs : List Ev) (s s' : List (Hdr σ) × List ErrRec),
    deliverAll evs s = .ok s' → Frame s.1 s'.1 := by
  intro evs
  induction evs with
  | nil => intro s s' h; cases h; exact Frame.refl _
  | cons ev evs ih =>
    intro s s' h
    unfold deliverAll at h
    cases hd : deliver s ev with
    | error e => rw [hd] at h; cases h
    | ok s1 =>
      rw [hd] at h
      exact (deliver_frame hd).trans (ih _ _ h)

theorem operands_frame : ∀ (es : List (Hdr σ)) (i : Nat) (last : Option (Int × Nat))
    (ops : List CStr) (q : List (Hdr σ) × List ErrRec), operands es i last ops = .ok q →
    Frame es q.1 := by
  intro es
  induction es with
  | nil => intro i last ops q h; cases h; exact .nil
  | cons k t ih =>
    intro i last ops q h
    unfold operands at h
    split at h
    · cases h; exact Frame.refl _
    split at h
    · cases ht : operands t (i + 1) last ops with
      | error e => rw [ht] at h; cases h
      | ok r => rw [ht] at h; cases h; exact .cons (SameHdr.refl k) (ih _ _ _ _ ht)
    · cases hs : k.scanfn with
      | none =>
        rw [hs] at h
        dsimp only at h
        cases ht : operands t (i + 1) last ops with
        | error e => rw [ht] at h; cases h
        | ok r => rw [ht] at h; cases h; exact .cons (SameHdr.refl k) (ih _ _ _ _ ht)
      | some f =>
        rw [hs] at h
        dsimp only at h
        cases hf : feed f k.parent ops with
        | error e => rw [hf] at h; cases h
        | ok w =>
          rw [hf] at h
          simp only [bind, Except.bind] at h
          cases ht : operands t (i + 1) (some (w.2.2, i)) w.2.1 with
          | error e => rw [ht] at h; cases h
          | ok r =>
            rw [ht] at h
            cases h
            refine .cons ?_ (ih _ _ _ _ ht)
            rw [← hs]
            exact sameHdr_set k _

theorem meaning_frame {es : List (Hdr σ)} {evs : List Ev} {ops : List CStr}
    {q : List (Hdr σ) × List ErrRec} (h : meaning es evs ops = .ok q) : Frame es q.1 := by
  unfold meaning at h
  cases h0 : resetAll es with
  | error e => rw [h0] at h; cases h
  | ok es0 =>
    rw [h0] at h
    cases h1 : deliverAll evs (es0, []) with
    | error e => simp only [bind, Except.bind, h1] at h; cases h
    | ok s1 =>
      simp only [bind, Except.bind, h1] at h
      cases h2 : operands s1.1 0 none ops with
      | error e => rw [h2] at h; cases h
      | ok s2 =>
        rw [h2] at h
        cases h
        have h3 := operands_frame _ _ _ _ _ h2
        exact (resetAll_frame _ _ h0).trans ((deliverAll_frame _ _ _ h1).trans
          h3)

end Argtable
