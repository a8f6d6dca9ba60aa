import Verif.Proofs.Shared
import Verif.Spec.Work
/-!
# How much `arg_parse` does
-/

namespace Argtable
open Spec

variable {σ W : Type} {env : Bool} {nargc : Nat} {sopts : CStr} {lopts : List LongOpt}

theorem decode_nonempty {ds : List Decl} {copt : Int} {g : GState} {evs : List Ev} (h : decode ds copt g = .ok evs) :
    1 ≤ evs.length := by
  unfold decode at h
  split at h
  · split at h
    · cases h
    · split at h
      · obtain ⟨a, _, h⟩ := mbind_ok_inv h
        cases h; simp
      · cases h; simp
  · split at h
    · split at h
      · obtain ⟨a, _, h⟩ := mbind_ok_inv h
        cases h; simp
      · cases h; simp
    · split at h
      · obtain ⟨a, _, h⟩ := mbind_ok_inv h
        cases h; simp
      · split at h
        · cases h; simp
        · cases h; simp

/-- Each call of getopt reads something, except for the last one. -/
theorem decodeLoop_rounds {ds : List Decl} : ∀ {n : Nat} {g gf : GState} {evs : List Ev},
    decodeLoop env nargc sopts lopts ds n g = .ok (gf, evs) →
    ∀ k, evs.length + 1 ≤ k → decodeLoop env nargc sopts lopts ds k g = .ok (gf, evs) := by
  intro n
  induction n with
  | zero => intro g gf evs h; cases h
  | succ n ih =>
    intro g gf evs h k hk
    obtain ⟨k, rfl⟩ : ∃ j, k = j + 1 := ⟨k - 1, by omega⟩
    simp only [decodeLoop] at h ⊢
    obtain ⟨⟨copt, g1⟩, hg, h⟩ := mbind_ok_inv h
    rw [hg, bind_ok]
    dsimp only at h ⊢
    split at h
    · next hc => rw [if_pos hc]; exact h
    · next hc =>
      obtain ⟨e1, he1, h⟩ := mbind_ok_inv h
      obtain ⟨⟨g2, e2⟩, he2, hrest⟩ := mbind_ok_inv h
      cases hrest
      have := decode_nonempty he1
      rw [if_neg hc, he1, bind_ok, ih he2 k (by simp only [List.length_append] at hk; omega)]
      rfl

theorem readLong_size (ds : List Decl) (whole : CStr) (next : Option CStr) (body : CStr) :
    (readLong ds whole next body).1.length ≤ 2 := by
  have he : ∀ i v w, (emptyValueError ds i v w).length ≤ 1 := by
    intro i v w
    unfold emptyValueError
    split <;> simp
  unfold readLong
  dsimp only
  split
  · simp
  · split
    · simp
    · rename_i i _ _ v _ _ _
      simp only [List.length_append, List.length_cons, List.length_nil]
      have := he ‹_› ‹_› whole
      omega
    · split
      · simp
      · rename_i v
        simp only [List.length_append, List.length_cons, List.length_nil]
        have := he ‹_› v v
        omega
    · simp

theorem readCluster_size (ds : List Decl) (whole : CStr) (next : Option CStr) :
    ∀ (cl : CStr) (evs : List Ev) (u : Bool), readCluster ds whole next cl = some (evs, u) → evs.length ≤ cl.length := by
  intro cl
  induction cl with
  | nil => intro evs u h; cases h; simp
  | cons c tl ih =>
    intro evs u h
    rw [readCluster] at h
    split at h
    · split at h
      · cases h
      · next hne =>
        have hl := readLong_size ds whole next tl
        rw [Option.some.inj h] at hl
        dsimp only at hl
        have := List.length_pos_iff.2 hne
        simp only [List.length_cons]; omega
    · split at h
      · cases hr : readCluster ds whole next tl with
        | none => rw [hr] at h; cases h
        | some p => rw [hr] at h; cases h; have := ih _ _ hr; simp; omega
      · cases hr : readCluster ds whole next tl with
        | none => rw [hr] at h; cases h
        | some p => rw [hr] at h; cases h; have := ih _ _ hr; simp; omega
      · split at h
        · cases h; simp
        · split at h <;> cases h <;> simp
      · cases h; simp

theorem tokenize_size (ds : List Decl) (posix : Bool) :
    ∀ (m : Nat) (args : List CStr), args.length ≤ m → ∀ (evs : List Ev) (ops : List CStr),
      tokenize ds posix args = some (evs, ops) → evs.length ≤ chars args ∧ ops.length ≤ args.length := by
  intro m
  induction m with
  | zero =>
    intro args hl evs ops h
    have : args = [] := List.length_eq_zero_iff.1 (by omega)
    subst this; cases h; exact ⟨Nat.le_refl _, Nat.le_refl _⟩
  | succ m ih =>
    intro args hl evs ops h
    cases args with
    | nil => cases h; exact ⟨Nat.le_refl _, Nat.le_refl _⟩
    | cons a rest =>
      have hl' : rest.length ≤ m := by simpa using hl
      simp only [chars, List.length_cons]
      rw [tokenize] at h
      split at h
      · cases h; exact ⟨Nat.zero_le _, Nat.le_succ _⟩
      · split at h
        · split at h
          · cases h; exact ⟨Nat.zero_le _, Nat.le_refl _⟩
          · cases hr : tokenize ds posix rest with
            | none => rw [hr] at h; cases h
            | some p =>
              rw [hr] at h; cases h
              have := ih rest hl' _ _ hr
              simp only [List.length_cons]; omega
        · split at h
          · cases h
          · rename_i evs1 hrc
            have h1 := readCluster_size _ _ _ _ _ _ hrc
            simp only [List.length_tail] at h1
            cases hr : tokenize ds posix rest with
            | none => rw [hr] at h; cases h
            | some p =>
              rw [hr] at h; cases h
              have := ih rest hl' _ _ hr
              simp only [List.length_append]; omega
          · rename_i evs1 hrc
            have h1 := readCluster_size _ _ _ _ _ _ hrc
            simp only [List.length_tail] at h1
            cases rest with
            | nil => cases h; simp only [chars, List.length_nil]; omega
            | cons b rest =>
              simp only at h
              cases hr : tokenize ds posix rest with
              | none => rw [hr] at h; cases h
              | some p =>
                rw [hr] at h; cases h
                have := ih rest (by simp at hl'; omega) _ _ hr
                simp only [List.length_append, chars, List.length_cons]; omega

/-- The loop ends after as many rounds as there are events, and one. -/
theorem parseTagged_rounds (env : Bool) (a0 : CStr) (args : List CStr) (hargs : CArgs args) (g : GState) (t : Table σ)
    (hwf : WF (t.entries.map declOf)) {evs : List Ev} {ops : List CStr}
    (htok : tokenize (t.entries.map declOf) env args = some (evs, ops)) :
    ∃ gf, ∀ n, evs.length + 1 ≤ n →
      parseTagged env n (a0 :: args).length { g with nargv := a0 :: args } t = applyAll evs t >>= fun t' => .ok (gf, t') := by
  obtain ⟨k, gf, _, hrun⟩ := reading_spec (env := env) _ hwf (sopts_ok t.entries hwf) a0 args hargs g htok
  refine ⟨gf, fun n hn => ?_⟩
  rw [parseTagged_eq env n a0 args g t hwf]
  exact taggedLoop_decode (decodeLoop_rounds (hrun 0) n hn) t rfl

theorem argParse_rounds {t : Table σ} {g : GState} {argv : List CStr} {r : Nat × Table σ × GState}
    (hwf : WF (t.entries.map declOf)) (hargs : CArgs argv.tail) (h : Returns env argv t g r) :
    argParse env (chars argv.tail + 1) argv t g = .ok r := by
  cases htok : tokenize (t.entries.map declOf) env argv.tail with
  | none => exact absurd h (argParse_hung env t hwf argv hargs g htok r)
  | some p =>
    obtain ⟨evs, ops⟩ := p
    have hsz := (tokenize_size _ env argv.tail.length argv.tail (Nat.le_refl _) evs ops htok).1
    obtain ⟨fuel, h⟩ := h
    have h' := argParse_mono env fuel (chars argv.tail + 1) argv t g _ h (by simp)
    rw [← h']
    unfold argParse
    cases hr : argReset t with
    | error e => rfl
    | ok t0 =>
      simp only [bind_ok]
      cases argv with
      | nil => rfl
      | cons a0 args =>
        have hd : t0.entries.map declOf = t.entries.map declOf := by
          unfold argReset at hr
          rw [resetEntries_eq] at hr
          cases he : resetAll t.entries with
          | error e => rw [he] at hr; cases hr
          | ok es => rw [he] at hr; cases hr; exact resetAll_decl he
        obtain ⟨gf, hgf⟩ := parseTagged_rounds env a0 args hargs g t0 (by rw [hd]; exact hwf) (by rw [hd]; exact htok)
        rw [hgf _ (by simpa using hsz), hgf (fuel + _) (by simp only [List.tail_cons] at hsz ⊢; omega)]

/-! ### the number of callbacks -/

theorem optionCalls_size {es : List (Entry W)} {evs : List Ev} {l : List (Call × Int)} {errs : List ErrRec}
    (h : OptionCalls es evs l errs) : l.length ≤ evs.length ∧ errs.length ≤ evs.length := by
  induction h <;> simp only [List.length_cons, List.length_nil] <;> omega

theorem leftover_size (last : Option (Int × Nat)) (ops : List CStr) : (leftover last ops).length = ops.length := by
  unfold leftover
  split <;> simp

theorem operandCalls_size {es : List (Entry W)} {i : Nat} {last : Option (Int × Nat)} {ops : List CStr}
    {l : List (Call × Int)} {errs : List ErrRec} (h : OperandCalls es i last ops l errs) :
    i ≤ es.length ∧ l.length ≤ ops.length + (es.length - i) ∧ errs.length ≤ ops.length := by
  induction h with
  | exhausted hi => simp [hi, leftover_size]
  | done hi => simp; omega
  | skip hi _ _ _ ih => have := (List.getElem?_eq_some_iff.1 hi).1; omega
  | accept hi _ _ ih => have := (List.getElem?_eq_some_iff.1 hi).1; simp only [List.length_cons] at ih ⊢; omega
  | reject hi _ _ _ ih => have := (List.getElem?_eq_some_iff.1 hi).1; simp only [List.length_cons] at ih ⊢; omega

theorem checkCalls_size {es : List (Entry W)} {i : Nat} {l : List (Call × Int)} {errs : List ErrRec}
    (h : CheckCalls es i l errs) : l.length ≤ es.length ∧ errs.length ≤ es.length := by
  induction h <;> simp only [List.length_cons, List.length_nil] <;> omega

theorem resetCalls_size : ∀ (es : List (Entry W)) (i : Nat), (resetCalls es i).length ≤ es.length := by
  intro es
  induction es with
  | nil => intro i; exact Nat.le_refl _
  | cons e es ih =>
    intro i
    have := ih (i + 1)
    unfold resetCalls
    split <;> simp <;> omega

theorem callsFor_size {es : List (Entry W)} {evs : List Ev} {ops : List CStr} {l : List (Call × Int)} {errs : List ErrRec}
    (h : CallsFor es evs ops l errs) : l.length ≤ 3 * es.length + evs.length + ops.length := by
  have h0 := resetCalls_size es 0
  cases h with
  | checked a b c =>
    have h1 := (optionCalls_size a).1
    have h2 := (operandCalls_size b).2.1
    have h3 := (checkCalls_size c).1
    simp only [List.length_append]; omega
  | failed a b _ =>
    have h1 := (optionCalls_size a).1
    have h2 := (operandCalls_size b).2.1
    simp only [List.length_append]; omega

end Argtable
