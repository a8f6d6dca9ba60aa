import Verif.Spec.Persist
import Verif.Proofs.Context
import Verif.Proofs.Entered
import Verif.Proofs.Lawful
import Verif.Proofs.Operands
import Verif.Proofs.Reading
import Verif.Proofs.Decode
/-!
# Lemmas for `Props/Persist`
-/

namespace Argtable

open Spec

variable {σ : Type}

/-! ### reading a longer command line -/

theorem tokenize_further (ds : List Decl) (env : Bool) : ∀ (n : Nat) (args : List CStr), args.length ≤ n →
    waiting env ds args = false → ∀ more evs ops evs' ops', tokenize ds env args = some (evs, ops) →
      tokenize ds env (args ++ more) = some (evs', ops') → ∃ e o, evs' = evs ++ e ∧ ops' = ops ++ o := by
  intro n
  induction n with
  | zero =>
    intro args hn _ more evs ops evs' ops' h h'
    have : args = [] := List.length_eq_zero_iff.1 (by omega)
    subst this
    simp only [tokenize, Option.some.injEq, Prod.mk.injEq] at h
    exact ⟨evs', ops', by rw [← h.1]; rfl, by rw [← h.2]; rfl⟩
  | succ n ih =>
    intro args hn hw more evs ops evs' ops' h h'
    cases args with
    | nil =>
      simp only [tokenize, Option.some.injEq, Prod.mk.injEq] at h
      exact ⟨evs', ops', by rw [← h.1]; rfl, by rw [← h.2]; rfl⟩
    | cons a rest =>
      simp only [List.length_cons] at hn
      rw [List.cons_append] at h'
      unfold waiting at hw
      by_cases hdd : a = ['-', '-']
      · rw [tokenize, if_pos hdd] at h h'
        cases h; cases h'
        exact ⟨[], more, rfl, rfl⟩
      · rw [if_neg hdd] at hw
        by_cases hop : isOperand a = true
        · rw [if_pos hop] at hw
          cases env with
          | true =>
            rw [tokenize, if_neg hdd, if_pos hop, if_pos rfl] at h h'
            cases h; cases h'
            exact ⟨[], more, rfl, rfl⟩
          | false =>
            rw [tokenize_operand _ hop, Option.map_eq_some_iff] at h h'
            obtain ⟨p, hp, h⟩ := h
            obtain ⟨p', hp', h'⟩ := h'
            cases h; cases h'
            obtain ⟨e, o, h1, h2⟩ := ih rest (by omega) (by simpa using hw) more _ _ _ _ hp hp'
            exact ⟨e, o, h1, by rw [h2]; rfl⟩
        · rw [if_neg hop] at hw
          have hopt : isOption a = true := by
            unfold isOption; simp [hop, hdd]
          by_cases hu : usesNext ds a = true
          · rw [if_pos hu] at hw
            cases rest with
            | nil => cases hw
            | cons v rest =>
              simp only [List.length_cons] at hn
              obtain ⟨e0, he⟩ := usesNext_true hu v
              rw [List.cons_append] at h'
              rw [tokenize_option_val _ hopt he, Option.map_eq_some_iff] at h h'
              obtain ⟨p, hp, h⟩ := h
              obtain ⟨p', hp', h'⟩ := h'
              cases h; cases h'
              obtain ⟨e, o, h1, h2⟩ := ih rest (by omega) hw more _ _ _ _ hp hp'
              exact ⟨e, o, by rw [h1, List.append_assoc], h2⟩
          · rw [if_neg hu] at hw
            simp only [Bool.not_eq_true] at hu
            rw [tokenize_option _ hopt hu] at h h'
            obtain ⟨c, hc, h⟩ := Option.bind_eq_some_iff.1 h
            obtain ⟨c', hc', h'⟩ := Option.bind_eq_some_iff.1 h'
            rw [hc] at hc'; cases hc'
            rw [Option.map_eq_some_iff] at h h'
            obtain ⟨p, hp, h⟩ := h
            obtain ⟨p', hp', h'⟩ := h'
            cases h; cases h'
            obtain ⟨e, o, h1, h2⟩ := ih rest (by omega) hw more _ _ _ _ hp hp'
            exact ⟨e, o, by rw [h1, List.append_assoc], h2⟩

/-! ### events go to entries with option names -/

def EvNamed (ds : List Decl) (evs : List Ev) : Prop := ∀ i a, Ev.deliver i a ∈ evs → Named ds i

theorem EvNamed.append {ds : List Decl} {e e' : List Ev} (h : EvNamed ds e) (h' : EvNamed ds e') : EvNamed ds (e ++ e') := by
  intro i a hi
  rcases List.mem_append.1 hi with hi | hi
  · exact h i a hi
  · exact h' i a hi

theorem evNamed_nil {ds : List Decl} : EvNamed ds [] := by intro i a h; cases h

theorem evNamed_fail {ds : List Decl} (c : Int) (a : Option CStr) : EvNamed ds [.fail c a] := by
  intro i a h; simp at h

theorem evNamed_deliver {ds : List Decl} {i : Nat} (h : Named ds i) (a : Option CStr) : EvNamed ds [.deliver i a] := by
  intro j b hj
  simp only [List.mem_singleton, Ev.deliver.injEq] at hj
  rw [hj.1]; exact h

theorem readLong_evNamed (ds : List Decl) (a : CStr) (n : Option CStr) (b : CStr) : EvNamed ds (readLong ds a n b).1 := by
  unfold readLong
  simp only
  split
  · exact evNamed_fail _ _
  · rename_i nm i kind hres
    have hlt : Named ds i := by simpa using (longTable_named (resolve_mem hres)).2
    split
    · exact evNamed_fail _ _
    · refine EvNamed.append ?_ (evNamed_deliver hlt _)
      intro j b hj; unfold emptyValueError at hj; split at hj <;> simp at hj
    · split
      · exact evNamed_fail _ _
      · refine EvNamed.append ?_ (evNamed_deliver hlt _)
        intro j b hj; unfold emptyValueError at hj; split at hj <;> simp at hj
    · exact evNamed_deliver hlt _

theorem readCluster_evNamed (ds : List Decl) (a : CStr) (n : Option CStr) :
    ∀ (cl : CStr) (evs : List Ev) (u : Bool), readCluster ds a n cl = some (evs, u) → EvNamed ds evs := by
  intro cl
  induction cl with
  | nil => intro evs u h; cases h; exact evNamed_nil
  | cons c tl ih =>
    intro evs u h
    simp only [readCluster] at h
    split at h
    · split at h
      · cases h
      · have := readLong_evNamed ds a n tl
        rw [Option.some.inj h] at this; exact this
    · split at h
      · cases hr : readCluster ds a n tl with
        | none => rw [hr] at h; cases h
        | some p =>
          rw [hr] at h; cases h
          exact (evNamed_fail _ _).append (ih _ _ hr)
      · rename_i i hl
        have hlt : Named ds i := (shortLookup_named hl).2
        cases hr : readCluster ds a n tl with
        | none => rw [hr] at h; cases h
        | some p =>
          rw [hr] at h; cases h
          exact (evNamed_deliver hlt _).append (ih _ _ hr)
      · rename_i i hl
        have hlt : Named ds i := (shortLookup_named hl).2
        split at h
        · cases h; exact evNamed_deliver hlt _
        · split at h
          · cases h; exact evNamed_fail _ _
          · cases h; exact evNamed_deliver hlt _
      · rename_i i hl
        have hlt : Named ds i := (shortLookup_named hl).2
        cases h; exact evNamed_deliver hlt _

theorem tokenize_evNamed (ds : List Decl) (posix : Bool) :
    ∀ (m : Nat) (args : List CStr), args.length ≤ m → ∀ (evs : List Ev) (ops : List CStr),
      tokenize ds posix args = some (evs, ops) → EvNamed ds evs := by
  intro m
  induction m with
  | zero =>
    intro args hl evs ops h
    have : args = [] := List.length_eq_zero_iff.1 (by omega)
    subst this; cases h; exact evNamed_nil
  | succ m ih =>
    intro args hl evs ops h
    cases args with
    | nil => cases h; exact evNamed_nil
    | cons a rest =>
      have hl' : rest.length ≤ m := by simpa using hl
      rw [tokenize] at h
      split at h
      · cases h; exact evNamed_nil
      · split at h
        · split at h
          · cases h; exact evNamed_nil
          · cases hr : tokenize ds posix rest with
            | none => rw [hr] at h; cases h
            | some p => rw [hr] at h; cases h; exact ih rest hl' _ _ hr
        · split at h
          · cases h
          · rename_i evs1 hrc
            cases hr : tokenize ds posix rest with
            | none => rw [hr] at h; cases h
            | some p =>
              rw [hr] at h; cases h
              exact (readCluster_evNamed _ _ _ _ _ _ hrc).append (ih rest hl' _ _ hr)
          · rename_i evs1 hrc
            cases rest with
            | nil => cases h; exact readCluster_evNamed _ _ _ _ _ _ hrc
            | cons b rest =>
              simp only at h
              cases hr : tokenize ds posix rest with
              | none => rw [hr] at h; cases h
              | some p =>
                rw [hr] at h; cases h
                exact (readCluster_evNamed _ _ _ _ _ _ hrc).append
                  (ih rest (by simp at hl'; omega) _ _ hr)

/-! ### entries without option names are left alone -/

/-- The two lists agree in everything except the value parts of entries with option names. -/
def ApartNamed (es es' : List (Hdr σ)) : Prop :=
  List.Forall₂ (fun h h' => SameHdr h h' ∧ (¬ (h.longopts.isSome ∨ h.shortopts.isSome) → h' = h)) es es'

theorem ApartNamed.refl (es : List (Hdr σ)) : ApartNamed es es := by
  induction es with
  | nil => exact .nil
  | cons h t ih => exact .cons ⟨rfl, fun _ => rfl⟩ ih

theorem ApartNamed.trans {a b c : List (Hdr σ)} (h : ApartNamed a b) (h' : ApartNamed b c) : ApartNamed a c := by
  induction h generalizing c with
  | nil => cases h'; exact .nil
  | @cons x y l l' hxy _ ih =>
    cases h' with
    | @cons _ z _ l'' hyz h' =>
      refine .cons ⟨?_, fun hx => ?_⟩ (ih h')
      · have h1 := hxy.1; have h2 := hyz.1
        unfold SameHdr at *
        rw [h2, h1]
      · have h1 := hxy.2 hx
        subst h1
        exact hyz.2 hx

theorem apartNamed_set : ∀ {es : List (Hdr σ)} {i : Nat} {h : Hdr σ} (p : σ), es[i]? = some h →
    (h.longopts.isSome ∨ h.shortopts.isSome) → ApartNamed es (es.set i { h with parent := p }) := by
  intro es
  induction es with
  | nil => intro i h p hi; cases hi
  | cons k t ih =>
    intro i h p hi hn
    cases i with
    | zero =>
      simp only [List.getElem?_cons_zero, Option.some.injEq] at hi
      subst hi
      exact .cons ⟨rfl, fun hx => absurd hn hx⟩ (ApartNamed.refl _)
    | succ i => exact .cons ⟨rfl, fun _ => rfl⟩ (ih p (by simpa using hi) hn)

theorem ApartNamed.frame {a b : List (Hdr σ)} (h : ApartNamed a b) : Frame a b := by
  induction h with
  | nil => exact .nil
  | cons h _ ih => exact .cons h.1 ih

theorem frame_declOf_eq {a b : List (Hdr σ)} (h : Frame a b) : b.map declOf = a.map declOf := by
  induction h with
  | nil => rfl
  | cons h _ ih =>
    rw [List.map_cons, List.map_cons, ih]
    unfold SameHdr at h
    rw [h]; rfl

theorem deliverAll_apartNamed : ∀ (evs : List Ev) (s s' : List (Hdr σ) × List ErrRec), EvNamed (s.1.map declOf) evs →
    deliverAll evs s = .ok s' → ApartNamed s.1 s'.1 := by
  intro evs
  induction evs with
  | nil => intro s s' _ h; cases h; exact ApartNamed.refl _
  | cons ev evs ih =>
    intro s s' hn h
    simp only [deliverAll] at h
    obtain ⟨q, hq, h⟩ := mbind_ok_inv h
    have h1 : ApartNamed s.1 q.1 := by
      cases ev with
      | fail c a => cases hq; exact ApartNamed.refl _
      | deliver i a =>
        unfold deliver at hq
        dsimp only at hq
        split at hq
        · cases hq
        · rename_i k hk
          split at hq
          · cases hq; exact ApartNamed.refl _
          · rename_i f hf
            obtain ⟨v, hv, hq⟩ := mbind_ok_inv hq
            cases hq
            obtain ⟨d, hd, hd'⟩ := hn i a (by simp)
            rw [List.getElem?_map, hk] at hd
            cases hd
            exact apartNamed_set _ hk (by
              rcases hd' with hd' | hd'
              · right; simpa [declOf] using hd'
              · left; simpa [declOf] using hd')
    refine h1.trans (ih q s' ?_ h)
    rw [frame_declOf_eq h1.frame]
    intro i a hi
    exact hn i a (by simp [hi])

/-! ### operands left over stay left over -/

theorem feed_further {f : σ → Option CStr → M (σ × Int)} : ∀ (ops : List CStr) (p : σ) (q : σ × List CStr × Int) (more : List CStr),
    feed f p ops = .ok q → q.2.1 ≠ [] → feed f p (ops ++ more) = .ok (q.1, q.2.1 ++ more, q.2.2) := by
  intro ops
  induction ops with
  | nil => intro p q more h hq; cases h; exact absurd rfl hq
  | cons a ops ih =>
    intro p q more h hq
    simp only [feed, List.cons_append] at h ⊢
    obtain ⟨v, hv, h⟩ := mbind_ok_inv h
    rw [hv, bind_ok]
    by_cases h0 : v.2 = 0
    · rw [if_pos h0] at h ⊢
      exact ih _ _ more h hq
    · rw [if_neg h0] at h ⊢
      cases h
      rfl

theorem operands_none : ∀ (es : List (Hdr σ)) (i : Nat) (last : Option (Int × Nat)) (w : List (Hdr σ) × List ErrRec),
    operands es i last [] = .ok w → w.2 = [] := by
  intro es i last w h
  cases es with
  | nil => cases h; rfl
  | cons k t => unfold operands at h; rw [if_pos rfl] at h; cases h; rfl

theorem leftover_further (last : Option (Int × Nat)) {ops : List CStr} (more : List CStr) (h : ops ≠ []) :
    leftover last (ops ++ more) = leftover last ops ++ more.map fun b => ⟨ARG_ENOMATCH, .endt, some b⟩ := by
  cases ops with
  | nil => exact absurd rfl h
  | cons a ops => cases last <;> simp [leftover]

theorem operands_further : ∀ (es es' : List (Hdr σ)) (i : Nat) (last : Option (Int × Nat)) (ops more : List CStr)
    (w w' : List (Hdr σ) × List ErrRec), ApartNamed es es' → operands es i last ops = .ok w → w.2 ≠ [] →
      operands es' i last (ops ++ more) = .ok w' → w'.2 = w.2 ++ more.map fun b => ⟨ARG_ENOMATCH, .endt, some b⟩ := by
  intro es
  induction es with
  | nil =>
    intro es' i last ops more w w' ha h hw h'
    cases ha
    cases h; cases h'
    refine leftover_further last more ?_
    rintro rfl
    exact hw rfl
  | cons k t ih =>
    intro es' i last ops more w w' ha h hw h'
    cases ha with
    | @cons _ k' _ t' hk ht =>
      have hops : ops ≠ [] := by
        rintro rfl
        exact hw (operands_none _ _ _ _ h)
      unfold operands at h h'
      rw [if_neg hops] at h
      rw [if_neg (by simp [hops])] at h'
      by_cases hn : k.longopts.isSome ∨ k.shortopts.isSome
      · have hn' : k'.longopts.isSome ∨ k'.shortopts.isSome := by
          have := hk.1; unfold SameHdr at this; rw [this]; exact hn
        rw [if_pos hn] at h
        rw [if_pos hn'] at h'
        obtain ⟨v, hv, h⟩ := mbind_ok_inv h
        obtain ⟨v', hv', h'⟩ := mbind_ok_inv h'
        cases h; cases h'
        exact ih t' _ _ _ _ v v' ht hv hw hv'
      · have e := hk.2 hn
        subst e
        rw [if_neg hn] at h h'
        cases hs : k'.scanfn with
        | none =>
          rw [hs] at h h'
          obtain ⟨v, hv, h⟩ := mbind_ok_inv h
          obtain ⟨v', hv', h'⟩ := mbind_ok_inv h'
          cases h; cases h'
          exact ih t' _ _ _ _ v v' ht hv hw hv'
        | some f =>
          rw [hs] at h h'
          obtain ⟨q, hq, h⟩ := mbind_ok_inv h
          obtain ⟨q', hq', h'⟩ := mbind_ok_inv h'
          obtain ⟨v, hv, h⟩ := mbind_ok_inv h
          obtain ⟨v', hv', h'⟩ := mbind_ok_inv h'
          cases h; cases h'
          have hl : q.2.1 ≠ [] := by
            intro hl
            rw [hl] at hv
            exact hw (operands_none _ _ _ v hv)
          rw [feed_further ops _ q more hq hl] at hq'
          cases hq'
          exact ih t' _ _ _ _ v v' ht hv hw hv'

theorem missing_isMissing {δ : Type} : ∀ (es : List (Hdr (Obj δ))) (i : Nat) (e : ErrRec), e ∈ missing es i → isMissing e := by
  intro es
  induction es with
  | nil => intro i e h; cases h
  | cons k t ih =>
    intro i e h
    unfold missing at h
    split at h
    · rcases List.mem_cons.1 h with rfl | h
      · exact ⟨rfl, i, rfl⟩
      · exact ih _ _ h
    · exact ih _ _ h

/-- The errors raised by a command line are raised, in order, by a longer one. -/
theorem scanned_further {es : List (Hdr σ)} {evs e : List Ev} {ops o : List CStr} {q q' : List (Hdr σ) × List ErrRec}
    (hn : EvNamed (es.map declOf) (evs ++ e)) (h : scanned es evs ops = .ok q) (h' : scanned es (evs ++ e) (ops ++ o) = .ok q') :
    q.2.Sublist q'.2 := by
  obtain ⟨s, w, h1, h2, rfl⟩ := scanned_split h
  obtain ⟨s', w', h1', h2', rfl⟩ := scanned_split h'
  have h3 : deliverAll e s = .ok s' := by
    unfold afterOptions at h1 h1'
    obtain ⟨es0, h0, h1⟩ := mbind_ok_inv h1
    rw [h0, bind_ok, deliverAll_append, h1, bind_ok] at h1'
    exact h1'
  have hf : s.1.map declOf = es.map declOf := frame_declOf_eq (afterOptions_frame h1)
  have ha : ApartNamed s.1 s'.1 := deliverAll_apartNamed e s s' (by
    rw [hf]; intro i a hi; exact hn i a (by simp [hi])) h3
  refine (deliverAll_prefix e s s' h3).sublist.append ?_
  by_cases hw : w.2 = []
  · rw [hw]; exact List.nil_sublist _
  · rw [operands_further _ _ _ _ _ _ _ _ ha h2 hw h2']
    exact List.sublist_append_left _ _

end Argtable
