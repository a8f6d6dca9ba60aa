import Verif.Proofs.Shared
import Verif.Proofs.Context
/-!
# A table of distinct objects as a table with shared memory
-/

namespace Argtable
open Spec

variable {σ : Type}

theorem ownTable_get (es : List (Hdr σ)) (i : Nat) : (ownTable es)[i]? = es[i]?.map (ownEntry i) := by
  simp [ownTable]

theorem objects_get (es : List (Hdr σ)) (i : Nat) : (objects es)[i]? = es[i]?.map Hdr.parent := by
  simp [objects]

theorem ownTable_length (es : List (Hdr σ)) : (ownTable es).length = es.length := by simp [ownTable]

theorem ownTable_set {es : List (Hdr σ)} {i : Nat} {h : Hdr σ} (hi : es[i]? = some h) (p : σ) :
    ownTable (es.set i { h with parent := p }) = ownTable es := by
  apply List.ext_getElem?
  intro j
  rw [ownTable_get, ownTable_get, List.getElem?_set]
  split
  · next hij =>
    subst hij
    rw [hi]
    have hlt := (List.getElem?_eq_some_iff.1 hi).1
    simp only [hlt, if_true, Option.map_some]
    rfl
  · rfl

theorem objects_set (es : List (Hdr σ)) (i : Nat) (h : Hdr σ) (p : σ) :
    objects (es.set i { h with parent := p }) = (objects es).set i p := by
  simp [objects, List.map_set]

theorem called_own_scan {es : List (Hdr σ)} {i : Nat} {h : Hdr σ} (hi : es[i]? = some h)
    {f : σ → Option CStr → M (σ × Int)} (hf : h.scanfn = some f) {w : List σ} {p : σ} (hw : w[i]? = some p)
    {a : Option CStr} {p' : σ} {n : Int} (hr : f p a = .ok (p', n)) :
    called (ownTable es) w (.scan i a) = some (.ok (w.set i p', n)) := by
  simp [called, ownTable_get, hi, ownEntry, hf, hw, hr, Except.map]

theorem deliverAll_own : ∀ (evs : List Ev) (es es' : List (Hdr σ)) (errs errs' : List ErrRec),
    deliverAll evs (es, errs) = .ok (es', errs') →
    ∃ l e, errs' = errs ++ e ∧ OptionCalls (ownTable es) evs l e ∧ Performs (ownTable es) (objects es) l (objects es') ∧
      ownTable es' = ownTable es := by
  intro evs
  induction evs with
  | nil => intro es es' errs errs' h; cases h; exact ⟨[], [], by simp, .nil, .nil, rfl⟩
  | cons ev evs ih =>
    intro es es' errs errs' h
    simp only [deliverAll] at h
    obtain ⟨⟨es1, errs1⟩, h1, h⟩ := mbind_ok_inv h
    obtain ⟨l, e, he, ho, hp, hown⟩ := ih _ _ _ _ h
    cases ev with
    | fail c a =>
      cases h1
      exact ⟨l, _, by rw [he]; simp, .fail ho, hp, hown⟩
    | deliver i a =>
      simp only [deliver] at h1
      cases hi : es[i]? with
      | none => rw [hi] at h1; cases h1
      | some hd =>
        rw [hi] at h1
        dsimp only at h1
        cases hf : hd.scanfn with
        | none =>
          rw [hf] at h1
          cases h1
          exact ⟨l, e, he, .skip (by rw [ownTable_get, hi]; rfl) (by simp [ownEntry, hf]) ho, hp, hown⟩
        | some f =>
          rw [hf] at h1
          obtain ⟨⟨p, n⟩, hr, h1⟩ := mbind_ok_inv h1
          cases h1
          have hc := called_own_scan hi hf (w := objects es) (by rw [objects_get, hi]; rfl) hr
          dsimp only at ho hp hown he
          rw [← hf] at ho hp hown
          rw [ownTable_set hi] at ho hp hown
          rw [objects_set] at hp
          by_cases hn : n = 0
          · subst hn
            exact ⟨_, e, by simpa using he, .accept ho, .cons hc hp, hown⟩
          · refine ⟨_, _, ?_, .reject hn ho, .cons hc hp, hown⟩
            rw [he]; simp [hn]

theorem feed_own {es : List (Hdr σ)} {i : Nat} {h : Hdr σ} (hi : es[i]? = some h) (hpl : (ownEntry i h).plain)
    {f : σ → Option CStr → M (σ × Int)} (hf : h.scanfn = some f) :
    ∀ (ops : List CStr) (w : List σ) (p p' : σ) (ops' : List CStr) (err : Int), w[i]? = some p →
    feed f p ops = .ok (p', ops', err) →
    ∃ l, Performs (ownTable es) w l (w.set i p') ∧
      ((ops' = [] ∧ ∀ last, OperandCalls (ownTable es) i last ops l []) ∨
       (ops' ≠ [] ∧ ∀ last l2 errs, OperandCalls (ownTable es) (i + 1) (some (err, i)) ops' l2 errs →
          OperandCalls (ownTable es) i last ops (l ++ l2) errs)) := by
  have hlt := (List.getElem?_eq_some_iff.1 hi).1
  have hget : (ownTable es)[i]? = some (ownEntry i h) := by rw [ownTable_get, hi]; rfl
  intro ops
  induction ops with
  | nil =>
    intro w p p' ops' err hw hfd
    cases hfd
    refine ⟨[], ?_, Or.inl ⟨rfl, fun _ => .done (by rw [ownTable_length]; exact hlt)⟩⟩
    have : w.set i p = w := by
      apply List.ext_getElem?
      intro j
      rw [List.getElem?_set]
      split
      · next hij => subst hij; rw [hw]; simp [(List.getElem?_eq_some_iff.1 hw).1]
      · rfl
    rw [this]; exact .nil
  | cons a ops ih =>
    intro w p p' ops' err hw hfd
    simp only [feed] at hfd
    obtain ⟨⟨q, n⟩, hr, hfd⟩ := mbind_ok_inv hfd
    have hc := called_own_scan hi hf hw hr
    dsimp only at hfd
    by_cases hn : n = 0
    · rw [if_pos hn] at hfd
      subst hn
      have hq : (w.set i q)[i]? = some q := by
        rw [List.getElem?_set_self]; exact (List.getElem?_eq_some_iff.1 hw).1
      obtain ⟨l, hp, hor⟩ := ih (w.set i q) q p' ops' err hq hfd
      rw [List.set_set] at hp
      refine ⟨_, .cons hc hp, ?_⟩
      rcases hor with ⟨h1, h2⟩ | ⟨h1, h2⟩
      · exact Or.inl ⟨h1, fun last => .accept hget hpl (h2 none)⟩
      · exact Or.inr ⟨h1, fun last l2 errs hh => .accept hget hpl (h2 none l2 errs hh)⟩
    · rw [if_neg hn] at hfd
      cases hfd
      exact ⟨_, .cons hc .nil, Or.inr ⟨by simp, fun last l2 errs hh => .reject hget hpl hn hh⟩⟩

theorem operands_own : ∀ (rest pre rest' : List (Hdr σ)) (last : Option (Int × Nat)) (ops : List CStr)
    (errs : List ErrRec), operands rest pre.length last ops = .ok (rest', errs) →
    ∃ l, OperandCalls (ownTable (pre ++ rest)) pre.length last ops l errs ∧
      Performs (ownTable (pre ++ rest)) (objects (pre ++ rest)) l (objects (pre ++ rest')) ∧
      ownTable (pre ++ rest') = ownTable (pre ++ rest) := by
  intro rest
  induction rest with
  | nil =>
    intro pre rest' last ops errs h
    cases h
    exact ⟨[], .exhausted (by simp [ownTable_length]), .nil, rfl⟩
  | cons hd rest ih =>
    intro pre rest' last ops errs h
    have hi : (pre ++ hd :: rest)[pre.length]? = some hd := by simp
    have hget : (ownTable (pre ++ hd :: rest))[pre.length]? = some (ownEntry pre.length hd) := by rw [ownTable_get, hi]; rfl
    have hlt : pre.length < (ownTable (pre ++ hd :: rest)).length := by rw [ownTable_length]; simp
    unfold operands at h
    by_cases hops : ops = []
    · rw [if_pos hops] at h
      cases h
      subst hops
      exact ⟨[], .done hlt, .nil, rfl⟩
    · rw [if_neg hops] at h
      have skip : ¬ (ownEntry pre.length hd).plain →
          (operands rest (pre.length + 1) last ops >>= fun x => .ok (hd :: x.1, x.2) : M _) = .ok (rest', errs) →
          ∃ l, OperandCalls (ownTable (pre ++ hd :: rest)) pre.length last ops l errs ∧
            Performs (ownTable (pre ++ hd :: rest)) (objects (pre ++ hd :: rest)) l (objects (pre ++ rest')) ∧
            ownTable (pre ++ rest') = ownTable (pre ++ hd :: rest) := by
        intro hnp h
        obtain ⟨⟨t', e'⟩, h1, h⟩ := mbind_ok_inv h
        cases h
        obtain ⟨l, a, b, c⟩ := ih (pre ++ [hd]) t' last ops e' (by simpa using h1)
        simp only [List.append_assoc, List.singleton_append, List.length_append, List.length_cons, List.length_nil,
          Nat.zero_add] at a b c
        exact ⟨l, .skip hget hnp hops a, b, c⟩
      by_cases hd' : hd.longopts.isSome ∨ hd.shortopts.isSome
      · rw [if_pos hd'] at h
        refine skip ?_ h
        rintro ⟨h1, h2, _⟩
        simp only [ownEntry, declOf] at h1 h2
        rcases hd' with hx | hx <;> simp_all
      · rw [if_neg hd'] at h
        cases hf : hd.scanfn with
        | none =>
          rw [hf] at h
          exact skip (fun hp => hp.2.2 (by simp [ownEntry, hf])) h
        | some f =>
          rw [hf] at h
          dsimp only at h
          have hpl : (ownEntry pre.length hd).plain := by
            refine ⟨?_, ?_, by simp [ownEntry, hf]⟩
            · show hd.longopts = none
              cases hl : hd.longopts with
              | none => rfl
              | some x => exact absurd (Or.inl (by rw [hl]; rfl)) hd'
            · show hd.shortopts = none
              cases hl : hd.shortopts with
              | none => rfl
              | some x => exact absurd (Or.inr (by rw [hl]; rfl)) hd'
          obtain ⟨⟨p, ops', err⟩, hfd, h⟩ := mbind_ok_inv h
          obtain ⟨⟨t', e'⟩, h1, hrest⟩ := mbind_ok_inv h
          cases hrest
          dsimp only
          rw [← hf]
          obtain ⟨l, hp, hor⟩ := feed_own hi hpl hf ops (objects (pre ++ hd :: rest)) hd.parent p ops' err
            (by rw [objects_get, hi]; rfl) hfd
          have hset : (pre ++ hd :: rest).set pre.length { hd with parent := p } = pre ++ { hd with parent := p } :: rest := by
            simp
          have hown := ownTable_set hi p
          have hobj := objects_set (pre ++ hd :: rest) pre.length hd p
          rw [hset] at hown hobj
          rw [← hobj] at hp
          obtain ⟨l2, a, b, c⟩ := ih (pre ++ [{ hd with parent := p }]) t' (some (err, pre.length)) ops' e' (by simpa using h1)
          simp only [List.append_assoc, List.singleton_append, List.length_append, List.length_cons, List.length_nil,
            Nat.zero_add] at a b c
          rw [hown] at a b c
          rcases hor with ⟨rfl, hh⟩ | ⟨_, hh⟩
          · obtain ⟨rfl, rfl⟩ : t' = rest ∧ e' = [] := by
              rw [operands_nil] at h1; cases h1; exact ⟨rfl, rfl⟩
            exact ⟨l, hh last, hp, hown⟩
          · exact ⟨_, hh last l2 e' a, hp.append b, c⟩

theorem checks_own : ∀ (rest pre : List (Hdr σ)),
    ∃ l, CheckCalls (rest.mapIdx fun k => ownEntry (pre.length + k)) pre.length l (checks rest pre.length) ∧
      Performs (ownTable (pre ++ rest)) (objects (pre ++ rest)) l (objects (pre ++ rest)) := by
  intro rest
  induction rest with
  | nil => intro pre; exact ⟨[], .nil, .nil⟩
  | cons h rest ih =>
    intro pre
    have hi : (pre ++ h :: rest)[pre.length]? = some h := by simp
    obtain ⟨l, a, b⟩ := ih (pre ++ [h])
    simp only [List.append_assoc, List.singleton_append, List.length_append, List.length_cons, List.length_nil,
      Nat.zero_add] at a b
    rw [List.mapIdx_cons]
    have hm : (rest.mapIdx fun k => ownEntry (σ := σ) (pre.length + (k + 1))) =
        rest.mapIdx fun k => ownEntry (pre.length + 1 + k) := by
      congr 1; funext k; congr 1; omega
    rw [hm]
    simp only [checks, Nat.add_zero]
    cases hc : h.checkfn with
    | none => exact ⟨l, .skip (by simp [ownEntry, hc]) a, b⟩
    | some f =>
      have hcall : called (ownTable (pre ++ h :: rest)) (objects (pre ++ h :: rest)) (.check pre.length) =
          some (.ok (objects (pre ++ h :: rest), f h.parent)) := by
        simp [called, ownTable_get, objects_get, ownEntry, hc]
      dsimp only
      by_cases hn : f h.parent = 0
      · rw [hn] at hcall
        rw [if_neg (by simpa using hn)]
        exact ⟨_, .accept (by simp [ownEntry, hc]) a, .cons hcall b⟩
      · rw [if_pos hn]
        exact ⟨_, .reject (by simp [ownEntry, hc]) hn a, .cons hcall b⟩

theorem resetAll_own : ∀ (rest pre rest' : List (Hdr σ)), resetAll rest = .ok rest' →
    Performs (ownTable (pre ++ rest)) (objects (pre ++ rest))
      (resetCalls (rest.mapIdx fun k => ownEntry (pre.length + k)) pre.length) (objects (pre ++ rest')) ∧
      ownTable (pre ++ rest') = ownTable (pre ++ rest) := by
  intro rest
  induction rest with
  | nil => intro pre rest' h; cases h; exact ⟨.nil, rfl⟩
  | cons h rest ih =>
    intro pre rest' hr
    have hi : (pre ++ h :: rest)[pre.length]? = some h := by simp
    simp only [resetAll] at hr
    obtain ⟨p, t, hp, ht, rfl⟩ : ∃ p t, (match h.resetfn with | none => .ok h.parent | some f => f h.parent : M σ) = .ok p ∧
        resetAll rest = .ok t ∧ rest' = { h with parent := p } :: t := by
      cases hf : h.resetfn with
      | none =>
        rw [hf] at hr
        obtain ⟨p, hp, hr1⟩ := mbind_ok_inv hr
        obtain ⟨t, ht, hrest⟩ := mbind_ok_inv hr1
        cases hrest
        exact ⟨_, _, hp, ht, by rw [← hf]⟩
      | some f =>
        rw [hf] at hr
        obtain ⟨p, hp, hr1⟩ := mbind_ok_inv hr
        obtain ⟨t, ht, hrest⟩ := mbind_ok_inv hr1
        cases hrest
        exact ⟨_, _, hp, ht, by rw [← hf]⟩
    have hset : (pre ++ h :: rest).set pre.length { h with parent := p } = pre ++ { h with parent := p } :: rest := by simp
    have hown := ownTable_set hi p
    have hobj := objects_set (pre ++ h :: rest) pre.length h p
    rw [hset] at hown hobj
    obtain ⟨a, b⟩ := ih (pre ++ [{ h with parent := p }]) t ht
    simp only [List.append_assoc, List.singleton_append, List.length_append, List.length_cons, List.length_nil,
      Nat.zero_add] at a b
    rw [hown] at a b
    have hm : (rest.mapIdx fun k => ownEntry (σ := σ) (pre.length + (k + 1))) =
        rest.mapIdx fun k => ownEntry (pre.length + 1 + k) := by
      congr 1; funext k; congr 1; omega
    refine ⟨?_, b⟩
    rw [List.mapIdx_cons, hm]
    simp only [resetCalls, Nat.add_zero]
    obtain hf | ⟨f, hf⟩ : h.resetfn = none ∨ ∃ f, h.resetfn = some f := by cases h.resetfn <;> simp
    · rw [hf] at hp
      cases hp
      have hr' : (ownEntry pre.length h).reset = none := by simp [ownEntry, hf]
      rw [if_neg (by rw [hr']; simp), List.nil_append]
      exact a
    · rw [hf] at hp
      have hp' : f h.parent = .ok p := hp
      have hr' : (ownEntry pre.length h).reset.isSome = true := by simp [ownEntry, hf]
      rw [if_pos hr', List.singleton_append]
      refine .cons ?_ a
      rw [hobj]
      have hg : (objects (pre ++ h :: rest))[pre.length]? = some h.parent := by rw [objects_get, hi]; rfl
      simp only [called, ownTable_get, hi, Option.map_some, Option.bind_some, ownEntry, hf, hg, hp', Except.map]

theorem meaning_own {es es' : List (Hdr σ)} {evs : List Ev} {ops : List CStr} {errs : List ErrRec}
    (h : meaning es evs ops = .ok (es', errs)) :
    ∃ l, CallsFor (ownTable es) evs ops l errs ∧ Performs (ownTable es) (objects es) l (objects es') := by
  unfold meaning at h
  obtain ⟨es0, h0, h⟩ := mbind_ok_inv h
  obtain ⟨⟨es1, e1⟩, h1, hrest⟩ := mbind_ok_inv h
  obtain ⟨⟨es2, e2⟩, h2, hlast⟩ := mbind_ok_inv hrest
  obtain ⟨p0, o0⟩ := resetAll_own es [] es0 h0
  obtain ⟨l1, e1', he, c1, p1, o1⟩ := deliverAll_own _ _ _ _ _ h1
  obtain ⟨l2, c2, p2, o2⟩ := operands_own es1 [] es2 _ _ _ h2
  simp only [List.nil_append, List.length_nil, Nat.zero_add] at p0 o0 he c2 p2 o2
  subst he
  have hes : (List.mapIdx (fun k => ownEntry k) es : List (Entry (List σ))) = ownTable es := rfl
  rw [hes] at p0
  rw [o0] at c1 p1 o1
  rw [o1] at c2 p2 o2
  cases hlast
  by_cases hn : e1 ++ e2 = []
  · rw [if_pos hn]
    obtain ⟨rfl, rfl⟩ := List.append_eq_nil_iff.1 hn
    obtain ⟨l3, c3, p3⟩ := checks_own es' []
    simp only [List.nil_append, List.length_nil, Nat.zero_add] at c3 p3
    have hes2 : (List.mapIdx (fun k => ownEntry k) es' : List (Entry (List σ))) = ownTable es' := rfl
    rw [hes2, o2] at c3
    rw [o2] at p3
    exact ⟨_, .checked c1 c2 c3, ((p0.append p1).append p2).append p3⟩
  · rw [if_neg hn]
    exact ⟨_, .failed c1 c2 hn, (p0.append p1).append p2⟩

theorem decls_ownTable (es : List (Hdr σ)) : decls (ownTable es) = es.map declOf := by
  apply List.ext_getElem?
  intro i
  simp only [decls, List.getElem?_map, ownTable_get]
  cases es[i]? <;> rfl

end Argtable
