/- Whether a tree is well-formed can be computed. -/
import Verif.Spec.Regex

namespace Argtable
open Spec

instance : DecidablePred Lit.Ok := fun l => by cases l <;> unfold Lit.Ok <;> infer_instance
instance : DecidablePred Lit.SetOk := fun l => by cases l <;> unfold Lit.SetOk <;> infer_instance
instance : DecidablePred Lit.EndOk := fun l => by cases l <;> unfold Lit.EndOk <;> infer_instance
instance : DecidablePred SetItem.Ok := fun l => by cases l <;> unfold SetItem.Ok <;> infer_instance

instance decRange : (x : SetItem) → Decidable (∃ a b, x = .range a b)
  | .range a b => .isTrue ⟨a, b, rfl⟩
  | .one _ => .isFalse (by rintro ⟨a, b, h⟩; cases h)
  | .cls _ => .isFalse (by rintro ⟨a, b, h⟩; cases h)

instance decSeparate : (l : List SetItem) → Decidable (Separate l)
  | [] => .isTrue trivial
  | [_] => .isTrue trivial
  | x :: y :: l =>
    have := decSeparate (y :: l)
    show Decidable (((∃ a b, x = .range a b) ∨ y.text.head? ≠ some '-') ∧ Separate (y :: l)) from inferInstance

instance : DecidablePred Quant.Ok := fun q => by
  cases q with
  | raw lo hi =>
    cases hi with
    | none =>
      exact decidable_of_iff (lo ≠ [] ∧ lo.length ≤ 9 ∧ (∀ c ∈ lo, isDigit c = true) ∧ bound lo < 32768)
        ⟨fun h => ⟨h, fun _ hh => by cases hh⟩, fun h => h.1⟩
    | some ds =>
      exact decidable_of_iff ((lo ≠ [] ∧ lo.length ≤ 9 ∧ (∀ c ∈ lo, isDigit c = true) ∧ bound lo < 32768) ∧
          ds.length ≤ 9 ∧ ∀ c ∈ ds, isDigit c = true)
        ⟨fun h => ⟨h.1, fun _ hh => by cases hh; exact h.2⟩, fun h => ⟨h.1, h.2 _ rfl⟩⟩
  | _ => unfold Quant.Ok; infer_instance

instance decOnce : (q : Quant) → Decidable (q = .once)
  | .once => .isTrue rfl
  | .opt => .isFalse (by intro h; cases h)
  | .star => .isFalse (by intro h; cases h)
  | .plus => .isFalse (by intro h; cases h)
  | .exactly _ => .isFalse (by intro h; cases h)
  | .atLeast _ => .isFalse (by intro h; cases h)
  | .between _ _ => .isFalse (by intro h; cases h)
  | .raw _ _ => .isFalse (by intro h; cases h)

instance (bol : Bool) (t : CStr) : Decidable (Opens bol t) := by unfold Opens; infer_instance
instance (q : Quant) (t : CStr) : Decidable (Continues q t) := by unfold Continues; infer_instance

mutual
instance decReOk : (r : Re) → Decidable r.Ok
  | .branch bol es =>
    have := decElemsOk es
    decidable_of_iff (es.Ok ∧ Opens bol es.text) (by unfold Re.Ok; rfl)
  | .alt bol es r =>
    have := decElemsOk es
    have := decReOk r
    decidable_of_iff (es.Ok ∧ r.Ok ∧ Opens bol es.text) (by conv => rhs; unfold Re.Ok)
instance decElemsOk : (es : Elems) → Decidable es.Ok
  | .last a q =>
    have := decAtomOk a
    decidable_of_iff (a.Ok ∧ q.Ok) (by conv => rhs; unfold Elems.Ok)
  | .more a q es =>
    have := decAtomOk a
    have := decElemsOk es
    decidable_of_iff (a.Ok ∧ q.Ok ∧ es.Ok ∧ Continues q es.text) (by conv => rhs; unfold Elems.Ok)
instance decAtomOk : (a : Atom) → Decidable a.Ok
  | .chr l => decidable_of_iff l.Ok (by conv => rhs; unfold Atom.Ok)
  | .cls l => decidable_of_iff (l ∈ classLetters) (by conv => rhs; unfold Atom.Ok)
  | .any => .isTrue (by unfold Atom.Ok; trivial)
  | .set neg first items =>
    decidable_of_iff ((∀ x ∈ first :: items, x.Ok) ∧ Opens neg first.text ∧ Separate (first :: items))
      (by conv => rhs; unfold Atom.Ok)
  | .eol => .isTrue (by unfold Atom.Ok; trivial)
  | .edge _ => .isTrue (by unfold Atom.Ok; trivial)
  | .group capture r =>
    have := decReOk r
    decidable_of_iff (r.Ok ∧ (capture = true → r.text.head? ≠ some '?')) (by conv => rhs; unfold Atom.Ok)
end

end Argtable

namespace Argtable
open Spec

instance decPlacedItems : (k : Nat) → (l : List SetItem) → Decidable (PlacedItems k l)
  | _, [] => .isTrue trivial
  | k, .range a b :: l =>
    have := decPlacedItems (k + 2) l
    decidable_of_iff (k ≤ b.head ∧ PlacedItems (k + 2) l)
      ⟨fun h => ⟨fun _ _ e => by cases e; exact h.1, h.2⟩, fun h => ⟨h.1 _ _ rfl, h.2⟩⟩
  | k, .one _ :: l =>
    have := decPlacedItems (k + 1) l
    decidable_of_iff (PlacedItems (k + 1) l) ⟨fun h => ⟨fun _ _ e => (by cases e), h⟩, fun h => h.2⟩
  | k, .cls _ :: l =>
    have := decPlacedItems (k + 1) l
    decidable_of_iff (PlacedItems (k + 1) l) ⟨fun h => ⟨fun _ _ e => (by cases e), h⟩, fun h => h.2⟩

mutual
instance decRePlaced : (k : Nat) → (r : Re) → Decidable (r.Placed k)
  | k, .branch bol es =>
    have := decElemsPlaced (k + bol.toNat) es
    decidable_of_iff (es.Placed (k + bol.toNat)) (by rw [Re.Placed])
  | k, .alt bol es r =>
    have := decElemsPlaced (k + bol.toNat) es
    have := decRePlaced (k + bol.toNat + es.size + 1) r
    decidable_of_iff (es.Placed (k + bol.toNat) ∧ r.Placed (k + bol.toNat + es.size + 1)) (by rw [Re.Placed])
instance decElemsPlaced : (k : Nat) → (es : Elems) → Decidable (es.Placed k)
  | k, .last a q =>
    have := decAtomPlaced k a
    decidable_of_iff (a.Placed k) (by rw [Elems.Placed])
  | k, .more a q es =>
    have := decAtomPlaced k a
    have := decElemsPlaced (k + a.size + q.size) es
    decidable_of_iff (a.Placed k ∧ es.Placed (k + a.size + q.size)) (by rw [Elems.Placed])
instance decAtomPlaced : (k : Nat) → (a : Atom) → Decidable (a.Placed k)
  | _, .chr _ => .isTrue (by unfold Atom.Placed; trivial)
  | _, .cls _ => .isTrue (by unfold Atom.Placed; trivial)
  | _, .any => .isTrue (by unfold Atom.Placed; trivial)
  | _, .eol => .isTrue (by unfold Atom.Placed; trivial)
  | _, .edge _ => .isTrue (by unfold Atom.Placed; trivial)
  | k, .set neg first items => decidable_of_iff (PlacedItems (k + 1) (first :: items)) (by rw [Atom.Placed])
  | k, .group _ r =>
    have := decRePlaced (k + 1) r
    decidable_of_iff (r.Placed (k + 1)) (by rw [Atom.Placed])
end

instance (r : Re) : Decidable r.Compiles := decRePlaced 1 r

/-! Short patterns compile. -/

theorem sizeItems_le : ∀ l : List SetItem, sizeItems l ≤ (l.flatMap SetItem.text).length
  | [] => Nat.le_refl _
  | x :: l => by
    have := sizeItems_le l
    have hx : x.size ≤ x.text.length := by
      cases x with
      | one a => cases a <;> simp [SetItem.size, SetItem.text, Lit.text]
      | cls a => simp [SetItem.size, SetItem.text]
      | range a b => cases a <;> simp [SetItem.size, SetItem.text, Lit.text]
    rw [sizeItems, List.flatMap_cons, List.length_append]
    omega

theorem quant_size_le (q : Quant) : q.size ≤ q.text.length := by
  cases q with
  | raw lo hi => cases hi <;> simp [Quant.size, Quant.text]
  | _ => simp [Quant.size, Quant.text, cs]

mutual
theorem re_size_le : ∀ r : Re, r.size ≤ r.text.length
  | .branch bol es => by
    have := elems_size_le es
    rw [Re.size, Re.text]
    cases bol <;> simp [cs] <;> omega
  | .alt bol es r => by
    have := elems_size_le es
    have := re_size_le r
    rw [Re.size, Re.text]
    cases bol <;> simp [cs] <;> omega
theorem elems_size_le : ∀ es : Elems, es.size ≤ es.text.length
  | .last a q => by
    have := atom_size_le a
    have := quant_size_le q
    rw [Elems.size, Elems.text]
    simp
    omega
  | .more a q es => by
    have := atom_size_le a
    have := quant_size_le q
    have := elems_size_le es
    rw [Elems.size, Elems.text]
    simp
    omega
theorem atom_size_le : ∀ a : Atom, a.size ≤ a.text.length
  | .chr l => by
    rw [Atom.size, Atom.text] <;> try simp
    cases l <;> simp [Lit.text]
  | .cls l => by rw [Atom.size, Atom.text] <;> simp
  | .any => by rw [Atom.size, Atom.text] <;> simp [cs]
  | .eol => by rw [Atom.size, Atom.text] <;> simp [cs]
  | .edge neg => by
    rw [Atom.size, Atom.text] <;> try simp
    cases neg <;> simp [cs]
  | .set neg x xs => by
    have := sizeItems_le (x :: xs)
    rw [Atom.size, Atom.text]
    simp at this ⊢
    omega
  | .group c r => by
    have := re_size_le r
    rw [Atom.size, Atom.text]
    cases c <;> simp [cs] <;> omega
end

theorem placedItems_of {len : Nat} : ∀ (l : List SetItem) (k : Nat), (∀ x ∈ l, x.Fits len) →
    k + (l.flatMap SetItem.text).length ≤ len → PlacedItems k l
  | [], _, _, _ => trivial
  | x :: l, k, h, hk => by
    rw [List.flatMap_cons, List.length_append] at hk
    have hx : x.size ≤ x.text.length := by
      have := sizeItems_le [x]
      simpa [sizeItems] using this
    refine ⟨?_, placedItems_of l _ (fun y hy => h y (by simp [hy])) (by omega)⟩
    rintro a b rfl
    have : len ≤ b.head + 2 := h (.range a b) (by simp)
    have : 3 ≤ (SetItem.range a b).text.length := by
      cases a <;> cases b <;> simp [SetItem.text, Lit.text]
    omega

mutual
theorem re_placed_of {len : Nat} : ∀ (r : Re) (k : Nat), r.Fits len → k + r.text.length ≤ len + 1 → r.Placed k
  | .branch bol es, k, h, hk => by
    rw [Re.Fits] at h
    rw [Re.text] at hk
    rw [Re.Placed]
    exact elems_placed_of es _ h (by cases bol <;> simp [cs] at hk ⊢ <;> omega)
  | .alt bol es r, k, h, hk => by
    rw [Re.Fits] at h
    rw [Re.text] at hk
    have := elems_size_le es
    rw [Re.Placed]
    exact ⟨elems_placed_of es _ h.1 (by cases bol <;> simp [cs] at hk ⊢ <;> omega),
      re_placed_of r _ h.2 (by cases bol <;> simp [cs] at hk ⊢ <;> omega)⟩
theorem elems_placed_of {len : Nat} : ∀ (es : Elems) (k : Nat), es.Fits len → k + es.text.length ≤ len + 1 → es.Placed k
  | .last a q, k, h, hk => by
    rw [Elems.Fits] at h
    rw [Elems.text] at hk
    rw [Elems.Placed]
    exact atom_placed_of a _ h (by simp at hk; omega)
  | .more a q es, k, h, hk => by
    rw [Elems.Fits] at h
    rw [Elems.text] at hk
    have := atom_size_le a
    have := quant_size_le q
    rw [Elems.Placed]
    simp at hk
    exact ⟨atom_placed_of a _ h.1 (by omega), elems_placed_of es _ h.2 (by omega)⟩
theorem atom_placed_of {len : Nat} : ∀ (a : Atom) (k : Nat), a.Fits len → k + a.text.length ≤ len + 1 → a.Placed k
  | .chr _, _, _, _ => by unfold Atom.Placed; trivial
  | .cls _, _, _, _ => by unfold Atom.Placed; trivial
  | .any, _, _, _ => by unfold Atom.Placed; trivial
  | .eol, _, _, _ => by unfold Atom.Placed; trivial
  | .edge _, _, _, _ => by unfold Atom.Placed; trivial
  | .set neg x xs, k, h, hk => by
    rw [Atom.Fits] at h
    rw [Atom.text] at hk
    rw [Atom.Placed]
    refine placedItems_of _ _ h ?_
    cases neg <;> simp [cs] at hk ⊢ <;> omega
  | .group c r, k, h, hk => by
    rw [Atom.Fits] at h
    rw [Atom.text] at hk
    rw [Atom.Placed]
    exact re_placed_of r _ h (by cases c <;> simp [cs] at hk ⊢ <;> omega)
end

theorem compiles_of_fits {r : Re} (h : r.Fits r.text.length) : r.Compiles :=
  re_placed_of r 1 h (by omega)

mutual
theorem re_fits {len : Nat} (hl : len ≤ 34) : ∀ r : Re, r.Ok → r.Fits len
  | .branch bol es, h => by rw [Re.Ok] at h; rw [Re.Fits]; exact elems_fits hl es h.1
  | .alt bol es r, h => by rw [Re.Ok] at h; rw [Re.Fits]; exact ⟨elems_fits hl es h.1, re_fits hl r h.2.1⟩
theorem elems_fits {len : Nat} (hl : len ≤ 34) : ∀ es : Elems, es.Ok → es.Fits len
  | .last a q, h => by rw [Elems.Ok] at h; rw [Elems.Fits]; exact atom_fits hl a h.1
  | .more a q es, h => by rw [Elems.Ok] at h; rw [Elems.Fits]; exact ⟨atom_fits hl a h.1, elems_fits hl es h.2.2.1⟩
theorem atom_fits {len : Nat} (hl : len ≤ 34) : ∀ a : Atom, a.Ok → a.Fits len
  | .chr _, _ => by unfold Atom.Fits; trivial
  | .cls _, _ => by unfold Atom.Fits; trivial
  | .any, _ => by unfold Atom.Fits; trivial
  | .eol, _ => by unfold Atom.Fits; trivial
  | .edge _, _ => by unfold Atom.Fits; trivial
  | .set neg x xs, h => by
    rw [Atom.Ok] at h
    rw [Atom.Fits]
    intro y hy
    have := h.1 y hy
    cases y with
    | one l => trivial
    | cls l => trivial
    | range a b =>
      show len ≤ b.head + 2
      have hb : b.EndOk := this.2
      cases b with
      | plain c => have := hb.1; show len ≤ c.toNat + 2; omega
      | quoted c => show len ≤ 92 + 2; omega
      | ctl c => show len ≤ 92 + 2; omega
  | .group c r, h => by rw [Atom.Ok] at h; rw [Atom.Fits]; exact re_fits hl r h.1
end

end Argtable
