import Verif.Spec.Cmd
import Verif.Proofs.HashIter

/-!
# The command registry: proofs
-/

namespace Argtable

open Spec

variable {P C : Type}

theorem cmdFns_lawful (limit : Nat → Nat) : HashLawful (cmdFns limit) where
  refl := fun a => by simp [cmdFns, equalKeys]
  symm := fun a b h => by simp [cmdFns, equalKeys] at *; exact h.symm
  trans := fun a b c h h' => by simp [cmdFns, equalKeys] at *; exact h.trans h'
  hash := fun a b h => by simp [cmdFns, equalKeys] at h; rw [h]

theorem lookup_cons (limit : Nat → Nat) (A : List (CStr × CmdInfo P C)) (n m : CStr) (i : CmdInfo P C) :
    lookup (cmdFns limit) ((n, i) :: A) m = if n = m then some i else lookup (cmdFns limit) A m := by
  unfold lookup
  rw [List.find?_cons]
  by_cases h : n = m
  · simp [cmdFns, equalKeys, h]
  · have : (cmdFns limit).eqfn m n = false := by
      simp [cmdFns, equalKeys]; exact fun h' => h h'.symm
    simp [this, h]

theorem lookup_filter (limit : Nat → Nat) (A : List (CStr × CmdInfo P C)) (n m : CStr) :
    lookup (cmdFns limit) (A.filter (fun p => !(cmdFns limit).eqfn n p.1)) m =
      if n = m then none else lookup (cmdFns limit) A m := by
  induction A with
  | nil => simp [lookup]
  | cons p A ih =>
    obtain ⟨k, i⟩ := p
    rw [List.filter_cons]
    by_cases hk : n = k
    · subst hk
      rw [if_neg (by simp [cmdFns, equalKeys]), ih, lookup_cons]
      split <;> rfl
    · rw [if_pos (by simp [cmdFns, equalKeys]; exact hk), lookup_cons, ih, lookup_cons]
      by_cases hkm : k = m
      · subst hkm
        simp [hk]
      · simp [hkm]

theorem latest_snoc (evs : List (CmdEvent P C)) (e : CmdEvent P C) (m : CStr) :
    latest (evs ++ [e]) m = if e.name = m then e.info else latest evs m := by
  unfold latest
  rw [List.reverse_append]
  simp only [List.reverse_singleton, List.singleton_append, List.find?_cons]
  by_cases h : e.name = m
  · simp [h]
  · simp [h]

/-- The registry after a history. -/
def RegInv (limit : Nat → Nat) (r : Registry P C) (evs : List (CmdEvent P C)) : Prop :=
  ∃ t B A, r = .table t ∧ TabInv (cmdFns limit) t B A ∧ ∀ n, lookup (cmdFns limit) A n = latest evs n

theorem RegInv.init (limit : Nat → Nat) : RegInv limit (cmdInit limit : Registry P C) [] := by
  obtain ⟨t, h1, h2, _⟩ := TabInv.create (ν := CmdInfo P C) (cmdFns limit) (minsize := 32) (by omega)
  refine ⟨t, _, [], ?_, h2, fun n => rfl⟩
  unfold cmdInit
  rw [h1]

theorem RegInv.step {limit : Nat → Nat} {r : Registry P C} {evs : List (CmdEvent P C)} (h : RegInv limit r evs)
    {e : CmdEvent P C} (he : e.fits) : ∃ r', runEvent limit r e = .ok r' ∧ RegInv limit r' (evs ++ [e]) := by
  obtain ⟨t, B, A, rfl, h1, h2⟩ := h
  have hf := cmdFns_lawful limit
  cases e with
  | unregister n =>
    obtain ⟨t', B', fr, e1, e2, _, _⟩ := h1.remove hf n
    refine ⟨.table t', ?_, t', B', _, rfl, e2, ?_⟩
    · show cmdUnregister limit (.table t) n = _
      unfold cmdUnregister Registry.get
      show ((.ok t : M _) >>= _) = _
      rw [hbind_ok, e1, hbind_ok]
      rfl
    · intro m
      rw [lookup_filter, latest_snoc, h2]
      rfl
  | register n p d c =>
    obtain ⟨hn, hd⟩ := he
    have hrm : ∃ t1 B1, (if (lookup (cmdFns limit) A n).isSome then hashRemove (cmdFns limit) t n else pure t) = .ok t1 ∧
        TabInv (cmdFns limit) t1 B1 (A.filter (fun p => !(cmdFns limit).eqfn n p.1)) := by
      obtain ⟨t', B', fr, e1, e2, _, _⟩ := h1.remove hf n
      by_cases hs : (lookup (cmdFns limit) A n).isSome = true
      · rw [if_pos hs]
        exact ⟨t', B', e1, e2⟩
      · rw [if_neg hs]
        have hA : A.filter (fun p => !(cmdFns limit).eqfn n p.1) = A := by
          rw [List.filter_eq_self]
          intro q hq
          have := lookup_none (f := cmdFns limit) (A := A) (k := n)
            (by cases hl : lookup (cmdFns limit) A n <;> simp_all) q hq
          simp [this]
        exact ⟨t, B, rfl, by rw [hA]; exact h1⟩
    obtain ⟨t1, B1, e1, e2⟩ := hrm
    obtain ⟨t2, B2, e3, e4, _⟩ := e2.insert hf (k := n)
      (v := { name := n, description := d, proc := p, ctx := c }) (by rw [lookup_filter, if_pos rfl])
    refine ⟨.table t2, ?_, t2, B2, _, rfl, e4, ?_⟩
    · show cmdRegister limit (.table t) n p d c = _
      unfold cmdRegister Registry.get
      rw [if_neg (by simpa [ARG_CMD_NAME_LEN] using hn), if_neg (by simpa [ARG_CMD_DESCRIPTION_LEN] using hd)]
      show ((.ok t : M _) >>= _) = _
      rw [hbind_ok, h1.search hf, hbind_ok]
      have hswap : ∀ (b : Bool) (x y : M (HTab CStr (CmdInfo P C))) (g : HTab CStr (CmdInfo P C) → M (Registry P C)),
          (if b = true then x >>= g else y >>= g) = ((if b = true then x else y) >>= g) := by
        intro b x y g
        cases b <;> rfl
      refine (hswap _ _ (pure t) _).trans ?_
      rw [e1, hbind_ok]
      dsimp only
      rw [e3, hbind_ok]
      rfl
    · intro m
      rw [lookup_cons, lookup_filter, latest_snoc, h2]
      show (if n = m then _ else _) = if n = m then _ else _
      split
      · rfl
      · rfl

theorem RegInv.run {limit : Nat → Nat} : ∀ (es : List (CmdEvent P C)) (r : Registry P C) (evs : List (CmdEvent P C)),
    RegInv limit r evs → (∀ e ∈ es, e.fits) → ∃ r', runEvents limit r es = .ok r' ∧ RegInv limit r' (evs ++ es) := by
  intro es
  induction es with
  | nil => intro r evs h _; exact ⟨r, rfl, by simpa using h⟩
  | cons e es ih =>
    intro r evs h hfit
    obtain ⟨r1, e1, e2⟩ := h.step (hfit e (by simp))
    obtain ⟨r2, g1, g2⟩ := ih r1 _ e2 (fun e' he' => hfit e' (by simp [he']))
    refine ⟨r2, ?_, by simpa using g2⟩
    rw [runEvents, e1, hbind_ok, g1]

theorem lookup_mem {limit : Nat → Nat} {t : HTab CStr (CmdInfo P C)} {B : Nat → List Nat}
    {A : List (CStr × CmdInfo P C)} (h : TabInv (cmdFns limit) t B A) (n : CStr) (i : CmdInfo P C) :
    (n, i) ∈ A ↔ lookup (cmdFns limit) A n = some i := by
  constructor
  · intro hm
    obtain ⟨a, nd, ha, he⟩ := (h.memA _).mp hm
    obtain ⟨rfl, rfl⟩ := Prod.mk.inj he
    unfold lookup
    rw [lookup_some (cmdFns_lawful limit) h ha ((cmdFns_lawful limit).refl _)]
    rfl
  · intro hl
    unfold lookup at hl
    rw [Option.map_eq_some_iff] at hl
    obtain ⟨q, hq, rfl⟩ := hl
    have h1 := List.find?_some hq
    have h2 := List.mem_of_find?_eq_some hq
    have : n = q.1 := by simpa [cmdFns, equalKeys] using h1
    rw [this]
    exact h2

theorem latest_mem {evs : List (CmdEvent P C)} {n : CStr} (h : (latest evs n).isSome = true) :
    n ∈ evs.map CmdEvent.name := by
  unfold latest at h
  cases hf : evs.reverse.find? (fun e => e.name = n) with
  | none => rw [hf] at h; simp at h
  | some e =>
    have h1 := List.find?_some hf
    have h2 := List.mem_of_find?_eq_some hf
    rw [List.mem_map]
    exact ⟨e, by simpa using h2, by simpa using h1⟩

theorem RegInv.keys {limit : Nat → Nat} {t : HTab CStr (CmdInfo P C)} {B : Nat → List Nat}
    {A : List (CStr × CmdInfo P C)} {evs : List (CmdEvent P C)} (h : TabInv (cmdFns limit) t B A)
    (hl : ∀ n, lookup (cmdFns limit) A n = latest evs n) : (A.map (·.1)).Perm (registered evs) := by
  refine (List.perm_ext_iff_of_nodup ?_ ?_).mpr ?_
  · unfold List.Nodup
    rw [List.pairwise_map]
    refine h.pw.imp ?_
    intro p q hpq
    simpa [cmdFns, equalKeys] using hpq
  · exact (List.nodup_dedup _).filter _
  · intro n
    unfold registered
    rw [List.mem_filter, List.mem_dedup, List.mem_map]
    constructor
    · rintro ⟨⟨k, i⟩, hm, rfl⟩
      have := (lookup_mem h k i).mp hm
      rw [hl] at this
      have hs : (latest evs k).isSome = true := by rw [this]; rfl
      exact ⟨latest_mem hs, hs⟩
    · rintro ⟨_, hs⟩
      cases hc : latest evs n with
      | none => rw [hc] at hs; simp at hs
      | some i => exact ⟨(n, i), (lookup_mem h n i).mpr (by rw [hl, hc]), rfl⟩

end Argtable
