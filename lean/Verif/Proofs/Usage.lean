import Verif.Spec.Usage
import Verif.Proofs.Express
import Verif.Proofs.Entered
import Verif.Proofs.Print
/-!
# Following the usage line: lemmas
-/

namespace Argtable

open Spec

variable {σ δ : Type} {ds : List Decl}

theorem options_before {posix : Bool} {as rest : List CStr} {g gs : List (Nat × Option CStr)} {ops : List CStr}
    (h : Options ds as g) (hl : Line ds posix rest gs ops) : Line ds posix (as ++ rest) (g ++ gs) ops := by
  induction h with
  | nil => exact hl
  | option h1 h2 _ ih => rw [List.cons_append, List.append_assoc]; exact .option h1 h2 ih
  | optionValue h1 _ ih => rw [List.cons_append, List.cons_append, List.append_assoc]; exact .optionValue h1 ih

theorem operands_before {vs rest : List CStr} {gs : List (Nat × Option CStr)} {ops : List CStr}
    (hv : ∀ v ∈ vs, isOperand v = true) (hl : Line ds false rest gs ops) : Line ds false (vs ++ rest) gs (vs ++ ops) := by
  induction vs with
  | nil => exact hl
  | cons v vs ih => exact .operand (hv v (by simp)) rfl (ih fun w hw => hv w (by simp [hw]))

theorem operands_line {vs : List CStr} (hv : ∀ v ∈ vs, isOperand v = true) (posix : Bool) : Line ds posix vs [] vs := by
  cases posix with
  | false => have := operands_before (ds := ds) hv .done; simpa using this
  | true =>
    cases vs with
    | nil => exact .done
    | cons v vs => exact .posix vs (hv v (by simp)) rfl

/-- The values the mentions of an entry give it. -/
theorem mention_options (hd : Clear ds) {i : Nat} {h : Hdr (Obj δ)} (hi : ds[i]? = some (declOf h)) (hh : Honest h)
    (hs : Switch h = false) (ht : tagged h = true) {vs : List (Option CStr)} (ho : Obeys h vs) :
    Options ds (vs.flatMap (mentionArgs h)) (vs.map fun v => (i, v)) := by
  have one : ∀ v ∈ vs, Options ds (mentionArgs h v) [(i, v)] := by
    intro v hv
    have hrem : isRem h.parent = false := by
      rcases Bool.eq_false_or_eq_true (isRem h.parent) with h1 | h1
      · rw [ho.remark h1] at hv; cases hv
      · exact h1
    unfold mentionArgs
    cases hso : h.shortopts with
    | some so =>
      have hval : h.hasValue = true := by
        rw [Switch, hso] at hs
        simpa using hs
      have hopt := hh.certain (by rw [hso]; rfl)
      obtain ⟨c, l, rfl⟩ : ∃ c l, so = c :: l :=
        List.exists_cons_of_ne_nil fun e => hh.letters (by rw [hso, e])
      obtain ⟨a1, a2⟩ := distinct_short hd hi (c := c) (by show c ∈ h.shortopts.getD []; rw [hso]; simp)
      have hk : (declOf h).shortKind = .req := by simp [Decl.shortKind, declOf, hval, hopt]
      cases v with
      | none =>
        rcases (ho.bare hv).2 with h1 | h1
        · have := hh.shown hrem; rw [h1, hval] at this; cases this
        · rw [hopt] at h1; cases h1
      | some v => exact .optionValue (body := [c]) (.separate a1 (by rw [a2, hk])) .nil
    | none =>
      cases hlo : h.longopts with
      | none => rw [tagged, hso, hlo] at ht; cases ht
      | some lo =>
        have hn : (declOf h).names = namesOf lo := by simp [Decl.names, declOf, hlo]
        have hL := spell_long hd hi (by rw [hn]; exact hh.names lo hlo) v
        rw [hn] at hL
        have hL := hL (by
          rintro rfl
          rcases (ho.bare hv).2 with h1 | h1
          · have h2 := hh.shown hrem
            rw [h1] at h2
            simp only [Decl.longKind, declOf, ← h2]
            cases h.hasOptValue <;> simp
          · simp [Decl.longKind, declOf, h1]) (by
          rintro w rfl
          have h1 := ho.filled _ hv (by simp)
          have h2 : h.hasValue = true := by
            rw [← hh.shown hrem]
            exact Option.isSome_iff_ne_none.2 h1
          refine ⟨?_, fun e => absurd (e ▸ hv) (ho.equals hso (by rw [hlo]; simp))⟩
          simp only [Decl.longKind, declOf, h2]
          cases h.hasOptValue <;> simp)
        cases v with
        | none => exact hL
        | some w =>
          have : cs "--" ++ (namesOf lo).headD [] ++ cs "=" ++ w = cs "--" ++ (namesOf lo).headD [] ++ '=' :: w := by
            simp [cs]
          show Options ds [cs "--" ++ (namesOf lo).headD [] ++ cs "=" ++ w] _
          rw [this]
          exact hL
  clear ho
  induction vs with
  | nil => exact .nil
  | cons v vs ih => exact options_append (one v (by simp)) (ih fun w hw => one w (by simp [hw]))

theorem mention_operands {h : Hdr (Obj δ)} (ht : tagged h = false) {vs : List (Option CStr)} (ho : Obeys h vs) :
    vs.flatMap (mentionArgs h) = vs.filterMap id ∧ (∀ v ∈ vs.filterMap id, isOperand v = true) ∧
      vs = (vs.filterMap id).map some := by
  have h1 : h.shortopts = none ∧ h.longopts = none := by simpa [tagged] using ht
  refine ⟨?_, fun v hv => ho.operand ht v (by simpa using hv), ?_⟩
  · have : mentionArgs h = fun v => v.toList := by
      funext v
      simp only [mentionArgs, h1.1, h1.2]
      cases v <;> rfl
    rw [this]
    clear ho this
    induction vs with
    | nil => rfl
    | cons v vs ih =>
      cases v with
      | none => rw [List.filterMap_cons, ← ih]; rfl
      | some v => rw [List.filterMap_cons, ← ih]; rfl
  · have hb : none ∉ vs := fun h => by have := (ho.bare h).1; rw [ht] at this; cases this
    clear ho
    induction vs with
    | nil => rfl
    | cons v vs ih =>
      cases v with
      | none => exact absurd (by simp) hb
      | some v =>
        rw [List.filterMap_cons]
        show _ = some v :: (vs.filterMap id).map some
        rw [← ih fun h => hb (by simp [h])]

/-- The items of the usage line after the switches. -/
theorem items_line (hd : Clear ds) (posix : Bool) (L : List ((Hdr (Obj δ) × List (Option CStr)) × Nat))
    (hi : ∀ x ∈ L, ds[x.2]? = some (declOf x.1.1)) (hh : ∀ x ∈ L, Honest x.1.1) (ho : ∀ x ∈ L, Obeys x.1.1 x.1.2)
    (hp : posix = true → L.Pairwise fun x y => tagged y.1.1 = true → tagged x.1.1 = true) :
    Line ds posix ((L.filter fun x => !Switch x.1.1).flatMap fun x => x.1.2.flatMap (mentionArgs x.1.1))
      ((L.filter fun x => !Switch x.1.1 && tagged x.1.1).flatMap fun x => x.1.2.map fun v => (x.2, v))
      (L.flatMap fun x => if tagged x.1.1 then [] else x.1.2.filterMap id) := by
  have hlast : ∀ L : List ((Hdr (Obj δ) × List (Option CStr)) × Nat), (∀ x ∈ L, Obeys x.1.1 x.1.2) →
      (∀ x ∈ L, tagged x.1.1 = false) →
      ((L.filter fun x => !Switch x.1.1).flatMap fun x => x.1.2.flatMap (mentionArgs x.1.1))
        = (L.flatMap fun x => if tagged x.1.1 then [] else x.1.2.filterMap id) ∧
      (L.filter fun x => !Switch x.1.1 && tagged x.1.1) = [] ∧
      ∀ v ∈ L.flatMap fun x => if tagged x.1.1 then [] else x.1.2.filterMap id, isOperand v = true := by
    intro L ho ht
    induction L with
    | nil => exact ⟨rfl, rfl, by simp⟩
    | cons x L ih =>
      obtain ⟨i1, i2, i3⟩ := ih (fun y hy => ho y (by simp [hy])) (fun y hy => ht y (by simp [hy]))
      have hx := ht x (by simp)
      have hs : Switch x.1.1 = false := by
        have : x.1.1.shortopts = none ∧ x.1.1.longopts = none := by simpa [tagged] using hx
        simp [Switch, this.1]
      obtain ⟨m1, m2, -⟩ := mention_operands hx (ho x (by simp))
      refine ⟨?_, ?_, ?_⟩
      · rw [List.filter_cons_of_pos (by simp [hs]), List.flatMap_cons, List.flatMap_cons, i1, m1, hx]; rfl
      · rw [List.filter_cons_of_neg (by simp [hx])]; exact i2
      · rw [List.flatMap_cons, hx]
        intro v hv
        rcases List.mem_append.1 hv with hv | hv
        · exact m2 v hv
        · exact i3 v hv
  induction L with
  | nil => exact .done
  | cons x L ih =>
    have ih := ih (fun y hy => hi y (by simp [hy])) (fun y hy => hh y (by simp [hy])) (fun y hy => ho y (by simp [hy]))
      (fun h => (List.pairwise_cons.1 (hp h)).2)
    cases ht : tagged x.1.1 with
    | true =>
      cases hs : Switch x.1.1 with
      | true =>
        rw [List.filter_cons_of_neg (by simp [hs]), List.filter_cons_of_neg (by simp [hs]), List.flatMap_cons, ht]
        exact ih
      | false =>
        rw [List.filter_cons_of_pos (by simp [hs]), List.filter_cons_of_pos (by simp [hs, ht]), List.flatMap_cons,
          List.flatMap_cons, List.flatMap_cons, ht]
        exact options_before (mention_options hd (hi x (by simp)) (hh x (by simp)) hs ht (ho x (by simp))) ih
    | false =>
      cases posix with
      | false =>
        have hs : Switch x.1.1 = false := by
          have : x.1.1.shortopts = none ∧ x.1.1.longopts = none := by simpa [tagged] using ht
          simp [Switch, this.1]
        obtain ⟨m1, m2, -⟩ := mention_operands ht (ho x (by simp))
        rw [List.filter_cons_of_pos (by simp [hs]), List.filter_cons_of_neg (by simp [ht]), List.flatMap_cons,
          List.flatMap_cons, ht, m1]
        exact operands_before m2 ih
      | true =>
        have hall : ∀ y ∈ x :: L, tagged y.1.1 = false := by
          intro y hy
          rcases List.mem_cons.1 hy with rfl | hy
          · exact ht
          · cases h : tagged y.1.1 with
            | false => rfl
            | true =>
              have := (List.pairwise_cons.1 (hp rfl)).1 y hy h
              rw [ht] at this; cases this
        obtain ⟨l1, l2, l3⟩ := hlast (x :: L) ho hall
        rw [l1, l2]
        exact operands_line l3 true

/-- The switches, all in one argument. -/
theorem switch_body (hd : Clear ds) (L : List ((Hdr (Obj δ) × List (Option CStr)) × Nat))
    (hi : ∀ x ∈ L, ds[x.2]? = some (declOf x.1.1)) (hh : ∀ x ∈ L, Honest x.1.1) (hs : ∀ x ∈ L, Switch x.1.1 = true) :
    Body ds (L.flatMap fun x => (x.1.1.shortopts.getD []).take 1) (L.map fun x => (x.2, none)) none := by
  induction L with
  | nil => exact .stop
  | cons x L ih =>
    have hx := hs x (by simp)
    have hxh := hh x (by simp)
    cases hso : x.1.1.shortopts with
    | none => rw [Switch, hso] at hx; cases hx
    | some so =>
      have hval : x.1.1.hasValue = false := by rw [Switch, hso] at hx; simpa using hx
      obtain ⟨c, l, rfl⟩ : ∃ c l, so = c :: l :=
        List.exists_cons_of_ne_nil fun e => hxh.letters (by rw [hso, e])
      obtain ⟨a1, a2⟩ := distinct_short hd (hi x (by simp)) (c := c) (by
        show c ∈ x.1.1.shortopts.getD []; rw [hso]; simp)
      have hk : (declOf x.1.1).shortKind = .no := by
        simp [Decl.shortKind, declOf, hval, hxh.certain (by rw [hso]; rfl)]
      rw [List.flatMap_cons, hso]
      exact .flag a1 (by rw [a2, hk]) (ih (fun y hy => hi y (by simp [hy])) (fun y hy => hh y (by simp [hy]))
        fun y hy => hs y (by simp [hy]))

/-- What a plan gives the entries by their options. -/
def planGives (plan : List (Hdr (Obj δ) × List (Option CStr))) : List (Nat × Option CStr) :=
  ((plan.zipIdx.filter fun x => mustSwitch x.1.1 && !x.1.2.isEmpty) ++
    plan.zipIdx.filter fun x => maySwitch x.1.1 && !x.1.2.isEmpty).map (fun x => (x.2, none)) ++
  (plan.zipIdx.filter fun x => !Switch x.1.1 && tagged x.1.1).flatMap fun x => x.1.2.map fun v => (x.2, v)

theorem zipIdx_flatMap {α β : Type} (l : List α) (p : α → Bool) (f : α → List β) (k : Nat) :
    ((l.zipIdx k).filter fun x => p x.1).flatMap (fun x => f x.1) = (l.filter p).flatMap f := by
  induction l generalizing k with
  | nil => rfl
  | cons a l ih =>
    rw [List.zipIdx_cons]
    cases h : p a with
    | true => rw [List.filter_cons_of_pos (by exact h), List.filter_cons_of_pos h, List.flatMap_cons, List.flatMap_cons, ih]
    | false => rw [List.filter_cons_of_neg (by simp [h]), List.filter_cons_of_neg (by simp [h]), ih]

theorem plan_line {plan : List (Hdr (Obj δ) × List (Option CStr))} (hd : Clear (plan.map fun p => declOf p.1))
    (hh : ∀ p ∈ plan, Honest p.1) (ho : ∀ p ∈ plan, Obeys p.1 p.2) (posix : Bool)
    (hp : posix = true → plan.Pairwise fun x y => tagged y.1 = true → tagged x.1 = true) :
    Line (plan.map fun p => declOf p.1) posix (followed plan) (planGives plan) (operandsOf plan).flatten := by
  have hmem : ∀ x ∈ plan.zipIdx, x.1 ∈ plan := fun x hx => by
    have := List.mem_zipIdx_iff_getElem?.1 hx
    exact List.mem_of_getElem? this
  have hidx : ∀ x ∈ plan.zipIdx, (plan.map fun p => declOf p.1)[x.2]? = some (declOf x.1.1) := fun x hx => by
    have := List.mem_zipIdx_iff_getElem?.1 hx
    rw [List.getElem?_map, this]; rfl
  have hitems := items_line hd posix plan.zipIdx hidx (fun x hx => hh _ (hmem x hx)) (fun x hx => ho _ (hmem x hx)) (by
    intro h
    have := hp h
    have h2 : plan = plan.zipIdx.map Prod.fst := by simp
    rw [h2, List.pairwise_map] at this
    exact this)
  rw [zipIdx_flatMap plan (fun p => !Switch p.1) (fun p => p.2.flatMap (mentionArgs p.1)) 0] at hitems
  have hops : (plan.zipIdx.flatMap fun x => if tagged x.1.1 then [] else x.1.2.filterMap id) = (operandsOf plan).flatten := by
    have := zipIdx_flatMap plan (fun _ => true) (fun p => if tagged p.1 then [] else p.2.filterMap id) 0
    rw [List.filter_eq_self.2 (by simp), List.filter_eq_self.2 (by simp)] at this
    rw [this, operandsOf, List.flatMap_def]
  rw [hops] at hitems
  let L := (plan.zipIdx.filter fun x => mustSwitch x.1.1 && !x.1.2.isEmpty) ++
    plan.zipIdx.filter fun x => maySwitch x.1.1 && !x.1.2.isEmpty
  have hLm : ∀ x ∈ L, x ∈ plan.zipIdx ∧ Switch x.1.1 = true := by
    intro x hx
    rcases List.mem_append.1 hx with hx | hx
    · obtain ⟨h1, h2⟩ := List.mem_filter.1 hx
      simp only [mustSwitch, Bool.and_eq_true] at h2
      exact ⟨h1, h2.1.1⟩
    · obtain ⟨h1, h2⟩ := List.mem_filter.1 hx
      simp only [maySwitch, Bool.and_eq_true] at h2
      exact ⟨h1, h2.1.1⟩
  have hbody := switch_body hd L (fun x hx => hidx x (hLm x hx).1) (fun x hx => hh _ (hmem x (hLm x hx).1))
    (fun x hx => (hLm x hx).2)
  have hlet : (L.flatMap fun x => (x.1.1.shortopts.getD []).take 1) = switchLetters plan := by
    show ((_ ++ _ : List _).flatMap _) = _
    rw [List.flatMap_append, switchLetters, List.flatMap_append,
      zipIdx_flatMap plan (fun p => mustSwitch p.1 && !p.2.isEmpty) (fun p => (p.1.shortopts.getD []).take 1) 0,
      zipIdx_flatMap plan (fun p => maySwitch p.1 && !p.2.isEmpty) (fun p => (p.1.shortopts.getD []).take 1) 0]
  rw [hlet] at hbody
  unfold followed
  split
  · rename_i he
    rw [he] at hbody
    have hnil : L.map (fun x => (x.2, (none : Option CStr))) = [] := by
      revert hbody
      generalize L.map (fun x => (x.2, (none : Option CStr))) = g
      intro hb
      cases hb; rfl
    show Line _ _ _ (L.map _ ++ _) _
    rw [hnil]
    exact hitems
  · rename_i he
    exact .option he hbody hitems

theorem given_append (gs hs : List (Nat × Option CStr)) (i : Nat) : given (gs ++ hs) i = given gs i ++ given hs i := by
  simp [given]

theorem given_zipIdx {α : Type} (l : List α) (p : α → Bool) (f : α → List (Option CStr)) (k i : Nat) :
    given (((l.zipIdx k).filter fun x => p x.1).flatMap fun x => (f x.1).map fun v => (x.2, v)) (k + i)
      = match l[i]? with
        | some a => if p a then f a else []
        | none => [] := by
  induction l generalizing k i with
  | nil => rfl
  | cons a l ih =>
    have hz : ∀ (m : Nat), k < m → ∀ vs : List (Option CStr), given (vs.map fun v => (k, v)) m = [] := by
      intro m hm vs
      simp [given, List.filter_map, Function.comp_def, Nat.ne_of_lt hm]
    have hs : ∀ vs : List (Option CStr), given (vs.map fun v => (k, v)) k = vs := by
      intro vs
      simp [given, List.filter_map, Function.comp_def]
    have hrest : ∀ l : List α, given (((l.zipIdx (k + 1)).filter fun x => p x.1).flatMap
        fun x => (f x.1).map fun v => (x.2, v)) k = [] := by
      intro l
      rw [given, List.map_eq_nil_iff, List.filter_eq_nil_iff]
      intro x hx
      obtain ⟨y, hy, hx⟩ := List.mem_flatMap.1 hx
      obtain ⟨v, -, rfl⟩ := List.mem_map.1 hx
      have := List.le_snd_of_mem_zipIdx (List.mem_filter.1 hy).1
      simp; omega
    rw [List.zipIdx_cons]
    cases i with
    | zero =>
      simp only [List.getElem?_cons_zero, Nat.add_zero]
      cases hp : p a with
      | true =>
        rw [List.filter_cons_of_pos (by exact hp), List.flatMap_cons, given_append, hs, hrest, List.append_nil]; rfl
      | false =>
        rw [List.filter_cons_of_neg (by simp [hp]), hrest]; rfl
    | succ i =>
      have ih := ih (k + 1) i
      rw [show k + 1 + i = k + (i + 1) by omega] at ih
      rw [List.getElem?_cons_succ, ← ih]
      cases hp : p a with
      | true => rw [List.filter_cons_of_pos (by exact hp), List.flatMap_cons, given_append, hz _ (by omega)]; rfl
      | false => rw [List.filter_cons_of_neg (by simp [hp])]

theorem plan_given {plan : List (Hdr (Obj δ) × List (Option CStr))} (ho : ∀ p ∈ plan, Obeys p.1 p.2) {i : Nat}
    {p : Hdr (Obj δ) × List (Option CStr)} (hi : plan[i]? = some p) :
    given (planGives plan) i = if tagged p.1 then p.2 else [] := by
  have hp := ho p (List.mem_of_getElem? hi)
  have key : ∀ (q : Hdr (Obj δ) × List (Option CStr) → Bool), given ((plan.zipIdx.filter fun x => q x.1).map
      fun x => (x.2, (none : Option CStr))) i = if q p then [none] else [] := by
    intro q
    have := given_zipIdx plan q (fun _ => [none]) 0 i
    rw [hi, Nat.zero_add] at this
    refine Eq.trans ?_ this
    rw [List.flatMap_def]
    congr 1
    rw [show (fun x : (Hdr (Obj δ) × List (Option CStr)) × Nat => List.map (fun v => (x.2, v)) [(none : Option CStr)])
        = fun x => [(x.2, none)] from rfl]
    rw [← List.flatMap_def]
    exact (List.flatMap_pure_eq_map _ _).symm
  have h3 := given_zipIdx plan (fun p => !Switch p.1 && tagged p.1) (fun p => p.2) 0 i
  rw [hi, Nat.zero_add] at h3
  rw [planGives, given_append, List.map_append, given_append, key fun p => mustSwitch p.1 && !p.2.isEmpty,
    key fun p => maySwitch p.1 && !p.2.isEmpty, h3]
  simp only [mustSwitch, maySwitch]
  rcases Bool.eq_false_or_eq_true (Switch p.1) with hs | hs
  · have ht : tagged p.1 = true := by
      simp only [Switch, Bool.and_eq_true] at hs
      simp [tagged, hs.1]
    rcases hp.switch hs with h | ⟨h, -⟩ <;> by_cases hm : 1 ≤ p.1.mincount <;> simp [h, hs, ht, hm]
  · rcases Bool.eq_false_or_eq_true (tagged p.1) with ht | ht <;> simp [hs, ht]

theorem fullOption_mention (h : Hdr σ) : fullOption h.shortopts h.longopts h.datatype h.hasOptValue
    = [' '].intercalate (mentionArgs h (h.datatype.map fun d => valueText d h.hasOptValue)) := by
  unfold mentionArgs
  cases h.shortopts <;> cases h.longopts <;> cases h.datatype <;>
    simp [fullOption, List.intercalate, cs]

theorem tokenize_bare {i : Nat} {c : Char} {posix : Bool} (hc : c ≠ '-') (hi : shortLookup c ds 0 = some (i, .opt))
    (rest : List CStr) : tokenize ds posix (['-', c] :: rest)
      = (tokenize ds posix rest).map fun q => (.deliver i none :: q.1, q.2) := by
  rw [tokenize, if_neg (by simpa using hc), if_neg (by simp [isOperand])]
  simp [readCluster, hc, hi]

theorem tokenize_permuted {v : CStr} (hv : isOperand v = true) (rest : List CStr) :
    tokenize ds false (v :: rest) = (tokenize ds false rest).map fun q => (q.1, v :: q.2) := by
  have hne : ¬ v = ['-', '-'] := by rintro rfl; cases hv
  rw [tokenize, if_neg hne, if_pos hv]
  rfl

theorem tokenize_emptied {env : Bool} {n : CStr} {l : Long} (hn : '=' ∉ n) (hd : Denotes (longTable ds 0) n l)
    (hi : ds[l.entry]?.map (·.hasValue) = some true) (post : List CStr) (y : List Ev × List CStr)
    (hy : tokenize ds env ((cs "--" ++ n ++ cs "=") :: post) = some y) : ∃ code a, Ev.fail code a ∈ y.1 := by
  have hw : cs "--" ++ n ++ cs "=" = '-' :: '-' :: (n ++ ['=']) := by simp [cs]
  rw [hw, tokenize, if_neg (by simp), if_neg (by simp [isOperand])] at hy
  rw [List.tail_cons, readCluster, if_pos rfl, if_neg (by simp), readLong_split hn (Or.inr ⟨[], rfl⟩), resolve_eq_some hd] at hy
  dsimp only at hy
  rw [if_neg (by simp), List.tail_cons] at hy
  have hE : emptyValueError ds l.entry [] ('-' :: '-' :: (n ++ ['=']))
      = [.fail ARG_EMISSARG (some ('-' :: '-' :: (n ++ ['='])))] := by
    rw [emptyValueError, if_pos ⟨rfl, hi⟩]
  cases hk : l.kind with
  | no =>
    rw [hk] at hy
    obtain ⟨z, -, rfl⟩ := Option.map_eq_some_iff.1 hy
    exact ⟨_, _, List.mem_append_left _ (List.mem_singleton.2 rfl)⟩
  | req =>
    rw [hk] at hy
    dsimp only at hy
    rw [hE] at hy
    obtain ⟨z, -, rfl⟩ := Option.map_eq_some_iff.1 hy
    exact ⟨_, _, List.mem_append_left _ (List.mem_append_left _ (List.mem_singleton.2 rfl))⟩
  | opt =>
    rw [hk] at hy
    dsimp only at hy
    rw [hE] at hy
    obtain ⟨z, -, rfl⟩ := Option.map_eq_some_iff.1 hy
    exact ⟨_, _, List.mem_append_left _ (List.mem_append_left _ (List.mem_singleton.2 rfl))⟩

theorem alternative_options (hd : Clear ds) {i : Nat} {h : Hdr σ} (hi : ds[i]? = some (declOf h)) (hov : h.hasOptValue = false)
    {v : Option CStr} (hv : v.isSome = h.hasValue) (hne : v ≠ some []) {args : List CStr} (ha : Alternative h v args) :
    Options ds args [(i, v)] := by
  have hn : (declOf h).names = (h.longopts.map namesOf).getD [] := rfl
  rcases ha with ⟨c, hc, rfl⟩ | ⟨n, hn', rfl⟩ | ⟨n, hn', w, rfl, rfl⟩
  · obtain ⟨a1, a2⟩ := distinct_short hd hi (c := c) hc
    cases v with
    | none =>
      have hk : (declOf h).shortKind = .no := by simp [Decl.shortKind, declOf, ← hv, hov]
      exact .option (body := [c]) (by simp) (.flag a1 (by rw [a2, hk]) .stop) .nil
    | some w =>
      have hk : (declOf h).shortKind = .req := by simp [Decl.shortKind, declOf, ← hv, hov]
      exact .optionValue (body := [c]) (.separate a1 (by rw [a2, hk])) .nil
  · obtain ⟨a1, a2, a3⟩ := distinct_long hd hi (n := n) hn'
    cases v with
    | none =>
      have hk : (declOf h).longKind = .no := by simp [Decl.longKind, declOf, ← hv, hov]
      exact .option (body := '-' :: n) (by simp) (.long a1 a2 a3 (by simp [hk])) .nil
    | some w =>
      have hk : (declOf h).longKind = .req := by simp [Decl.longKind, declOf, ← hv, hov]
      exact .optionValue (body := '-' :: n) (.longSeparate a1 a2 a3 hk fun e => absurd (e ▸ rfl) hne) .nil
  · obtain ⟨a1, a2, a3⟩ := distinct_long hd hi (n := n) hn'
    have hk : (declOf h).longKind = .req := by simp [Decl.longKind, declOf, ← hv, hov]
    exact .option (body := '-' :: (n ++ '=' :: w)) (by simp)
      (.longValue a2 a3 (by simp [hk]) fun e => absurd (e ▸ rfl) hne) .nil

/-- The words of a plan without options, one after the other. -/
theorem spaced_mention (ws : List CStr) (h : ws ≠ []) : cs " " ++ [' '].intercalate ws = spaced ws := by
  cases ws with
  | nil => exact absurd rfl h
  | cons w ws =>
    rw [spaced, List.flatMap_cons]
    induction ws generalizing w with
    | nil => simp [List.intercalate]
    | cons x ws ih =>
      have := ih x (by simp)
      rw [List.flatMap_cons, ← this]
      simp [List.intercalate, List.intersperse, cs]

theorem spaced_append (a b : List CStr) : spaced (a ++ b) = spaced a ++ spaced b := by simp [spaced]

theorem spaced_replicate (k : Nat) (ws : List CStr) (h : ws ≠ []) :
    spaced (List.replicate k ([' '].intercalate ws)) = spaced ((List.replicate k ws).flatten) := by
  induction k with
  | zero => rfl
  | succ k ih =>
    rw [List.replicate_succ, List.replicate_succ, List.flatten_cons, spaced_append, ← ih, ← spaced_mention ws h]
    simp [spaced]

theorem literal_eq (es : List (Hdr σ)) (hs : ∀ h ∈ es, Switch h = true → 1 ≤ h.mincount)
    (he : ∀ h ∈ es, Switch h = false → h.maxcount = h.mincount)
    (hn : ∀ h ∈ es, h.shortopts ≠ some [] ∧ h.datatype ≠ some []) :
    switchText es ++ (es.filter (fun h => !Switch h)).flatMap (fun h =>
        let m := [' '].intercalate (mentionArgs h (h.datatype.map fun d => valueText d h.hasOptValue))
        if m = [] then [] else entryText h m)
      = spaced (followed (es.map fun h =>
      (h, if Switch h then [none]
          else List.replicate h.mincount.toNat (h.datatype.map fun d => valueText d h.hasOptValue)))) := by
  have hmay : es.filter (fun h => Switch h && !decide (1 ≤ h.mincount)) = [] := by
    rw [List.filter_eq_nil_iff]
    intro h hh
    have := hs h hh
    rcases Bool.eq_false_or_eq_true (Switch h) with h1 | h1
    · simp [h1, this h1]
    · simp [h1]
  have hlet : switchLetters (es.map fun h => (h, if Switch h then [(none : Option CStr)]
          else List.replicate h.mincount.toNat (h.datatype.map fun d => valueText d h.hasOptValue)))
      = (es.filter (fun h => Switch h && decide (1 ≤ h.mincount))).flatMap fun h => (h.shortopts.getD []).take 1 := by
    rw [switchLetters, List.filter_map, List.filter_map, List.flatMap_append, List.flatMap_map, List.flatMap_map]
    have h1 : es.filter ((fun p : Hdr σ × List (Option CStr) => maySwitch p.1 && !p.2.isEmpty) ∘ fun h => (h, if Switch h then [(none : Option CStr)]
          else List.replicate h.mincount.toNat (h.datatype.map fun d => valueText d h.hasOptValue))) = [] := by
      rw [List.filter_eq_nil_iff] at hmay ⊢
      intro h hh
      have := hmay h hh
      simp only [Function.comp_apply, maySwitch]
      revert this
      cases (Switch h && !decide (1 ≤ h.mincount)) <;> simp
    have h2 : es.filter ((fun p : Hdr σ × List (Option CStr) => mustSwitch p.1 && !p.2.isEmpty) ∘ fun h => (h, if Switch h then [(none : Option CStr)]
          else List.replicate h.mincount.toNat (h.datatype.map fun d => valueText d h.hasOptValue)))
        = es.filter (fun h => Switch h && decide (1 ≤ h.mincount)) := by
      apply List.filter_congr
      intro h hh
      simp only [Function.comp_apply, mustSwitch]
      rcases Bool.eq_false_or_eq_true (Switch h) with h1 | h1 <;> simp [h1]
    rw [h1, h2]
    simp
  rw [followed, hlet, spaced_append]
  congr 1
  · unfold switchText
    rw [hmay]
    cases hm : es.filter (fun h => Switch h && decide (1 ≤ h.mincount)) with
    | nil => simp [spaced]
    | cons h l =>
      have hne : ((h :: l).flatMap fun h => (h.shortopts.getD []).take 1) ≠ [] := by
        have hh : h ∈ es.filter (fun h => Switch h && decide (1 ≤ h.mincount)) := by rw [hm]; simp
        obtain ⟨h1, h2⟩ := List.mem_filter.1 hh
        simp only [Switch, Bool.and_eq_true] at h2
        obtain ⟨so, h3⟩ := Option.isSome_iff_exists.1 h2.1.1
        cases so with
        | nil => exact absurd h3 (hn h h1).1
        | cons c so => rw [List.flatMap_cons, h3]; simp
      rw [if_neg hne]
      simp [spaced, cs]
  · rw [List.filter_map, List.flatMap_map]
    have hf : es.filter ((fun p : Hdr σ × List (Option CStr) => !Switch p.1) ∘ fun h => (h, if Switch h then [(none : Option CStr)]
          else List.replicate h.mincount.toNat (h.datatype.map fun d => valueText d h.hasOptValue)))
        = es.filter fun h => !Switch h := rfl
    rw [hf]
    have key : ∀ l : List (Hdr σ), (∀ h ∈ l, h ∈ es ∧ Switch h = false) →
        l.flatMap (fun h =>
          let m := [' '].intercalate (mentionArgs h (h.datatype.map fun d => valueText d h.hasOptValue))
          if m = [] then [] else entryText h m)
        = spaced (l.flatMap fun h => (if Switch h then [(none : Option CStr)]
          else List.replicate h.mincount.toNat (h.datatype.map fun d => valueText d h.hasOptValue)).flatMap (mentionArgs h)) := by
      intro l hl
      induction l with
      | nil => rfl
      | cons h l ih =>
        obtain ⟨h1, h2⟩ := hl h (by simp)
        rw [List.flatMap_cons, List.flatMap_cons, spaced_append, ih fun x hx => hl x (by simp [hx])]
        congr 1
        simp only [h2, Bool.false_eq_true, if_false]
        have hrep : ∀ k, (List.replicate k (h.datatype.map fun d => valueText d h.hasOptValue)).flatMap (mentionArgs h)
            = (List.replicate k (mentionArgs h (h.datatype.map fun d => valueText d h.hasOptValue))).flatten := by
          intro k
          rw [List.flatMap_def, List.map_replicate]
        rw [hrep]
        by_cases hw : mentionArgs h (h.datatype.map fun d => valueText d h.hasOptValue) = []
        · rw [hw]
          simp [List.intercalate, spaced]
        · rw [if_neg, entryText, mentions, if_pos (he h h1 h2), List.append_nil, spaced_replicate _ _ hw]
          obtain ⟨h3, h4⟩ := hn h h1
          revert hw
          unfold mentionArgs
          cases h.shortopts <;> cases h.longopts <;> cases hdt : h.datatype <;>
            simp [List.intercalate, cs, valueText]
          split <;> simp_all
    exact key _ fun h hh => by
      obtain ⟨h1, h2⟩ := List.mem_filter.1 hh
      exact ⟨h1, by simpa using h2⟩

theorem intercalate_append (sep : CStr) {a b : List CStr} (ha : a ≠ []) (hb : b ≠ []) :
    sep.intercalate (a ++ b) = sep.intercalate a ++ sep ++ sep.intercalate b := by
  obtain ⟨x, l, rfl⟩ := List.exists_cons_of_ne_nil ha
  obtain ⟨y, k, rfl⟩ := List.exists_cons_of_ne_nil hb
  clear ha hb
  induction l generalizing x with
  | nil => simp [List.intercalate, List.intersperse]
  | cons z l ih =>
    have := ih z
    simp only [List.intercalate, List.cons_append, List.intersperse, List.flatten_cons, List.append_assoc] at this ⊢
    rw [this]

end Argtable
