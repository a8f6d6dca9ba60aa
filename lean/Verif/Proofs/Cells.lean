import Verif.Spec.Cells
import Verif.Proofs.Decode
/-!
# Lemmas about arrays of pointers (C85)
-/

namespace Argtable

open Spec

variable {σ : Type} {mem : ObjMem σ} {table : List (Option Nat)}

theorem drop_head {i : Nat} {x : Option Nat} {rest : List (Option Nat)} (h : table.drop i = x :: rest) :
    table[i]? = some x ∧ table.drop (i + 1) = rest := by
  constructor
  · have := congrArg (·[0]?) h
    simpa using this
  · have := congrArg (List.drop 1) h
    simpa [List.drop_drop, Nat.add_comm] using this

theorem Spec.TableAt.length_lt {es : List (Hdr σ)} {e : TabEnd} (h : TableAt mem table es e) : es.length < table.length := by
  induction h with
  | null => simp
  | fin => simp
  | entry _ _ ih => simpa using ih

theorem slot_head {i : Nat} {x : Option Nat} {rest : List (Option Nat)} (h : table.drop i = x :: rest) :
    slot table i = .ok x := by
  simp [slot, (drop_head h).1]

theorem soft_null {i : Nat} {rest : List (Option Nat)} (h : table.drop i = none :: rest) : softEntry mem table i = .ok none := by
  simp [softEntry, slot_head h, bind, Except.bind]

theorem soft_fin {i p : Nat} {e : EndTbl} {rest : List (Option Nat)} (h : table.drop i = some p :: rest)
    (hp : mem p = some (.fin e)) : softEntry mem table i = .ok none := by
  simp [softEntry, slot_head h, deref, hp, bind, Except.bind]

theorem soft_entry {i p : Nat} {x : Hdr σ} {rest : List (Option Nat)} (h : table.drop i = some p :: rest)
    (hp : mem p = some (.entry x)) : softEntry mem table i = .ok (some x) := by
  simp [softEntry, slot_head h, deref, hp, bind, Except.bind]

theorem hard_null {i : Nat} {rest : List (Option Nat)} (h : table.drop i = none :: rest) :
    hardEntry mem table i = .error (.ub "NULL pointer in the table") := by
  simp [hardEntry, slot_head h, bind, Except.bind]

theorem hard_some {i p : Nat} {x : TabObj σ} {rest : List (Option Nat)} (h : table.drop i = some p :: rest)
    (hp : mem p = some x) : hardEntry mem table i = .ok x := by
  simp [hardEntry, slot_head h, deref, hp, bind, Except.bind]

theorem gnuswitchTab_eq (p : Hdr σ → Bool) {es : List (Hdr σ)} {e : TabEnd} {l : List (Option Nat)} (h : TableAt mem l es e) :
    ∀ (i fuel : Nat) (first : CStr), table.drop i = l → es.length < fuel →
      gnuswitchTab mem table p fuel i first = .ok (gnuswitchLoop p es first) := by
  induction h with
  | null rest =>
    intro i fuel first hl hf
    obtain ⟨n, rfl⟩ : ∃ n, fuel = n + 1 := ⟨fuel - 1, by simp at hf; omega⟩
    rw [gnuswitchTab, soft_null hl]; rfl
  | fin rest hp =>
    intro i fuel first hl hf
    obtain ⟨n, rfl⟩ : ∃ n, fuel = n + 1 := ⟨fuel - 1, by simp at hf; omega⟩
    rw [gnuswitchTab, soft_fin hl hp]; rfl
  | @entry q x rest es e hp _ ih =>
    intro i fuel first hl hf
    obtain ⟨n, rfl⟩ : ∃ n, fuel = n + 1 := ⟨fuel - 1, by simp at hf; omega⟩
    have hn : es.length < n := by simp at hf; omega
    rw [gnuswitchTab, soft_entry hl hp, bind_ok]
    simp only
    rw [gnuswitchLoop]
    by_cases hx : p x = true
    · rw [if_pos hx, if_pos hx, ih _ n _ (drop_head hl).2 hn, bind_ok]
    · rw [if_neg hx, if_neg hx, ih _ n _ (drop_head hl).2 hn]

theorem printGnuswitchTab_eq {es : List (Hdr σ)} {e : TabEnd} (h : TableAt mem table es e) :
    printGnuswitchTab mem table = .ok (printGnuswitch es) := by
  have hf : es.length < table.length + 1 := Nat.lt_succ_of_lt h.length_lt
  rw [printGnuswitchTab, gnuswitchTab_eq _ h 0 _ _ rfl hf, bind_ok]
  simp only
  rw [gnuswitchTab_eq _ h 0 _ _ rfl hf, bind_ok]
  rfl

theorem syntaxTab_eq {es : List (Hdr σ)} {e : TabEnd} {l : List (Option Nat)} (h : TableAt mem l es e) :
    ∀ (i fuel : Nat), table.drop i = l → es.length < fuel → syntaxTab mem table fuel i = syntaxLoop es := by
  induction h with
  | null rest =>
    intro i fuel hl hf
    obtain ⟨n, rfl⟩ : ∃ n, fuel = n + 1 := ⟨fuel - 1, by simp at hf; omega⟩
    rw [syntaxTab, soft_null hl]; rfl
  | fin rest hp =>
    intro i fuel hl hf
    obtain ⟨n, rfl⟩ : ∃ n, fuel = n + 1 := ⟨fuel - 1, by simp at hf; omega⟩
    rw [syntaxTab, soft_fin hl hp]; rfl
  | @entry q x rest es e hp _ ih =>
    intro i fuel hl hf
    obtain ⟨n, rfl⟩ : ∃ n, fuel = n + 1 := ⟨fuel - 1, by simp at hf; omega⟩
    have hn : es.length < n := by simp at hf; omega
    rw [syntaxTab, soft_entry hl hp, bind_ok, syntaxLoop, ih _ n (drop_head hl).2 hn]

theorem syntaxvTab_eq {es : List (Hdr σ)} {e : TabEnd} {l : List (Option Nat)} (h : TableAt mem l es e) :
    ∀ (i fuel : Nat), table.drop i = l → es.length < fuel → syntaxvTab mem table fuel i = syntaxvLoop es := by
  induction h with
  | null rest =>
    intro i fuel hl hf
    obtain ⟨n, rfl⟩ : ∃ n, fuel = n + 1 := ⟨fuel - 1, by simp at hf; omega⟩
    rw [syntaxvTab, soft_null hl]; rfl
  | fin rest hp =>
    intro i fuel hl hf
    obtain ⟨n, rfl⟩ : ∃ n, fuel = n + 1 := ⟨fuel - 1, by simp at hf; omega⟩
    rw [syntaxvTab, soft_fin hl hp]; rfl
  | @entry q x rest es e hp _ ih =>
    intro i fuel hl hf
    obtain ⟨n, rfl⟩ : ∃ n, fuel = n + 1 := ⟨fuel - 1, by simp at hf; omega⟩
    have hn : es.length < n := by simp at hf; omega
    rw [syntaxvTab, soft_entry hl hp, bind_ok, syntaxvLoop, ih _ n (drop_head hl).2 hn]

theorem glossaryTab_eq (fmt2 : CStr → CStr → CStr) {es : List (Hdr σ)} {e : EndTbl} {te : TabEnd} {l : List (Option Nat)}
    (h : TableAt mem l es te) (hte : te = .fin e) :
    ∀ (i fuel : Nat), table.drop i = l → es.length < fuel → glossaryTab mem table fmt2 fuel i = printGlossary fmt2 es := by
  induction h with
  | null rest => cases hte
  | fin rest hp =>
    intro i fuel hl hf
    obtain ⟨n, rfl⟩ : ∃ n, fuel = n + 1 := ⟨fuel - 1, by simp at hf; omega⟩
    rw [glossaryTab, hard_some hl hp]; rfl
  | @entry q x rest es e hp _ ih =>
    intro i fuel hl hf
    obtain ⟨n, rfl⟩ : ∃ n, fuel = n + 1 := ⟨fuel - 1, by simp at hf; omega⟩
    have hn : es.length < n := by simp at hf; omega
    rw [glossaryTab, hard_some hl hp, bind_ok, printGlossary]
    simp only [ih hte _ n (drop_head hl).2 hn]
    cases x.glossary <;> rfl

theorem gnuTab_eq (wfuel : Nat) {es : List (Hdr σ)} {e : EndTbl} {te : TabEnd} {l : List (Option Nat)}
    (h : TableAt mem l es te) (hte : te = .fin e) :
    ∀ (i fuel : Nat), table.drop i = l → es.length < fuel → gnuTab mem table wfuel fuel i = gnuLoop wfuel es := by
  induction h with
  | null rest => cases hte
  | fin rest hp =>
    intro i fuel hl hf
    obtain ⟨n, rfl⟩ : ∃ n, fuel = n + 1 := ⟨fuel - 1, by simp at hf; omega⟩
    rw [gnuTab, hard_some hl hp]; rfl
  | @entry q x rest es e hp _ ih =>
    intro i fuel hl hf
    obtain ⟨n, rfl⟩ : ∃ n, fuel = n + 1 := ⟨fuel - 1, by simp at hf; omega⟩
    have hn : es.length < n := by simp at hf; omega
    rw [gnuTab, hard_some hl hp, bind_ok, gnuLoop]
    simp only [ih hte _ n (drop_head hl).2 hn]
    cases x.glossary <;> rfl

theorem walkTab_eq {es : List (Hdr σ)} {e : EndTbl} {te : TabEnd} {l : List (Option Nat)}
    (h : TableAt mem l es te) (hte : te = .fin e) :
    ∀ (i fuel : Nat), table.drop i = l → es.length < fuel → walkTab mem table fuel i = .ok (es, e) := by
  induction h with
  | null rest => cases hte
  | fin rest hp =>
    intro i fuel hl hf
    cases hte
    obtain ⟨n, rfl⟩ : ∃ n, fuel = n + 1 := ⟨fuel - 1, by simp at hf; omega⟩
    rw [walkTab, hard_some hl hp]; rfl
  | @entry q x rest es e hp _ ih =>
    intro i fuel hl hf
    obtain ⟨n, rfl⟩ : ∃ n, fuel = n + 1 := ⟨fuel - 1, by simp at hf; omega⟩
    have hn : es.length < n := by simp at hf; omega
    rw [walkTab, hard_some hl hp, bind_ok]
    simp only
    rw [ih hte _ n (drop_head hl).2 hn]; rfl

theorem walkTab_null {es : List (Hdr σ)} {te : TabEnd} {l : List (Option Nat)} (h : TableAt mem l es te) (hte : te = .null) :
    ∀ (i fuel : Nat), table.drop i = l → es.length < fuel →
      walkTab mem table fuel i = .error (.ub "NULL pointer in the table") := by
  induction h with
  | fin rest hp => cases hte
  | null rest =>
    intro i fuel hl hf
    obtain ⟨n, rfl⟩ : ∃ n, fuel = n + 1 := ⟨fuel - 1, by simp at hf; omega⟩
    rw [walkTab, hard_null hl]; rfl
  | @entry q x rest es e hp _ ih =>
    intro i fuel hl hf
    obtain ⟨n, rfl⟩ : ∃ n, fuel = n + 1 := ⟨fuel - 1, by simp at hf; omega⟩
    have hn : es.length < n := by simp at hf; omega
    rw [walkTab, hard_some hl hp, bind_ok]
    simp only
    rw [ih hte _ n (drop_head hl).2 hn]; rfl

/-- The array shows a table, or it leads to a dangling pointer or out of the array. -/
theorem softEntry_inv {i : Nat} {r : Option (Hdr σ)} (h : softEntry mem table i = .ok r) :
    (r = none ∧ ∃ e, TableAt mem (table.drop i) [] e) ∨
    ∃ x p, r = some x ∧ mem p = some (.entry x) ∧ table.drop i = some p :: table.drop (i + 1) := by
  unfold softEntry slot at h
  cases hi : table[i]? with
  | none => rw [hi] at h; cases h
  | some q =>
    rw [hi] at h
    have hd : table.drop i = q :: table.drop (i + 1) := by
      obtain ⟨hlt, he⟩ := List.getElem?_eq_some_iff.1 hi
      rw [← he]; exact List.drop_eq_getElem_cons hlt
    cases q with
    | none => cases h; exact .inl ⟨rfl, .null, by rw [hd]; exact .null _⟩
    | some p =>
      simp only [bind_ok] at h
      unfold deref at h
      cases hp : mem p with
      | none => rw [hp] at h; cases h
      | some x =>
        rw [hp] at h
        cases x with
        | fin e => cases h; exact .inl ⟨rfl, .fin e, by rw [hd]; exact .fin _ hp⟩
        | entry x => cases h; exact .inr ⟨x, p, rfl, hp, hd⟩

theorem hardEntry_inv {i : Nat} {r : TabObj σ} (h : hardEntry mem table i = .ok r) :
    ∃ p, mem p = some r ∧ table.drop i = some p :: table.drop (i + 1) := by
  unfold hardEntry slot at h
  cases hi : table[i]? with
  | none => rw [hi] at h; cases h
  | some q =>
    rw [hi] at h
    have hd : table.drop i = q :: table.drop (i + 1) := by
      obtain ⟨hlt, he⟩ := List.getElem?_eq_some_iff.1 hi
      rw [← he]; exact List.drop_eq_getElem_cons hlt
    cases q with
    | none => cases h
    | some p =>
      simp only [bind_ok] at h
      unfold deref at h
      cases hp : mem p with
      | none => rw [hp] at h; cases h
      | some x => rw [hp] at h; cases h; exact ⟨p, hp, hd⟩

theorem gnuswitchTab_shows (p : Hdr σ → Bool) : ∀ (fuel i : Nat) (first : CStr) (r : CStr × Bool),
    gnuswitchTab mem table p fuel i first = .ok r → ∃ es e, TableAt mem (table.drop i) es e
  | 0, _, _, _, h => by cases h
  | fuel + 1, i, first, r, h => by
    rw [gnuswitchTab] at h
    obtain ⟨o, ho, h⟩ := mbind_ok_inv h
    obtain ⟨rfl, e, he⟩ | ⟨x, q, rfl, hq, hd⟩ := softEntry_inv ho
    · exact ⟨_, e, he⟩
    · simp only at h
      by_cases hx : p x = true
      · rw [if_pos hx] at h
        obtain ⟨o, ho, h⟩ := mbind_ok_inv h
        obtain ⟨es, e, hs⟩ := gnuswitchTab_shows p fuel (i + 1) _ _ ho
        exact ⟨x :: es, e, by rw [hd]; exact .entry hq hs⟩
      · rw [if_neg hx] at h
        obtain ⟨es, e, hs⟩ := gnuswitchTab_shows p fuel (i + 1) _ _ h
        exact ⟨x :: es, e, by rw [hd]; exact .entry hq hs⟩

theorem syntaxvTab_shows : ∀ (fuel i : Nat) (r : CStr),
    syntaxvTab mem table fuel i = .ok r → ∃ es e, TableAt mem (table.drop i) es e
  | 0, _, _, h => by cases h
  | fuel + 1, i, r, h => by
    rw [syntaxvTab] at h
    obtain ⟨o, ho, h⟩ := mbind_ok_inv h
    obtain ⟨rfl, e, he⟩ | ⟨x, q, rfl, hq, hd⟩ := softEntry_inv ho
    · exact ⟨_, e, he⟩
    · simp only at h
      obtain ⟨b, _, h⟩ := mbind_ok_inv h
      obtain ⟨o, ho, h⟩ := mbind_ok_inv h
      obtain ⟨es, e, hs⟩ := syntaxvTab_shows fuel (i + 1) _ ho
      exact ⟨x :: es, e, by rw [hd]; exact .entry hq hs⟩

theorem glossaryTab_shows (fmt2 : CStr → CStr → CStr) : ∀ (fuel i : Nat) (r : CStr),
    glossaryTab mem table fmt2 fuel i = .ok r → ∃ es e, TableAt mem (table.drop i) es (.fin e)
  | 0, _, _, h => by cases h
  | fuel + 1, i, r, h => by
    rw [glossaryTab] at h
    obtain ⟨o, ho, h⟩ := mbind_ok_inv h
    obtain ⟨p, hp, hd⟩ := hardEntry_inv ho
    cases o with
    | fin e => exact ⟨[], e, by rw [hd]; exact .fin _ hp⟩
    | entry x =>
      simp only at h
      obtain ⟨es, e, hs⟩ : ∃ es e, TableAt mem (table.drop (i + 1)) es (.fin e) := by
        cases hg : x.glossary with
        | none => rw [hg] at h; exact glossaryTab_shows fmt2 fuel (i + 1) _ h
        | some g =>
          rw [hg] at h
          obtain ⟨b, _, h⟩ := mbind_ok_inv h
          obtain ⟨o, ho, h⟩ := mbind_ok_inv h
          exact glossaryTab_shows fmt2 fuel (i + 1) _ ho
      exact ⟨x :: es, e, by rw [hd]; exact .entry hp hs⟩

theorem gnuTab_shows (wfuel : Nat) : ∀ (fuel i : Nat) (r : CStr),
    gnuTab mem table wfuel fuel i = .ok r → ∃ es e, TableAt mem (table.drop i) es (.fin e)
  | 0, _, _, h => by cases h
  | fuel + 1, i, r, h => by
    rw [gnuTab] at h
    obtain ⟨o, ho, h⟩ := mbind_ok_inv h
    obtain ⟨p, hp, hd⟩ := hardEntry_inv ho
    cases o with
    | fin e => exact ⟨[], e, by rw [hd]; exact .fin _ hp⟩
    | entry x =>
      simp only at h
      obtain ⟨es, e, hs⟩ : ∃ es e, TableAt mem (table.drop (i + 1)) es (.fin e) := by
        cases hg : x.glossary with
        | none => rw [hg] at h; exact gnuTab_shows wfuel fuel (i + 1) _ h
        | some g =>
          rw [hg] at h
          obtain ⟨b, _, h⟩ := mbind_ok_inv h
          obtain ⟨o, ho, h⟩ := mbind_ok_inv h
          exact gnuTab_shows wfuel fuel (i + 1) _ ho
      exact ⟨x :: es, e, by rw [hd]; exact .entry hp hs⟩

theorem walkTab_shows : ∀ (fuel i : Nat) (r : List (Hdr σ) × EndTbl),
    walkTab mem table fuel i = .ok r → TableAt mem (table.drop i) r.1 (.fin r.2)
  | 0, _, _, h => by cases h
  | fuel + 1, i, r, h => by
    rw [walkTab] at h
    obtain ⟨o, ho, h⟩ := mbind_ok_inv h
    obtain ⟨p, hp, hd⟩ := hardEntry_inv ho
    cases o with
    | fin e => cases h; rw [hd]; exact .fin _ hp
    | entry x =>
      simp only at h
      obtain ⟨o, ho, h⟩ := mbind_ok_inv h
      have := walkTab_shows fuel (i + 1) _ ho
      cases h
      rw [hd]; exact .entry hp this

theorem Spec.TableAt.unique {es es' : List (Hdr σ)} {e e' : TabEnd} (h : TableAt mem table es e) (h' : TableAt mem table es' e') :
    es = es' ∧ e = e' := by
  induction h generalizing es' e' with
  | null => cases h'; exact ⟨rfl, rfl⟩
  | fin _ hp =>
    cases h' with
    | fin _ hp' => rw [hp] at hp'; cases hp'; exact ⟨rfl, rfl⟩
    | entry hp' => rw [hp] at hp'; cases hp'
  | entry hp _ ih =>
    cases h' with
    | fin _ hp' => rw [hp] at hp'; cases hp'
    | entry hp' h' =>
      rw [hp] at hp'; cases hp'
      obtain ⟨rfl, rfl⟩ := ih h'
      exact ⟨rfl, rfl⟩

/-- Cells after the end do not matter. -/
theorem Spec.TableAt.append {es : List (Hdr σ)} {e : TabEnd} (h : TableAt mem table es e) (more : List (Option Nat)) :
    TableAt mem (table ++ more) es e := by
  induction h with
  | null => exact .null _
  | fin _ hp => exact .fin _ hp
  | entry hp _ ih => exact .entry hp ih

end Argtable
