import Verif.Proofs.RegexCompile
/-!
# What a match means

If matching ends inside the text, the pattern describes the part of the text that was consumed.
-/

namespace Argtable
open Spec

/-! ### characters -/

theorem char_ofNat_nat {n : Nat} (h : n < 128) : (Char.ofNat n).toNat = n := by
  have key : ∀ n : Fin 128, (Char.ofNat n.val).toNat = n.val := by decide
  exact key ⟨n, h⟩

theorem toLower_nat (c : Char) : (toLower c).toNat = if 65 ≤ c.toNat ∧ c.toNat ≤ 90 then c.toNat + 32 else c.toNat := by
  unfold toLower
  have e : ((decide ('A' ≤ c) && decide (c ≤ 'Z')) = true) ↔ (65 ≤ c.toNat ∧ c.toNat ≤ 90) := by
    rw [Bool.and_eq_true, decide_eq_true_iff, decide_eq_true_iff]
    exact Iff.rfl
  by_cases h : 65 ≤ c.toNat ∧ c.toNat ≤ 90
  · rw [if_pos (e.2 h), if_pos h, char_ofNat_nat (by omega)]
  · rw [if_neg (fun h' => h (e.1 h')), if_neg h]

theorem toUpper_nat (c : Char) : (toUpper c).toNat = if 97 ≤ c.toNat ∧ c.toNat ≤ 122 then c.toNat - 32 else c.toNat := by
  unfold toUpper
  have e : ((decide ('a' ≤ c) && decide (c ≤ 'z')) = true) ↔ (97 ≤ c.toNat ∧ c.toNat ≤ 122) := by
    rw [Bool.and_eq_true, decide_eq_true_iff, decide_eq_true_iff]
    exact Iff.rfl
  by_cases h : 97 ≤ c.toNat ∧ c.toNat ≤ 122
  · rw [if_pos (e.2 h), if_pos h, char_ofNat_nat (by omega)]
  · rw [if_neg (fun h' => h (e.1 h')), if_neg h]

theorem case_pos {d : Char} (h : 0 < d.toNat) : 0 < (toLower d).toNat ∧ 0 < (toUpper d).toNat := by
  rw [toLower_nat, toUpper_nat]
  constructor
  · split <;> omega
  · split <;> omega

theorem char_eq_iff {c d : Char} : c = d ↔ c.toNat = d.toNat :=
  ⟨fun h => by rw [h], fun h => by rw [← Char.ofNat_toNat c, h, Char.ofNat_toNat]⟩

theorem sameLetter_iff (ic : Bool) {c d : Char} : SameChar ic c d ↔ SameLetter ic c d := by
  unfold SameChar SameLetter
  cases ic with
  | false => exact Iff.rfl
  | true =>
    simp only [if_true]
    rw [char_eq_iff, char_eq_iff, char_eq_iff, toLower_nat, toLower_nat, toUpper_nat]
    split <;> split <;> split <;> omega

theorem Lit.range_of {b : Bool} {l : Lit} (h : LitOk b l) : 0 < l.char.toNat := by
  cases l with
  | plain c => have := h.plain; dsimp only [Lit.char]; omega
  | quoted c => exact h.quoted.1
  | ctl c =>
    have : ∀ c ∈ cs "vntrf", 0 < (ctlChar c).toNat := by decide
    exact this c h.ctl

theorem charInt_ascii {c : Char} (h : c.toNat < 128) : charInt c = c.toNat := by
  unfold charInt; rw [if_pos h]

theorem matchcclass_iff {l : Char} (hl : l ∈ classLetters) (c : Char) : matchcclass l c = true ↔ InClass l c := by
  have hA : isAlpha c = true ↔ (65 ≤ c.toNat ∧ c.toNat ≤ 90) ∨ (97 ≤ c.toNat ∧ c.toNat ≤ 122) := by
    unfold isAlpha
    rw [Bool.or_eq_true, Bool.and_eq_true, Bool.and_eq_true]
    simp only [decide_eq_true_iff]
    exact Or.comm
  have hD : isDigit c = true ↔ (48 ≤ c.toNat ∧ c.toNat ≤ 57) := by
    unfold isDigit
    rw [Bool.and_eq_true]
    simp only [decide_eq_true_iff]
    exact Iff.rfl
  have hN : isAlnum c = true ↔ ((65 ≤ c.toNat ∧ c.toNat ≤ 90) ∨ (97 ≤ c.toNat ∧ c.toNat ≤ 122)) ∨ (48 ≤ c.toNat ∧ c.toNat ≤ 57) := by
    unfold isAlnum
    rw [Bool.or_eq_true, hA, hD]
  have hX : isXdigit c = true ↔ (48 ≤ c.toNat ∧ c.toNat ≤ 57) ∨ (97 ≤ c.toNat ∧ c.toNat ≤ 102) ∨ (65 ≤ c.toNat ∧ c.toNat ≤ 70) := by
    unfold isXdigit
    rw [Bool.or_eq_true, Bool.or_eq_true, hD, Bool.and_eq_true, Bool.and_eq_true, or_assoc]
    simp only [decide_eq_true_iff]
    exact Iff.rfl
  have hS : isSpace c = true ↔ c.toNat = 32 ∨ 9 ≤ c.toNat ∧ c.toNat ≤ 13 := by
    unfold isSpace
    simp only [Bool.or_eq_true, beq_iff_eq, char_eq_iff]
    have e1 : (' ' : Char).toNat = 32 := rfl
    have e2 : ('\t' : Char).toNat = 9 := rfl
    have e3 : ('\n' : Char).toNat = 10 := rfl
    have e4 : ('\x0b' : Char).toNat = 11 := rfl
    have e5 : ('\x0c' : Char).toNat = 12 := rfl
    have e6 : ('\r' : Char).toNat = 13 := rfl
    rw [e1, e2, e3, e4, e5, e6]
    omega
  have hC : isCntrl c = true ↔ c.toNat < 32 ∨ c.toNat = 127 := by
    unfold isCntrl
    rw [Bool.or_eq_true, decide_eq_true_iff, beq_iff_eq]
  have hP : isPunct c = true ↔ 33 ≤ c.toNat ∧ c.toNat ≤ 126 ∧
      ¬ (((65 ≤ c.toNat ∧ c.toNat ≤ 90) ∨ (97 ≤ c.toNat ∧ c.toNat ≤ 122)) ∨ (48 ≤ c.toNat ∧ c.toNat ≤ 57)) := by
    unfold isPunct isPrint
    rw [Bool.and_eq_true, Bool.and_eq_true, Bool.and_eq_true, Bool.not_eq_true', ← Bool.not_eq_true, hN, decide_eq_true_iff,
      decide_eq_true_iff, bne_iff_ne, ne_eq, char_eq_iff]
    have e1 : (' ' : Char).toNat = 32 := rfl
    rw [e1]
    omega
  have hL : isLower c = true ↔ 97 ≤ c.toNat ∧ c.toNat ≤ 122 := by
    unfold isLower
    rw [Bool.and_eq_true]
    simp only [decide_eq_true_iff]
    exact Iff.rfl
  have hU : isUpper c = true ↔ 65 ≤ c.toNat ∧ c.toNat ≤ 90 := by
    unfold isUpper
    rw [Bool.and_eq_true]
    simp only [decide_eq_true_iff]
    exact Iff.rfl
  have hnot : ∀ {b : Bool} {P : Prop}, (b = true ↔ P) → ((!b) = true ↔ ¬ P) := by
    intro b P h
    rw [Bool.not_eq_true', ← Bool.not_eq_true, h]
  have hW : ∀ {P : Prop}, (isAlnum c = true ↔ P) → ((isAlnum c || c == '_') = true ↔ P ∨ c = '_') := by
    intro P h
    rw [Bool.or_eq_true, h, beq_iff_eq]
  have hl' : l = 'a' ∨ l = 'A' ∨ l = 'w' ∨ l = 'W' ∨ l = 's' ∨ l = 'S' ∨ l = 'd' ∨ l = 'D' ∨ l = 'x' ∨ l = 'X' ∨ l = 'c' ∨ l = 'C' ∨
      l = 'p' ∨ l = 'P' ∨ l = 'l' ∨ l = 'u' := by
    have : ∀ l ∈ classLetters, l = 'a' ∨ l = 'A' ∨ l = 'w' ∨ l = 'W' ∨ l = 's' ∨ l = 'S' ∨ l = 'd' ∨ l = 'D' ∨ l = 'x' ∨ l = 'X' ∨
      l = 'c' ∨ l = 'C' ∨ l = 'p' ∨ l = 'P' ∨ l = 'l' ∨ l = 'u' := by decide
    exact this l hl
  rcases hl' with rfl | rfl | rfl | rfl | rfl | rfl | rfl | rfl | rfl | rfl | rfl | rfl | rfl | rfl | rfl | rfl
  · exact hA
  · exact hnot hA
  · show (isAlnum c || c == '_') = true ↔ _ ∨ _ ∨ _ ∨ _
    rw [hW hN, or_assoc, or_assoc]
  · show (!isAlnum c && c != '_') = true ↔ ¬ (_ ∨ _ ∨ _ ∨ _)
    rw [Bool.and_eq_true, hnot hN, bne_iff_ne, ne_eq, ← not_or, or_assoc, or_assoc]
  · exact hS
  · exact hnot hS
  · exact hD
  · exact hnot hD
  · show isXdigit c = true ↔ _
    rw [hX]
    show _ ↔ _ ∨ _ ∨ _
    omega
  · show (!isXdigit c) = true ↔ _
    rw [hnot hX]
    show _ ↔ ¬ (_ ∨ _ ∨ _)
    omega
  · exact hC
  · exact hnot hC
  · show isPunct c = true ↔ _
    rw [hP]
    show _ ↔ _ ∧ _ ∧ ¬ (_ ∨ _ ∨ _)
    rw [or_assoc]
  · show (!isPunct c) = true ↔ _
    rw [hnot hP]
    show _ ↔ ¬ (_ ∧ _ ∧ ¬ (_ ∨ _ ∨ _))
    rw [or_assoc]
  · exact hL
  · exact hU

theorem classItem_iff {ic : Bool} {x : SetItem} (hx : x.Ok) {n : RNode} (hn : ItemNode x n) (c : Char) :
    classItem ic n c = true ↔ x.Has ic c := by
  cases x with
  | one l =>
    have hn' : n.type = .char l.char := hn
    unfold classItem
    rw [hn']
    dsimp only
    show _ ↔ SameLetter ic c l.char
    rw [← sameLetter_iff]
    unfold SameChar
    cases ic <;> simp
  | cls l =>
    obtain ⟨h1, h2⟩ := hn
    unfold classItem
    rw [h1, h2, intChar_charInt]
    exact matchcclass_iff hx c
  | range a b =>
    obtain ⟨h1, h2, h3⟩ := hn
    unfold classItem
    rw [h1, h2, h3, intChar_charInt, intChar_charInt]
    dsimp only
    unfold SetItem.Has Between
    cases ic with
    | false =>
      simp only [Bool.false_eq_true, if_false, decide_eq_true_iff]
    | true =>
      simp only [if_true, decide_eq_true_iff]

theorem charInt_eq_iff {c d : Char} : c = d ↔ charInt c = charInt d := ⟨fun h => by rw [h], charInt_inj⟩

theorem charInt_letter (c : Char) {lo hi : Nat} (h : hi < 128) : lo ≤ c.toNat ∧ c.toNat ≤ hi ↔ (lo : Int) ≤ charInt c ∧ charInt c ≤ hi := by
  unfold charInt
  split
  · omega
  · split <;> omega

theorem toLower_int (c : Char) : charInt (toLower c) = if 65 ≤ charInt c ∧ charInt c ≤ 90 then charInt c + 32 else charInt c := by
  have h : 65 ≤ c.toNat ∧ c.toNat ≤ 90 ↔ (65 : Int) ≤ charInt c ∧ charInt c ≤ 90 := charInt_letter c (by decide)
  have hl := toLower_nat c
  by_cases h1 : 65 ≤ c.toNat ∧ c.toNat ≤ 90
  · rw [if_pos h1] at hl
    rw [if_pos (h.1 h1)]
    unfold charInt
    rw [hl, if_pos (by omega), if_pos (by omega)]
    omega
  · rw [if_neg h1, ← char_eq_iff] at hl
    rw [if_neg (fun h2 => h1 (h.2 h2)), hl]

theorem toUpper_int (c : Char) : charInt (toUpper c) = if 97 ≤ charInt c ∧ charInt c ≤ 122 then charInt c - 32 else charInt c := by
  have h : 97 ≤ c.toNat ∧ c.toNat ≤ 122 ↔ (97 : Int) ≤ charInt c ∧ charInt c ≤ 122 := charInt_letter c (by decide)
  have hl := toUpper_nat c
  by_cases h1 : 97 ≤ c.toNat ∧ c.toNat ≤ 122
  · rw [if_pos h1] at hl
    rw [if_pos (h.1 h1)]
    unfold charInt
    rw [hl, if_pos (by omega), if_pos (by omega)]
    omega
  · rw [if_neg h1, ← char_eq_iff] at hl
    rw [if_neg (fun h2 => h1 (h.2 h2)), hl]

/-- The members of a usual range. -/
theorem range_has {ic : Bool} {a b : Lit} (hab : RangeOk ic a.char b.char) (c : Char) :
    (SetItem.range a b).Has ic c ↔ ∃ d, SameLetter ic c d ∧ Between a.char b.char d := by
    unfold SetItem.Has
    dsimp only
    generalize a.char = A at *
    generalize b.char = B at *
    cases ic with
    | false =>
      rw [if_neg (by simp)]
      unfold SameLetter
      simp
    | true =>
      rw [if_pos rfl]
      unfold Between
      rw [toUpper_int, toUpper_int, toLower_int, toLower_int]
      have hsame : ∀ d, SameLetter true c d ↔ (if 65 ≤ charInt c ∧ charInt c ≤ 90 then charInt c + 32 else charInt c) =
          (if 65 ≤ charInt d ∧ charInt d ≤ 90 then charInt d + 32 else charInt d) := fun d => by
        unfold SameLetter
        rw [if_pos rfl, charInt_eq_iff, toLower_int, toLower_int]
      have hex : ∀ {P : Int → Prop}, (∃ d : Char, SameLetter true c d ∧ P (charInt d)) ↔
          P (charInt c) ∨ (65 ≤ charInt c ∧ charInt c ≤ 90 ∧ P (charInt c + 32)) ∨
            (97 ≤ charInt c ∧ charInt c ≤ 122 ∧ P (charInt c - 32)) := by
        intro P
        constructor
        · rintro ⟨d, hd, hP⟩
          rw [hsame] at hd
          by_cases e1 : 65 ≤ charInt c ∧ charInt c ≤ 90
          · rw [if_pos e1] at hd
            split at hd
            · left; have : charInt c = charInt d := by omega
              rw [this]; exact hP
            · right; left; rw [hd]; exact ⟨e1.1, e1.2, hP⟩
          · rw [if_neg e1] at hd
            split at hd
            · right; right
              refine ⟨by omega, by omega, ?_⟩
              have : charInt c - 32 = charInt d := by omega
              rw [this]; exact hP
            · left; rw [hd]; exact hP
        · rintro (h | ⟨h1, h2, h⟩ | ⟨h1, h2, h⟩)
          · exact ⟨c, by rw [hsame], h⟩
          · refine ⟨toLower c, ?_, ?_⟩
            · rw [hsame, toLower_int, if_pos ⟨h1, h2⟩, if_neg (by omega)]
            · rw [toLower_int, if_pos ⟨h1, h2⟩]; exact h
          · refine ⟨toUpper c, ?_, ?_⟩
            · rw [hsame, toUpper_int, if_neg (by omega), if_pos (c := 97 ≤ charInt c ∧ charInt c ≤ 122) ⟨h1, h2⟩, if_pos (by omega)]; omega
            · rw [toUpper_int, if_pos ⟨h1, h2⟩]; exact h
      have lo := fun c => charInt_letter c (lo := 97) (hi := 122) (by decide)
      have up := fun c => charInt_letter c (lo := 65) (hi := 90) (by decide)
      rcases hab with h | ⟨h, h'⟩ | ⟨h, h'⟩ | ⟨h, h', hcl⟩
      · cases h
      · have hA : 97 ≤ charInt A ∧ charInt A ≤ 122 := (lo A).1 h
        have hB : 97 ≤ charInt B ∧ charInt B ≤ 122 := (lo B).1 h'
        rw [hex (P := fun d => charInt A ≤ d ∧ d ≤ charInt B), if_pos hA, if_pos hB, if_neg (by omega), if_neg (by omega)]
        omega
      · have hA : 65 ≤ charInt A ∧ charInt A ≤ 90 := (up A).1 h
        have hB : 65 ≤ charInt B ∧ charInt B ≤ 90 := (up B).1 h'
        rw [hex (P := fun d => charInt A ≤ d ∧ d ≤ charInt B), if_neg (by omega), if_neg (by omega), if_pos hA, if_pos hB]
        omega
      · have hA : ¬ ((65 ≤ charInt A ∧ charInt A ≤ 90) ∨ (97 ≤ charInt A ∧ charInt A ≤ 122)) :=
          fun h2 => h (h2.imp (up A).2 (lo A).2)
        have hB : ¬ ((65 ≤ charInt B ∧ charInt B ≤ 90) ∨ (97 ≤ charInt B ∧ charInt B ≤ 122)) :=
          fun h2 => h' (h2.imp (up B).2 (lo B).2)
        rw [if_neg (by omega), if_neg (by omega), if_neg (by omega), if_neg (by omega), or_self]
        constructor
        · intro hc; exact ⟨c, by rw [hsame], hc⟩
        · rintro ⟨d, hd, hP⟩
          refine hcl d c ?_ hP
          unfold SameLetter at hd ⊢
          rw [if_pos rfl] at hd ⊢
          exact hd.symm

theorem matchclass_rep {nodes : List RNode} {ic : Bool} {c : Char} {lo hi : Nat} : ∀ {xs : List SetItem} {v : Int} {k : Nat} {b : Bool},
    xs ≠ [] → (∀ x ∈ xs, x.Ok) → RepItems nodes lo hi xs v → matchclass nodes ic c k v = .ok b →
    (b = true ↔ ∃ x ∈ xs, x.Has ic c) := by
  intro xs
  induction xs with
  | nil => intro v k b h; exact absurd rfl h
  | cons x xs ih =>
    intro v k b _ hok hrep hm
    obtain ⟨j, n, rfl, h1, h2, h3, h4, h5⟩ := hrep
    cases k with
    | zero => cases hm
    | succ k =>
      rw [matchclass, nodeAt_eq h3, bind_ok] at hm
      have hi := classItem_iff (ic := ic) (hok x (by simp)) h4 c
      by_cases hc : classItem ic n c = true
      · rw [if_pos hc] at hm
        cases hm
        simp only [true_iff]
        exact ⟨x, by simp, hi.1 hc⟩
      · rw [if_neg hc] at hm
        have hx : ¬ x.Has ic c := fun h => hc (hi.2 h)
        cases xs with
        | nil =>
          have hnx : n.next = -1 := h5
          rw [hnx, if_neg (by simp)] at hm
          cases hm
          simp [hx]
        | cons y ys =>
          obtain ⟨j', n', hj', _⟩ := id h5
          rw [if_pos (by rw [hj']; omega)] at hm
          rw [ih (by simp) (fun z hz => hok z (by simp [hz])) h5 hm]
          simp [hx]

/-! ### runs -/

section
variable (nodes : List RNode) (ic : Bool) (text : CStr)

/-- Matching node `i` at `s` consumes the text up to `s'`. -/
def Runs (i : Int) (s s' : Nat) : Prop := ∃ fuel x, matchnode nodes ic text fuel i s x = .ok (some s')

/-- Matching the chain starting with node `i`. -/
inductive Ran : Int → Nat → Nat → Prop
  | last {i : Int} {n : RNode} {s s' : Nat} : nodeAt nodes i = .ok n → n.next = -1 → Runs nodes ic text i s s' → Ran i s s'
  | cons {i : Int} {n : RNode} {s s1 s' : Nat} : nodeAt nodes i = .ok n → n.next ≠ -1 → Runs nodes ic text i s s1 →
      Ran n.next s1 s' → Ran i s s'

end

section
variable {nodes : List RNode} {ic : Bool} {text : CStr}

theorem bind_some_ok {α β : Type} {x : M α} {f : α → M β} {b : β} (h : (x >>= f) = .ok b) : ∃ a, x = .ok a ∧ f a = .ok b := by
  cases x with
  | error e => cases h
  | ok a => exact ⟨a, rfl, h⟩

theorem orChain_ran {fuel : Nat} : ∀ {k : Nat} {i : Int} {s s' : Nat},
    orChain nodes (matchnode nodes ic text fuel) k i s = .ok (some s') → Ran nodes ic text i s s' := by
  intro k
  induction k with
  | zero => intro i s s' h; cases h
  | succ k ih =>
    intro i s s' h
    rw [orChain] at h
    obtain ⟨r, h1, h2⟩ := bind_some_ok h
    cases r with
    | none => cases h2
    | some s1 =>
      obtain ⟨n, h3, h4⟩ := bind_some_ok h2
      split at h4
      · exact .cons h3 ‹_› ⟨_, _, h1⟩ (ih h4)
      · cases h4
        exact .last h3 (by simpa using ‹¬ n.next ≠ -1›) ⟨_, _, h1⟩

theorem exprChain_ran {fuel : Nat} {x : Option Int} : ∀ {k : Nat} {i : Int} {s s' : Nat},
    exprChain nodes (matchnode nodes ic text fuel) x k i s = .ok (some s') → Ran nodes ic text i s s' := by
  intro k
  induction k with
  | zero => intro i s s' h; cases h
  | succ k ih =>
    intro i s s' h
    rw [exprChain] at h
    obtain ⟨n, h3, h2⟩ := bind_some_ok h
    dsimp only at h2
    obtain ⟨r, h1, h4⟩ := bind_some_ok h2
    cases r with
    | none => cases h4
    | some s1 =>
      dsimp only at h4
      split at h4
      · rename_i hne
        rw [if_pos hne] at h1
        exact .cons h3 hne ⟨_, _, h1⟩ (ih h4)
      · rename_i hne
        rw [if_neg hne] at h1
        cases h4
        exact .last h3 (by simpa using hne) ⟨_, _, h1⟩

theorem greedyLoop_iter {fuel p0 p1 : Nat} {left : Int} {g x : Option Int} : ∀ {k nm s nm' good : Nat},
    greedyLoop nodes text.length (matchnode nodes ic text fuel) p0 p1 left g x k nm s s = .ok (nm', good) →
    ∃ n, nm' = nm + n ∧ Iter (Runs nodes ic text left) n s good := by
  intro k
  induction k with
  | zero => intro nm s nm' good h; cases h
  | succ k ih =>
    intro nm s nm' good h
    rw [greedyLoop] at h
    split at h
    · obtain ⟨r, h1, h2⟩ := bind_some_ok h
      cases r with
      | none => cases h2; exact ⟨0, rfl, rfl⟩
      | some s1 =>
        dsimp only at h2
        obtain ⟨stop, h3, h4⟩ := bind_some_ok h2
        split at h4
        · cases h4; exact ⟨1, rfl, _, ⟨_, _, h1⟩, rfl⟩
        · split at h4
          · cases h4; exact ⟨1, rfl, _, ⟨_, _, h1⟩, rfl⟩
          · obtain ⟨n, h5, h6⟩ := ih h4
            exact ⟨n + 1, by omega, _, ⟨_, _, h1⟩, h6⟩
    · cases h; exact ⟨0, rfl, rfl⟩

end

/-- Progress to `s'`, with `R` if that is inside the text. -/
def Snd (text : CStr) (R : Nat → Nat → Prop) (s s' : Nat) : Prop := s ≤ s' ∧ (s' ≤ text.length → R s s')

theorem Snd.mono {text : CStr} {R R' : Nat → Nat → Prop} {s s' : Nat} (h : Snd text R s s')
    (hr : R s s' → R' s s') : Snd text R' s s' := ⟨h.1, fun hs => hr (h.2 hs)⟩

theorem iter_snd {text : CStr} {Q R : Nat → Nat → Prop} (h : ∀ s s', Q s s' → Snd text R s s') : ∀ {n s s' : Nat},
    Iter Q n s s' → Snd text (Iter R n) s s' := by
  intro n
  induction n with
  | zero => rintro s s' rfl; exact ⟨Nat.le_refl _, fun _ => rfl⟩
  | succ n ih =>
    rintro s s' ⟨k, h1, h2⟩
    have a1 := h _ _ h1
    have a2 := ih h2
    exact ⟨Nat.le_trans a1.1 a2.1, fun hs => ⟨k, a1.2 (Nat.le_trans a2.1 hs), a2.2 hs⟩⟩

section
variable {nodes : List RNode} {ic : Bool} {text : CStr}

theorem runs_iff {i s s' : Nat} {n : RNode} (hn : nodes[i]? = some n) (h : Runs nodes ic text i s s') :
    ∃ fuel x, (do
      let m := matchnode nodes ic text fuel
      match n.type with
      | .greedy => do
        let greedystop := if n.next ≠ -1 then some n.next else x
        let (nm, good) ← greedyLoop nodes text.length m n.p0 n.p1 n.left greedystop x 65537 0 s s
        if greedyOk n.p0 n.p1 nm then .ok (some good) else .ok none
      | .or => do
        match ← orChain nodes m (nodes.length + 1) n.left s with
        | some s => .ok (some s)
        | none => orChain nodes m (nodes.length + 1) n.right s
      | .expr | .nocap => exprChain nodes m x (nodes.length + 1) n.left s
      | .wb => do
        let b ← wordBoundary text s
        if b then .ok (if intChar n.left = 'b' then some s else none)
        else .ok (if intChar n.left = 'b' then none else some s)
      | .bol => .ok (if s = 0 then some s else none)
      | .eol => .ok (if s = text.length then some s else none)
      | .dot => .ok (some (s + 1))
      | .ncls => do
        let c ← textAt text s
        let b ← matchclass nodes ic c (nodes.length + 1) n.left
        .ok (if b then none else some (s + 1))
      | .cls => do
        let c ← textAt text s
        let b ← matchclass nodes ic c (nodes.length + 1) n.left
        .ok (if b then some (s + 1) else none)
      | .ccls => do
        let c ← textAt text s
        .ok (if matchcclass (intChar n.left) c then some (s + 1) else none)
      | .range => .ok none
      | .char d => do
        let c ← textAt text s
        if ic then
          .ok (if c ≠ toLower d ∧ c ≠ toUpper d then none else some (s + 1))
        else .ok (if c ≠ d then none else some (s + 1)) : M (Option Nat)) = .ok (some s') := by
  obtain ⟨fuel, x, h⟩ := h
  cases fuel with
  | zero => cases h
  | succ fuel =>
    refine ⟨fuel, x, ?_⟩
    rw [matchnode, nodeAt_eq hn, bind_ok] at h
    exact h

theorem textAt_some {s : Nat} {c : Char} (h : textAt text s = .ok c) (hs : s + 1 ≤ text.length) : text[s]? = some c := by
  unfold textAt at h
  rw [if_pos (by omega)] at h
  cases h
  rw [List.getD_eq_getElem?_getD, List.getElem?_eq_getElem (by omega)]
  rfl

theorem ran_one {i s s' : Nat} {n : RNode} (hn : nodes[i]? = some n) (hx : n.next = -1) (h : Ran nodes ic text i s s') :
    Runs nodes ic text i s s' := by
  have h0 := nodeAt_eq hn
  cases h with
  | last h1 h2 h3 => exact h3
  | cons h1 h2 h3 h4 => rw [h0] at h1; cases h1; exact absurd hx h2

theorem ran_cons {i k s s' : Nat} {n : RNode} (hn : nodes[i]? = some n) (hx : n.next = (k : Int)) (h : Ran nodes ic text i s s') :
    ∃ s1, Runs nodes ic text i s s1 ∧ Ran nodes ic text k s1 s' := by
  have h0 := nodeAt_eq hn
  cases h with
  | last h1 h2 h3 => rw [h0] at h1; cases h1; omega
  | cons h1 h2 h3 h4 => rw [h0] at h1; cases h1; rw [hx] at h4; exact ⟨_, h3, h4⟩

theorem upperBound_lt (lo : CStr) (hi : Option CStr) : upperBound lo hi < 65536 := by
  have hb : ∀ w, bound w < 65536 := fun w => Nat.mod_lt _ (by decide)
  cases hi with
  | none => exact hb lo
  | some ds =>
    cases ds with
    | nil => show 65535 < 65536; decide
    | cons d ds => exact hb _

theorem allows_of_greedyOk {q : Quant} (h1 : q ≠ .once) (hq : q.Ok) {nm : Nat}
    (h : greedyOk (quantBounds q).1 (quantBounds q).2 nm = true) : q.Allows nm := by
  unfold greedyOk at h
  rw [decide_eq_true_iff] at h
  cases q with
  | once => exact absurd rfl h1
  | star => trivial
  | plus => show 1 ≤ nm; simp [quantBounds] at h; omega
  | opt => show nm ≤ 1; simp [quantBounds] at h; omega
  | exactly n =>
    have hn : n < 32768 := hq
    show nm = n; simp [quantBounds] at h; omega
  | atLeast n => show n ≤ nm; simp [quantBounds] at h; omega
  | between n m =>
    have hn : n < 32768 ∧ m < 65535 := hq
    show n ≤ nm ∧ nm ≤ m; simp [quantBounds] at h; omega
  | raw lo hi =>
    show bound lo ≤ nm ∧ (upperBound lo hi = 65535 ∨ nm ≤ upperBound lo hi)
    simp only [quantBounds] at h
    omega

theorem greedy_bounds {q : Quant} (hq : q.Ok) {n : RNode} (h : n.right = (((quantBounds q).1 * 65536 + (quantBounds q).2 : Nat) : Int)) :
    n.p0 = (quantBounds q).1 ∧ n.p1 = (quantBounds q).2 := by
  have hb : (quantBounds q).2 < 65536 := by
    cases q with
    | exactly n => have : n < 32768 := hq; show n < _; omega
    | between n m => have : n < 32768 ∧ m < 65535 := hq; show m < _; omega
    | once => decide
    | star => decide
    | plus => decide
    | opt => decide
    | atLeast n => show 65535 < 65536; omega
    | raw lo hi => exact upperBound_lt lo hi
  unfold RNode.p0 RNode.p1
  rw [h]
  omega

/-- What soundness means for an atom, a sequence, a pattern. -/
def AtomS (nodes : List RNode) (ic : Bool) (text : CStr) (a : Atom) : Prop := ∀ {lo hi i : Nat} {nx : Int} {s s' : Nat}, a.Ok →
  RepAtom nodes a lo hi i nx → Runs nodes ic text i s s' → Snd text (a.Matches ic text) s s'
def ElemsS (nodes : List RNode) (ic : Bool) (text : CStr) (es : Elems) : Prop := ∀ {lo hi i s s' : Nat}, es.Ok →
  RepElems nodes es lo hi i → Ran nodes ic text i s s' → Snd text (es.Matches ic text) s s'
def ReS (nodes : List RNode) (ic : Bool) (text : CStr) (r : Re) : Prop := ∀ {lo hi i s s' : Nat}, r.Ok →
  RepRe nodes r lo hi i → Ran nodes ic text i s s' → Snd text (r.Matches ic text) s s'

theorem oneChar_snd {P : Char → Prop} {c : Char} {s : Nat} (h : textAt text s = .ok c) (hc : P c) :
    Snd text (OneChar text P) s (s + 1) :=
  ⟨Nat.le_succ _, fun hs => ⟨c, textAt_some h hs, hc, rfl⟩⟩

theorem atomS_chr (l : Lit) : AtomS nodes ic text (.chr l) := by
  intro lo hi i nx s s' hok hrep hr
  unfold RepAtom at hrep
  obtain ⟨_, _, n, hn, _, ht⟩ := hrep
  obtain ⟨fuel, x, h⟩ := runs_iff hn hr
  dsimp only at h
  rw [ht] at h
  obtain ⟨c, hc, h⟩ := bind_some_ok h
  show Snd text (fun i j => Atom.Matches ic text _ i j) s _
  unfold Atom.Matches
  have key : s' = s + 1 ∧ SameChar ic c l.char := by
    unfold SameChar
    cases ic with
    | true =>
      rw [if_pos rfl] at h ⊢
      split at h
      · cases h
      · rename_i hne
        cases h
        exact ⟨rfl, by tauto⟩
    | false =>
      rw [if_neg (by simp)] at h ⊢
      split at h
      · cases h
      · rename_i hne
        cases h
        exact ⟨rfl, by tauto⟩
  obtain ⟨rfl, hsc⟩ := key
  exact oneChar_snd hc ((sameLetter_iff ic).1 hsc)

theorem atomS_cls (l : Char) : AtomS nodes ic text (.cls l) := by
  intro lo hi i nx s s' hok hrep hr
  unfold RepAtom at hrep
  obtain ⟨_, _, n, hn, _, ht, hl⟩ := hrep
  obtain ⟨fuel, x, h⟩ := runs_iff hn hr
  dsimp only at h
  rw [ht] at h
  obtain ⟨c, hc, h⟩ := bind_some_ok h
  rw [hl, intChar_charInt] at h
  show Snd text (fun i j => Atom.Matches ic text _ i j) s _
  unfold Atom.Matches
  unfold Atom.Ok at hok
  split at h
  · rename_i hm
    cases h
    exact oneChar_snd hc ((matchcclass_iff hok c).1 hm)
  · cases h

theorem atomS_any : AtomS nodes ic text .any := by
  intro lo hi i nx s s' hok hrep hr
  unfold RepAtom at hrep
  obtain ⟨_, _, n, hn, _, ht⟩ := hrep
  obtain ⟨fuel, x, h⟩ := runs_iff hn hr
  dsimp only at h
  rw [ht] at h
  cases h
  show Snd text (fun i j => Atom.Matches ic text _ i j) s _
  unfold Atom.Matches
  refine ⟨Nat.le_succ _, fun hs => ⟨text[s], List.getElem?_eq_getElem (by omega), trivial, rfl⟩⟩

theorem atomS_eol : AtomS nodes ic text .eol := by
  intro lo hi i nx s s' hok hrep hr
  unfold RepAtom at hrep
  obtain ⟨_, _, n, hn, _, ht⟩ := hrep
  obtain ⟨fuel, x, h⟩ := runs_iff hn hr
  dsimp only at h
  rw [ht] at h
  show Snd text (fun i j => Atom.Matches ic text _ i j) s _
  unfold Atom.Matches
  dsimp only at h
  by_cases he : s = text.length
  · rw [if_pos he] at h; cases h; exact ⟨Nat.le_refl _, fun _ => ⟨rfl, he⟩⟩
  · rw [if_neg he] at h; cases h

theorem blankAt_iff {text : CStr} {i : Nat} {c : Char} (h : textAt text i = .ok c) : BlankAt text i ↔ isSpace c = true := by
  have hs : ∀ d : Char, InClass 's' d ↔ isSpace d = true := fun d => (matchcclass_iff (l := 's') (by decide) d).symm
  unfold textAt at h
  unfold BlankAt
  split at h
  · rename_i hi
    cases h
    constructor
    · rintro ⟨d, h1, h2⟩
      rw [List.getD_eq_getElem?_getD, h1]
      exact (hs d).1 h2
    · intro h1
      refine ⟨text[i], List.getElem?_eq_getElem hi, (hs _).2 ?_⟩
      rw [List.getD_eq_getElem?_getD, List.getElem?_eq_getElem hi] at h1
      exact h1
  · rename_i hi
    split at h
    · cases h
      constructor
      · rintro ⟨d, h1, -⟩
        exact absurd (lt_of_getElem? h1) hi
      · intro h1; exact absurd h1 (by decide)
    · cases h

theorem wordBoundary_iff {text : CStr} {i : Nat} {b : Bool} (h : wordBoundary text i = .ok b) : b = true ↔ Edge text i := by
  unfold wordBoundary at h
  obtain ⟨c, hc, h⟩ := bind_some_ok h
  have h1 := blankAt_iff hc
  unfold Edge
  by_cases h0 : i = 0 ∧ ¬ isSpace c = true
  · rw [if_pos h0] at h
    cases h
    have : ¬ BlankAt text 0 := by rw [← h0.1, h1]; exact h0.2
    exact ⟨fun _ => Or.inl ⟨h0.1, this⟩, fun _ => rfl⟩
  · rw [if_neg h0] at h
    obtain ⟨e, he, h⟩ := bind_some_ok h
    have hn : ¬ (i = 0 ∧ ¬ BlankAt text 0) := by
      rintro ⟨rfl, h2⟩; exact h0 ⟨rfl, fun h3 => h2 (h1.2 h3)⟩
    have hE : e = true ↔ (i = text.length ∧ ¬ BlankAt text (i - 1)) := by
      unfold wordEnd at he
      split at he
      · rename_i hi
        obtain ⟨p, hp, he⟩ := bind_some_ok he
        cases he
        have := blankAt_iff hp
        rw [this]
        simp [hi]
      · rename_i hi
        cases he
        simp [hi]
    cases e with
    | true =>
      cases h
      exact ⟨fun _ => Or.inr (Or.inl (hE.1 rfl)), fun _ => rfl⟩
    | false =>
      obtain ⟨d, hd, h⟩ := bind_some_ok h
      cases h
      have h2 := blankAt_iff hd
      have h3 : ¬ (i = text.length ∧ ¬ BlankAt text (i - 1)) := fun h => by cases hE.2 h
      rw [h1, h2]
      constructor
      · intro h4
        refine Or.inr (Or.inr ?_)
        cases hx : isSpace c <;> cases hy : isSpace d <;> simp [hx, hy] at h4 ⊢
      · rintro (h4 | h4 | h4)
        · exact absurd h4 hn
        · exact absurd h4 h3
        · cases hx : isSpace c <;> cases hy : isSpace d <;> simp [hx, hy] at h4 ⊢

theorem atomS_edge (neg : Bool) : AtomS nodes ic text (.edge neg) := by
  intro lo hi i nx s s' hok hrep hr
  unfold RepAtom at hrep
  obtain ⟨_, _, n, hn, _, ht, hl⟩ := hrep
  obtain ⟨fuel, x, h⟩ := runs_iff hn hr
  dsimp only at h
  rw [ht] at h
  show Snd text (fun i j => Atom.Matches ic text _ i j) s _
  unfold Atom.Matches
  dsimp only at h
  obtain ⟨b, hb, h⟩ := bind_some_ok h
  have hw := wordBoundary_iff hb
  rw [hl, intChar_charInt] at h
  have hs : s' = s := by
    cases b <;> cases neg <;> simp at h <;> exact h.symm
  subst hs
  refine ⟨Nat.le_refl _, fun _ => ⟨rfl, ?_⟩⟩
  cases b <;> cases neg <;> simp at h hw ⊢ <;> exact hw

theorem atomS_set (neg : Bool) (x : SetItem) (xs : List SetItem) : AtomS nodes ic text (.set neg x xs) := by
  intro lo hi i nx s s' hok hrep hr
  unfold RepAtom at hrep
  obtain ⟨_, _, n, hn, _, ht, hit⟩ := hrep
  obtain ⟨fuel, y, h⟩ := runs_iff hn hr
  unfold Atom.Ok at hok
  show Snd text (fun i j => Atom.Matches ic text _ i j) s _
  unfold Atom.Matches
  dsimp only at h
  rw [ht] at h
  cases neg with
  | true =>
    simp only [if_true] at h
    obtain ⟨c, hc, h⟩ := bind_some_ok h
    obtain ⟨b, hb, h⟩ := bind_some_ok h
    have hiff := matchclass_rep (by simp) hok.1 hit hb
    cases b with
    | true => cases h
    | false =>
      cases h
      refine oneChar_snd (P := fun c => if true = true then ¬ ∃ z ∈ x :: xs, z.Has ic c else ∃ z ∈ x :: xs, z.Has ic c) hc ?_
      rw [if_pos rfl, ← hiff]
      simp
  | false =>
    simp only [Bool.false_eq_true, if_false] at h
    obtain ⟨c, hc, h⟩ := bind_some_ok h
    obtain ⟨b, hb, h⟩ := bind_some_ok h
    have hiff := matchclass_rep (by simp) hok.1 hit hb
    cases b with
    | false => cases h
    | true =>
      cases h
      refine oneChar_snd (P := fun c => if false = true then ¬ ∃ z ∈ x :: xs, z.Has ic c else ∃ z ∈ x :: xs, z.Has ic c) hc ?_
      rw [if_neg (by simp), ← hiff]

theorem atomS_group (capture : Bool) (r : Re) (ih : ReS nodes ic text r) : AtomS nodes ic text (.group capture r) := by
  intro lo hi i nx s s' hok hrep hr
  unfold RepAtom at hrep
  obtain ⟨_, _, n, hn, _, ht, k, hk, hre⟩ := hrep
  obtain ⟨fuel, y, h⟩ := runs_iff hn hr
  unfold Atom.Ok at hok
  show Snd text (fun i j => Atom.Matches ic text _ i j) s _
  unfold Atom.Matches
  dsimp only at h
  rw [ht, hk] at h
  refine ih hok.1 hre ?_
  cases capture with
  | true => exact exprChain_ran h
  | false => exact exprChain_ran h

theorem quant_snd {a : Atom} (ha : AtomS nodes ic text a) {q : Quant} (hok : a.Ok) (hq : q.Ok) {lo hi i s s' : Nat} {nx : Int}
    (hrep : RepQ nodes (RepAtom nodes a) q lo hi i nx) (hr : Runs nodes ic text i s s') :
    Snd text (Repeated q (a.Matches ic text)) s s' := by
  unfold RepQ at hrep
  split at hrep
  · rename_i h1
    subst h1
    exact (ha hok hrep hr).mono fun h => ⟨1, rfl, _, h, rfl⟩
  · rename_i h1
    obtain ⟨_, _, n, hn, _, ht, hb, k, hk, hat⟩ := hrep
    obtain ⟨fuel, y, h⟩ := runs_iff hn hr
    dsimp only at h
    obtain ⟨b1, b2⟩ := greedy_bounds hq hb
    rw [ht, hk, b1, b2] at h
    obtain ⟨⟨nm, good⟩, h2, h3⟩ := bind_some_ok h
    dsimp only at h3
    split at h3
    · rename_i hg
      cases h3
      obtain ⟨c, hc, hit⟩ := greedyLoop_iter h2
      rw [Nat.zero_add] at hc
      subst hc
      have := iter_snd (fun a b hab => ha hok hat hab) hit
      exact this.mono fun h => ⟨_, allows_of_greedyOk h1 hq hg, h⟩
    · cases h3

theorem repQ_node {a : Atom} {q : Quant} {lo hi i : Nat} {nx : Int} (h : RepQ nodes (RepAtom nodes a) q lo hi i nx) :
    ∃ n, nodes[i]? = some n ∧ n.next = nx := by
  unfold RepQ at h
  split at h
  · cases a <;> (unfold RepAtom at h; obtain ⟨_, _, n, h1, h2, _⟩ := h; exact ⟨n, h1, h2⟩)
  · obtain ⟨_, _, n, h1, h2, _⟩ := h; exact ⟨n, h1, h2⟩

theorem elemsS_last (a : Atom) (q : Quant) (ha : AtomS nodes ic text a) : ElemsS nodes ic text (.last a q) := by
  intro lo hi i s s' hok hrep hr
  unfold Elems.Ok at hok
  unfold RepElems at hrep
  show Snd text (fun i j => Elems.Matches ic text _ i j) s _
  unfold Elems.Matches
  obtain ⟨n, h1, h2⟩ := repQ_node hrep
  exact quant_snd ha hok.1 hok.2 hrep (ran_one h1 h2 hr)

theorem elemsS_more (a : Atom) (q : Quant) (es : Elems) (ha : AtomS nodes ic text a) (hes : ElemsS nodes ic text es) :
    ElemsS nodes ic text (.more a q es) := by
  intro lo hi i s s' hok hrep hr
  unfold Elems.Ok at hok
  unfold RepElems at hrep
  show Snd text (fun i j => Elems.Matches ic text _ i j) s _
  unfold Elems.Matches
  obtain ⟨m, k, _, _, hq, hre⟩ := hrep
  obtain ⟨n, h1, h2⟩ := repQ_node hq
  obtain ⟨s1, r1, r2⟩ := ran_cons h1 h2 hr
  have a1 := quant_snd ha hok.1 hok.2.1 hq r1
  have a2 := hes hok.2.2.1 hre r2
  exact ⟨Nat.le_trans a1.1 a2.1, fun hs => ⟨s1, a1.2 (Nat.le_trans a2.1 hs), a2.2 hs⟩⟩

theorem branch_snd {es : Elems} (hes : ElemsS nodes ic text es) {bol : Bool} (hok : es.Ok) {lo hi i s s' : Nat}
    (hrep : RepBranch nodes (RepElems nodes es) bol lo hi i) (hr : Ran nodes ic text i s s') :
    Snd text (fun s s' => (bol = true → s = 0) ∧ es.Matches ic text s s') s s' := by
  unfold RepBranch at hrep
  split at hrep
  · rename_i hb
    obtain ⟨_, _, n, hn, ht, k, hk, hre⟩ := hrep
    obtain ⟨s1, r1, r2⟩ := ran_cons hn hk hr
    obtain ⟨fuel, y, h⟩ := runs_iff hn r1
    dsimp only at h
    rw [ht] at h
    dsimp only at h
    by_cases h0 : s = 0
    · rw [if_pos h0] at h
      cases h
      exact (hes hok hre r2).mono fun h => ⟨fun _ => h0, h⟩
    · rw [if_neg h0] at h; cases h
  · rename_i hb
    exact (hes hok hrep hr).mono fun h => ⟨fun h' => absurd h' hb, h⟩

theorem reS_branch (bol : Bool) (es : Elems) (hes : ElemsS nodes ic text es) : ReS nodes ic text (.branch bol es) := by
  intro lo hi i s s' hok hrep hr
  unfold Re.Ok at hok
  unfold RepRe at hrep
  show Snd text (fun i j => Re.Matches ic text _ i j) s _
  unfold Re.Matches
  exact branch_snd hes hok.1 hrep hr

theorem reS_alt (bol : Bool) (es : Elems) (r : Re) (hes : ElemsS nodes ic text es) (hr' : ReS nodes ic text r) :
    ReS nodes ic text (.alt bol es r) := by
  intro lo hi i s s' hok hrep hr
  unfold Re.Ok at hok
  unfold RepRe at hrep
  show Snd text (fun i j => Re.Matches ic text _ i j) s _
  unfold Re.Matches
  obtain ⟨n, hn, ht, hx, _, _, k1, k2, hk1, hk2, hb, hre⟩ := hrep
  obtain ⟨fuel, y, h⟩ := runs_iff hn (ran_one hn hx hr)
  dsimp only at h
  rw [ht, hk1, hk2] at h
  obtain ⟨o, h1, h2⟩ := bind_some_ok h
  cases o with
  | some s1 =>
    cases h2
    exact (branch_snd hes hok.1 hb (orChain_ran h1)).mono Or.inl
  | none => exact (hr' hok.2.1 hre (orChain_ran h2)).mono Or.inr

mutual
theorem atom_snd (nodes : List RNode) (ic : Bool) (text : CStr) : ∀ a : Atom, AtomS nodes ic text a
  | .chr l => atomS_chr l
  | .cls l => atomS_cls l
  | .any => atomS_any
  | .eol => atomS_eol
  | .edge neg => atomS_edge neg
  | .set neg x xs => atomS_set neg x xs
  | .group capture r => atomS_group capture r (re_snd nodes ic text r)
theorem elems_snd (nodes : List RNode) (ic : Bool) (text : CStr) : ∀ es : Elems, ElemsS nodes ic text es
  | .last a q => elemsS_last a q (atom_snd nodes ic text a)
  | .more a q es => elemsS_more a q es (atom_snd nodes ic text a) (elems_snd nodes ic text es)
theorem re_snd (nodes : List RNode) (ic : Bool) (text : CStr) : ∀ r : Re, ReS nodes ic text r
  | .branch bol es => reS_branch bol es (elems_snd nodes ic text es)
  | .alt bol es r => reS_alt bol es r (elems_snd nodes ic text es) (re_snd nodes ic text r)
end

/-- A match is a match. -/
theorem rexMatch_sound {r : Re} (hok : r.Ok) (hc : rexCompile r.text = .ok (some nodes)) (hm : rexMatch nodes ic text = .ok true) :
    r.Accepts ic text := by
  rcases rexCompile_rep (E := True) hok (Or.inl trivial) with ⟨_, h⟩ | ⟨-, ns, n, k, h, h0, ht, hl, _, hrep⟩
  · rw [h] at hc; cases hc
  · rw [h] at hc
    cases hc
    unfold rexMatch at hm
    obtain ⟨o, h1, h2⟩ := bind_some_ok hm
    have ho : o = some text.length := by
      injection h2 with h2
      simpa using h2
    subst ho
    have hrun : Runs nodes ic text (0 : Nat) 0 text.length := ⟨_, _, h1⟩
    obtain ⟨fuel, y, h⟩ := runs_iff h0 hrun
    dsimp only at h
    rw [ht, hl] at h
    have := re_snd nodes ic text r hok hrep (exprChain_ran h)
    exact this.2 (Nat.le_refl _)

end

end Argtable
