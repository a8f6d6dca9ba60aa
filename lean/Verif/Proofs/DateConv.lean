import Verif.Proofs.Date
import Mathlib.Data.List.Infix
/-!
# One conversion of `arg_strptime` (C28-C31)
-/

namespace Argtable

open Spec

instance (m : Option Char) (c : Char) : Decidable (ModOk m c) := by unfold ModOk; infer_instance

/-- The flags for a modifier. -/
inductive Mode : Option Char → Bool → Bool → Prop
  | plain : Mode none false false
  | E : Mode (some 'E') true false
  | O : Mode (some 'O') false true

theorem map_some_inv {α β : Type} {f : α → β} {o : Option α} {b : β} (h : o.map f = some b) :
    ∃ a, o = some a ∧ b = f a := by
  cases o with
  | none => cases h
  | some a => cases h; exact ⟨a, rfl, rfl⟩

/-- What a conversion does. -/
def ConvRel (sub : Sub) (m : Option Char) (c : Char) (s s' : PState) : Prop :=
  Item m c s.bp s.tm s.split s'.bp s'.tm s'.split ∨
  ∃ g, Group c g ∧ ModOk m c ∧ sub s.bp g s.tm = some (s'.bp, s'.tm) ∧ s'.split = s.split

theorem num_fwd {m : Option Char} {c : Char} {s s' : PState} {cond : Prop} [Decidable cond] {lo hi : Nat} (hpos : hi ≠ 0)
    {F : Nat × CStr → PState} (h : (if cond then none else (convNum s.bp lo hi).map F) = some s')
    (hm : ¬ cond → ModOk m c)
    (hF : ∀ n bp, Assign c lo hi n s.tm s.split (F (n, bp)).tm (F (n, bp)).split ∧ (F (n, bp)).bp = bp) :
    Item m c s.bp s.tm s.split s'.bp s'.tm s'.split := by
  split at h
  · cases h
  · rename_i hc
    obtain ⟨⟨n, bp⟩, h1, rfl⟩ := map_some_inv h
    obtain ⟨h2, h3⟩ := hF n bp
    refine .number m c lo hi n _ _ _ _ _ _ (hm hc) ((convNum_iff hpos _ _ _).1 ?_) h2
    rw [h1, h3]

theorem nested_fwd {sub : Sub} {m : Option Char} {c : Char} {s s' : PState} {cond : Prop} [Decidable cond] {g : CStr}
    (hg : Group c g)
    (h : (if cond then none else (sub s.bp g s.tm).map fun (bp, tm) => { s with bp := bp, tm := tm }) = some s')
    (hm : ¬ cond → ModOk m c) : ConvRel sub m c s s' := by
  split at h
  · cases h
  · rename_i hc
    obtain ⟨⟨bp, tm⟩, h1, rfl⟩ := map_some_inv h
    exact Or.inr ⟨g, hg, hm hc, h1, rfl⟩

local macro "mod_ok" h:ident : tactic =>
  `(tactic| (cases $h:ident <;> first | (intro _; decide) | (intro hx; exact absurd (by simp) hx)))

theorem convSpec_fwd {sub : Sub} {m : Option Char} {e o : Bool} (hm : Mode m e o) {c : Char} {s s' : PState}
    (h : convSpec sub e o c s = some s') : ConvRel sub m c s s' := by
  unfold convSpec at h
  dsimp only at h
  by_cases hc : c = '%'
  · rw [if_pos hc] at h
    subst hc
    obtain ⟨bp, tm, k⟩ := s
    cases bp with
    | nil => cases h
    | cons d bp =>
      dsimp only at h
      split at h
      · rename_i hd; cases h; subst hd; exact Or.inl (.percent _ _ _ _)
      · cases h
  rw [if_neg hc] at h
  by_cases hc : c = 'c'
  · rw [if_pos hc] at h; subst hc
    exact nested_fwd .c h (by mod_ok hm)
  rw [if_neg hc] at h
  by_cases hc : c = 'D'
  · rw [if_pos hc] at h; subst hc
    exact nested_fwd .D h (by mod_ok hm)
  rw [if_neg hc] at h
  by_cases hc : c = 'R'
  · rw [if_pos hc] at h; subst hc
    exact nested_fwd .R h (by mod_ok hm)
  rw [if_neg hc] at h
  by_cases hc : c = 'r'
  · rw [if_pos hc] at h; subst hc
    exact nested_fwd .r h (by mod_ok hm)
  rw [if_neg hc] at h
  by_cases hc : c = 'T'
  · rw [if_pos hc] at h; subst hc
    exact nested_fwd .T h (by mod_ok hm)
  rw [if_neg hc] at h
  by_cases hc : c = 'X'
  · rw [if_pos hc] at h; subst hc
    exact nested_fwd .X h (by mod_ok hm)
  rw [if_neg hc] at h
  by_cases hc : c = 'x'
  · rw [if_pos hc] at h; subst hc
    exact nested_fwd .x h (by mod_ok hm)
  rw [if_neg hc] at h
  by_cases hc : c = 'A' ∨ c = 'a'
  · rw [if_pos hc] at h
    cases hm with
    | plain =>
      rw [if_neg (by simp)] at h
      obtain ⟨⟨i, len⟩, h1, rfl⟩ := map_some_inv h
      exact Or.inl (.weekday c i _ _ _ _ hc ((findName_iff distinct_days _ _ _).1
        ⟨len, by rw [← dayNames_eq, ← h1]; exact congrArg (fun l => findName _ _ l _) abdayNames_eq.symm, rfl⟩))
    | E => simp at h
    | O => simp at h
  rw [if_neg hc] at h
  by_cases hc : c = 'B' ∨ c = 'b' ∨ c = 'h'
  · rw [if_pos hc] at h
    cases hm with
    | plain =>
      rw [if_neg (by simp)] at h
      obtain ⟨⟨i, len⟩, h1, rfl⟩ := map_some_inv h
      exact Or.inl (.month c i _ _ _ _ hc ((findName_iff distinct_months _ _ _).1
        ⟨len, by rw [← monNames_eq, ← h1]; exact congrArg (fun l => findName _ _ l _) abmonNames_eq.symm, rfl⟩))
    | E => simp at h
    | O => simp at h
  rw [if_neg hc] at h
  by_cases hc : c = 'C'
  · rw [if_pos hc] at h; subst hc
    refine Or.inl (num_fwd (by decide) h (by mod_ok hm) ?_)
    intro n bp
    obtain ⟨bp0, tm, k⟩ := s
    cases k
    · exact ⟨.century n tm, rfl⟩
    · exact ⟨.centuryAfter n tm, rfl⟩
  rw [if_neg hc] at h
  by_cases hc : c = 'd' ∨ c = 'e'
  · rw [if_pos hc] at h
    refine Or.inl (num_fwd (by decide) h ?_ fun n bp => ⟨.mday c n _ _ hc, rfl⟩)
    rcases hc with rfl | rfl <;> mod_ok hm
  rw [if_neg hc] at h
  by_cases hc : c = 'k'
  · rw [if_pos hc] at h; subst hc
    exact Or.inl (num_fwd (by decide) h (by mod_ok hm) fun n bp => ⟨.hour24 _ n _ _ (Or.inr rfl), rfl⟩)
  rw [if_neg hc] at h
  by_cases hc : c = 'H'
  · rw [if_pos hc] at h; subst hc
    exact Or.inl (num_fwd (by decide) h (by mod_ok hm) fun n bp => ⟨.hour24 _ n _ _ (Or.inl rfl), rfl⟩)
  rw [if_neg hc] at h
  have h12 : ∀ n : Nat, 1 ≤ n → n ≤ 12 → (if (n : Int) = 12 then (0 : Int) else n) = ((n % 12 : Nat) : Int) := by
    intro n h1 h2
    by_cases h : n = 12
    · subst h; rfl
    · rw [if_neg (by omega), Nat.mod_eq_of_lt (by omega)]
  have hh : ∀ (c : Char) (cond : Prop) [Decidable cond], (¬ cond → ModOk m c) → (c = 'I' ∨ c = 'l') →
      (if cond then none else (convNum s.bp 1 12).map fun (n, bp) =>
        ({ bp := bp, tm := { s.tm with hour := if n = 12 then 0 else (n : Int) }, split := s.split } : PState)) = some s' →
      ConvRel sub m c s s' := by
    intro c cond _ hcond hI h
    split at h
    · cases h
    · rename_i hc'
      obtain ⟨⟨n, bp⟩, h1, rfl⟩ := map_some_inv h
      have hn := (convNum_iff (by decide) _ _ _).1 h1
      obtain ⟨w, _, _, l1, l2, _⟩ := id hn
      refine Or.inl (.number m c 1 12 n _ _ _ _ _ _ (hcond hc') hn ?_)
      have := Assign.hour12 c n s.tm s.split hI
      rw [← h12 n l1 l2] at this
      dsimp only
      have e : (if n = 12 then (0 : Int) else n) = (if (n : Int) = 12 then (0 : Int) else n) := by
        by_cases h : n = 12
        · subst h; rfl
        · rw [if_neg h, if_neg (by omega)]
      rw [e]; exact this
  by_cases hc : c = 'l'
  · rw [if_pos hc] at h; subst hc
    exact hh _ _ (by mod_ok hm) (Or.inr rfl) h
  rw [if_neg hc] at h
  by_cases hc : c = 'I'
  · rw [if_pos hc] at h; subst hc
    exact hh _ _ (by mod_ok hm) (Or.inl rfl) h
  rw [if_neg hc] at h
  by_cases hc : c = 'j'
  · rw [if_pos hc] at h; subst hc
    exact Or.inl (num_fwd (by decide) h (by mod_ok hm) fun n bp => ⟨.yday n _ _, rfl⟩)
  rw [if_neg hc] at h
  by_cases hc : c = 'M'
  · rw [if_pos hc] at h; subst hc
    exact Or.inl (num_fwd (by decide) h (by mod_ok hm) fun n bp => ⟨.min n _ _, rfl⟩)
  rw [if_neg hc] at h
  by_cases hc : c = 'm'
  · rw [if_pos hc] at h; subst hc
    exact Or.inl (num_fwd (by decide) h (by mod_ok hm) fun n bp => ⟨.mon n _ _, rfl⟩)
  rw [if_neg hc] at h
  by_cases hc : c = 'p'
  · rw [if_pos hc] at h; subst hc
    have hdrop : ∀ a : CStr, a.length = 2 → SameText s.bp a → s.bp.drop 2 = [] := by
      intro a ha hs
      have := sameText_length hs
      exact List.drop_eq_nil_of_le (by omega)
    cases hm with
    | plain =>
      rw [if_neg (by simp)] at h
      split at h
      · rename_i ham
        rw [strcasecmpEq_iff] at ham
        split at h
        · cases h
        · rename_i hh
          cases h
          left
          dsimp only
          rw [hdrop _ rfl ham]
          exact .am _ _ _ ham (by omega)
      · split at h
        · rename_i hpm
          rw [strcasecmpEq_iff] at hpm
          split at h
          · cases h
          · rename_i hh
            cases h
            left
            dsimp only
            rw [hdrop _ rfl hpm]
            exact .pm _ _ _ hpm (by omega)
        · cases h
    | E => simp at h
    | O => simp at h
  rw [if_neg hc] at h
  by_cases hc : c = 'S'
  · rw [if_pos hc] at h; subst hc
    exact Or.inl (num_fwd (by decide) h (by mod_ok hm) fun n bp => ⟨.sec n _ _, rfl⟩)
  rw [if_neg hc] at h
  by_cases hc : c = 'U' ∨ c = 'W'
  · rw [if_pos hc] at h
    refine Or.inl (num_fwd (by decide) h ?_ fun n bp => ⟨.week c n _ _ hc, rfl⟩)
    rcases hc with rfl | rfl <;> mod_ok hm
  rw [if_neg hc] at h
  by_cases hc : c = 'w'
  · rw [if_pos hc] at h; subst hc
    exact Or.inl (num_fwd (by decide) h (by mod_ok hm) fun n bp => ⟨.wday n _ _, rfl⟩)
  rw [if_neg hc] at h
  by_cases hc : c = 'Y'
  · rw [if_pos hc] at h; subst hc
    exact Or.inl (num_fwd (by decide) h (by mod_ok hm) fun n bp => ⟨.year n _ _, rfl⟩)
  rw [if_neg hc] at h
  by_cases hc : c = 'y'
  · rw [if_pos hc] at h; subst hc
    refine Or.inl (num_fwd (by decide) h (by mod_ok hm) ?_)
    intro n bp
    obtain ⟨bp0, tm, k⟩ := s
    cases k
    · dsimp only
      rw [if_neg (by simp)]
      split
      · rename_i hn
        refine ⟨?_, rfl⟩
        have := Assign.new n tm (by omega)
        have e : (n : Int) + 100 = n + 2000 - 1900 := by omega
        rw [e] at this
        exact this
      · rename_i hn
        refine ⟨?_, rfl⟩
        have := Assign.old n tm (by omega)
        have e : (n : Int) = n + 1900 - 1900 := by omega
        rw [e] at this
        exact this
    · exact ⟨.yearAfter n tm, rfl⟩
  rw [if_neg hc] at h
  by_cases hc : c = 'n' ∨ c = 't'
  · rw [if_pos hc] at h
    cases hm with
    | plain =>
      rw [if_neg (by simp)] at h
      cases h
      exact Or.inl (.white c _ _ _ _ hc ((skipWhite_iff _ _).1 rfl))
    | E => simp at h
    | O => simp at h
  rw [if_neg hc] at h
  cases h

theorem number_bwd {sub : Sub} {m : Option Char} {e o : Bool} (hm : Mode m e o) {c : Char} {lo hi n : Nat} {s s' : CStr}
    {t t' : Tm} {k k' : Bool} (hok : ModOk m c) (hn : Number lo hi s n s') (ha : Assign c lo hi n t k t' k') :
    convSpec sub e o c ⟨s, t, k⟩ = some ⟨s', t', k'⟩ := by
  have hx : hi ≠ 0 := by cases ha <;> decide
  have h := (convNum_iff hx _ _ _).2 hn
  have hr : lo ≤ n ∧ n ≤ hi := by obtain ⟨_, _, _, l1, l2, _⟩ := hn; exact ⟨l1, l2⟩
  clear hn
  cases ha with
  | mday _ _ _ _ hc => rcases hc with rfl | rfl <;> cases hm <;> first | (exact absurd hok (by decide)) | simp [convSpec, h]
  | hour24 _ _ _ _ hc => rcases hc with rfl | rfl <;> cases hm <;> first | (exact absurd hok (by decide)) | simp [convSpec, h]
  | hour12 _ _ _ _ hc =>
    have h12 : (if n = 12 then (0 : Int) else n) = ((n % 12 : Nat) : Int) := by
      by_cases h : n = 12
      · subst h; rfl
      · rw [if_neg h, Nat.mod_eq_of_lt (by omega)]
    rw [← h12]
    rcases hc with rfl | rfl <;> cases hm <;> first | (exact absurd hok (by decide)) | simp [convSpec, h]
  | yday => cases hm <;> first | (exact absurd hok (by decide)) | simp [convSpec, h]
  | min => cases hm <;> first | (exact absurd hok (by decide)) | simp [convSpec, h]
  | mon => cases hm <;> first | (exact absurd hok (by decide)) | simp [convSpec, h]
  | sec => cases hm <;> first | (exact absurd hok (by decide)) | simp [convSpec, h]
  | week _ _ _ _ hc => rcases hc with rfl | rfl <;> cases hm <;> first | (exact absurd hok (by decide)) | simp [convSpec, h]
  | wday => cases hm <;> first | (exact absurd hok (by decide)) | simp [convSpec, h]
  | year => cases hm <;> first | (exact absurd hok (by decide)) | simp [convSpec, h]
  | century => cases hm <;> first | (exact absurd hok (by decide)) | simp [convSpec, h]
  | centuryAfter => cases hm <;> first | (exact absurd hok (by decide)) | simp [convSpec, h]
  | old _ _ h69 =>
    have h1 : ¬ n ≤ 68 := by omega
    cases hm <;> first | (exact absurd hok (by decide)) | simp [convSpec, h, h1]
  | new _ _ h68 =>
    have h2 : (n : Int) + 100 = n + 2000 - 1900 := by omega
    rw [h2]
    cases hm <;> first | (exact absurd hok (by decide)) | simp [convSpec, h, h68]
  | yearAfter => cases hm <;> first | (exact absurd hok (by decide)) | simp [convSpec, h]

theorem item_bwd {sub : Sub} {m : Option Char} {e o : Bool} (hm : Mode m e o) {c : Char} {s s' : CStr}
    {t t' : Tm} {k k' : Bool} (hi : Item m c s t k s' t' k') :
    convSpec sub e o c ⟨s, t, k⟩ = some ⟨s', t', k'⟩ := by
  cases hi with
  | percent => simp [convSpec]
  | number _ _ lo hi n _ _ _ _ _ _ hok hn ha => exact number_bwd hm hok hn ha
  | weekday _ i _ _ _ _ hc hn =>
    cases hm
    obtain ⟨len, h1, rfl⟩ := (findName_iff distinct_days _ _ _).2 hn
    rw [← abdayNames_eq, ← dayNames_eq] at h1
    rcases hc with rfl | rfl <;> simp [convSpec, h1]
  | month _ i _ _ _ _ hc hn =>
    cases hm
    obtain ⟨len, h1, rfl⟩ := (findName_iff distinct_months _ _ _).2 hn
    rw [← abmonNames_eq, ← monNames_eq] at h1
    rcases hc with rfl | rfl | rfl <;> simp [convSpec, h1]
  | am _ _ _ hs hh =>
    cases hm
    have h1 := (strcasecmpEq_iff _ _).2 hs
    have h2 : s.drop 2 = [] := List.drop_eq_nil_of_le (by have h := sameText_length hs; change s.length = 2 at h; omega)
    have h3 : ¬ t.hour > 11 := by omega
    unfold convSpec
    dsimp only
    simp only [h1, h2, h3]
    rfl
  | pm _ _ _ hs hh =>
    cases hm
    have h1 := (strcasecmpEq_iff _ _).2 hs
    have h0 : strcasecmpEq (cs "AM") s = false := by
      cases h : strcasecmpEq (cs "AM") s with
      | false => rfl
      | true =>
        rw [strcasecmpEq_iff] at h
        have : (cs "AM").map toLower = (cs "PM").map toLower := h.symm.trans hs
        exact absurd this (by decide +kernel)
    have h2 : s.drop 2 = [] := List.drop_eq_nil_of_le (by have h := sameText_length hs; change s.length = 2 at h; omega)
    have h3 : ¬ t.hour > 11 := by omega
    unfold convSpec
    dsimp only
    simp only [h0, h1, h2, h3]
    rfl
  | white _ _ _ _ _ hc hs =>
    cases hm
    have := (skipWhite_iff _ _).2 hs
    rcases hc with rfl | rfl <;> simp [convSpec, this]

theorem convSpec_bwd {sub : Sub} {m : Option Char} {e o : Bool} (hm : Mode m e o) {c : Char} {s s' : PState}
    (h : ConvRel sub m c s s') : convSpec sub e o c s = some s' := by
  rcases h with h | ⟨g, hg, hok, hs, hk⟩
  · exact item_bwd hm h
  · obtain ⟨s', t', k'⟩ := s'
    dsimp only at hs hk
    subst hk
    cases hg <;> cases hm <;> first | (exact absurd hok (by decide)) | simp only [convSpec, hs] <;> rfl

theorem convSpec_iff {sub : Sub} {m : Option Char} {e o : Bool} (hm : Mode m e o) {c : Char} {s s' : PState} :
    convSpec sub e o c s = some s' ↔ ConvRel sub m c s s' := ⟨convSpec_fwd hm, convSpec_bwd hm⟩

/-! ### formats -/

theorem loop_directive {sub : Sub} {fmt fmt' : CStr} {m : Option Char} {c : Char} (hd : Directive fmt m c fmt') :
    ∃ e o, Mode m e o ∧ ∀ s, strptimeLoop sub fmt s = (convSpec sub e o c s).bind (strptimeLoop sub fmt') := by
  have hsp : isSpace '%' = false := by decide
  cases hd with
  | plain c _ h1 h2 => exact ⟨_, _, .plain, loop_conv h1 h2 _⟩
  | modified m c f hm h1 h2 =>
    rcases hm with rfl | rfl
    · refine ⟨_, _, .E, fun s => ?_⟩
      simp only [strptimeLoop, hsp, Bool.false_eq_true, if_false, ne_eq, not_true_eq_false]
      rw [if_neg (by simp [h1, h2])]
    · refine ⟨_, _, .O, fun s => ?_⟩
      simp only [strptimeLoop, hsp, Bool.false_eq_true, if_false, ne_eq, not_true_eq_false]
      rw [if_neg (by simp [h1, h2])]

theorem directive_or {sub : Sub} (fmt : CStr) :
    (∃ m c fmt', Directive ('%' :: fmt) m c fmt') ∨ ∀ s, strptimeLoop sub ('%' :: fmt) s = none := by
  have hsp : isSpace '%' = false := by decide
  cases fmt with
  | nil =>
    right; intro s
    simp only [strptimeLoop, hsp, Bool.false_eq_true, if_false, ne_eq, not_true_eq_false]
  | cons a fmt =>
    by_cases ha : a = 'E' ∨ a = 'O'
    · cases fmt with
      | nil =>
        right; intro s
        rcases ha with rfl | rfl <;>
        simp only [strptimeLoop, hsp, Bool.false_eq_true, if_false, ne_eq, not_true_eq_false]
      | cons c fmt =>
        by_cases hc : c = 'E' ∨ c = 'O'
        · right; intro s
          rcases ha with rfl | rfl <;>
          simp only [strptimeLoop, hsp, Bool.false_eq_true, if_false, ne_eq, not_true_eq_false, hc, if_true]
        · exact Or.inl ⟨_, _, _, .modified a c fmt ha (fun h => hc (Or.inl h)) (fun h => hc (Or.inr h))⟩
    · exact Or.inl ⟨_, _, _, .plain a fmt (fun h => ha (Or.inl h)) (fun h => ha (Or.inr h))⟩

theorem directive_length {fmt fmt' : CStr} {m : Option Char} {c : Char} (h : Directive fmt m c fmt') :
    fmt'.length < fmt.length := by
  cases h <;> simp only [List.length_cons] <;> omega

/-- The nested call reads what the grammar says. -/
def SubReads (sub : Sub) : Prop :=
  ∀ c g, Group c g → ∀ s t s' t', sub s g t = some (s', t') → ∃ k, Reads g s t false s' t' k

theorem loop_reads {sub : Sub} (hsub : SubReads sub) : ∀ (n : Nat) (fmt : CStr), fmt.length ≤ n →
    ∀ (s s' : PState), strptimeLoop sub fmt s = some s' →
    Reads fmt s.bp s.tm s.split s'.bp s'.tm s'.split := by
  intro n
  induction n with
  | zero =>
    intro fmt hl s s' h
    have : fmt = [] := List.length_eq_zero_iff.1 (by omega)
    subst this
    cases h; exact .done _ _ _
  | succ n ih =>
    intro fmt hl s s' h
    cases fmt with
    | nil => cases h; exact .done _ _ _
    | cons a fmt =>
      have hl' : fmt.length ≤ n := by simpa using hl
      by_cases ha : a = '%'
      · subst ha
        rcases directive_or (sub := sub) fmt with ⟨m, c, fmt', hd⟩ | hn
        · obtain ⟨e, o, hm, hloop⟩ := loop_directive (sub := sub) hd
          have hlt := directive_length hd
          rw [hloop] at h
          cases hc : convSpec sub e o c s with
          | none => rw [hc] at h; cases h
          | some s1 =>
            rw [hc] at h
            have hr := ih fmt' (by simp at hlt; omega) _ _ h
            rcases convSpec_fwd hm hc with h1 | ⟨g, hg, hok, hs, hk⟩
            · exact .item _ _ _ _ _ _ _ _ _ _ _ _ _ hd h1 hr
            · obtain ⟨k1, h1⟩ := hsub c g hg _ _ _ _ hs
              rw [hk] at hr
              exact .group _ _ _ _ _ _ _ _ _ _ _ _ _ _ hd hok hg h1 hr
        · rw [hn] at h; cases h
      · rw [loop_char ha] at h
        split at h
        · rename_i hsp
          exact .white _ _ _ _ _ _ _ _ _ hsp ((skipWhite_iff _ _).1 rfl) (ih fmt hl' _ _ h)
        · rename_i hsp
          split at h
          · rename_i d bp hbp
            split at h
            · rename_i hd
              subst hd
              rw [hbp]
              exact .char _ _ _ _ _ _ _ _ (by simpa using hsp) ha (ih fmt hl' _ _ h)
            · cases h
          · cases h

theorem strptimeWith_reads {sub : Sub} (hsub : SubReads sub) {fmt s s' : CStr} {t t' : Tm}
    (h : strptimeWith sub s fmt t = some (s', t')) : ∃ k, Reads fmt s t false s' t' k := by
  unfold strptimeWith at h
  obtain ⟨st, h1, h2⟩ := map_some_inv h
  cases h2
  exact ⟨_, loop_reads hsub _ fmt (Nat.le_refl _) _ _ h1⟩

theorem subReads_with {sub : Sub} (hsub : SubReads sub) : SubReads (strptimeWith sub) :=
  fun _ _ _ _ _ _ _ h => strptimeWith_reads hsub h

theorem subReads_none : SubReads (fun _ _ _ => none) := fun _ _ _ _ _ _ _ h => by cases h

/-! ### the other direction: the recursion is deep enough -/

/-- `arg_strptime` with at most `n` nested calls. -/
def subN : Nat → Sub
  | 0 => fun _ _ _ => none
  | n + 1 => strptimeWith (subN n)

/-- How deep a conversion nests. -/
def level (c : Char) : Nat := if c = 'c' then 2 else if c ∈ ['D', 'R', 'r', 'T', 'X', 'x'] then 1 else 0

/-- The conversions of a format nest at most `n` deep. -/
def LevelLe (n : Nat) (fmt : CStr) : Prop :=
  ∀ pre m c rest, ∀ f, fmt = pre ++ f → Directive f m c rest → level c ≤ n

theorem levelLe_two (fmt : CStr) : LevelLe 2 fmt := by
  intro _ _ c _ _ _ _
  unfold level
  split
  · omega
  · split <;> omega

theorem LevelLe.tail {n : Nat} {a : Char} {fmt : CStr} (h : LevelLe n (a :: fmt)) : LevelLe n fmt :=
  fun pre m c rest f hf hd => h (a :: pre) m c rest f (by rw [hf, List.cons_append]) hd

theorem LevelLe.suffix {n : Nat} (pre : CStr) {fmt : CStr} (h : LevelLe n (pre ++ fmt)) : LevelLe n fmt :=
  fun pre' m c rest f hf hd => h (pre ++ pre') m c rest f (by rw [hf, List.append_assoc]) hd

theorem directive_suffix {fmt fmt' : CStr} {m : Option Char} {c : Char} (h : Directive fmt m c fmt') :
    ∃ pre, fmt = pre ++ fmt' := by
  cases h with
  | plain c f _ _ => exact ⟨['%', c], rfl⟩
  | modified m c f _ _ _ => exact ⟨['%', m, c], rfl⟩

/-- The conversion at the beginning of a format. -/
def headConv : CStr → Option Char
  | '%' :: a :: b :: _ => if a = 'E' ∨ a = 'O' then some b else some a
  | '%' :: a :: _ => some a
  | _ => none

theorem headConv_of {f rest : CStr} {m : Option Char} {c : Char} (h : Directive f m c rest) : headConv f = some c := by
  cases h with
  | plain c _ h1 h2 =>
    cases rest with
    | nil => rfl
    | cons b f => simp [headConv, h1, h2]
  | modified m c f h _ _ => simp [headConv, h]

theorem levelLe_of {n : Nat} {fmt : CStr}
    (h : ∀ f ∈ fmt.tails, ∀ c ∈ headConv f, level c ≤ n) : LevelLe n fmt := by
  intro pre m c rest f hf hd
  exact h f (by rw [List.mem_tails]; exact ⟨pre, hf.symm⟩) c (headConv_of hd)

theorem group_level {c : Char} {g : CStr} (h : Group c g) : ∃ l, level c = l + 1 ∧ LevelLe l g := by
  cases h
  · exact ⟨1, rfl, levelLe_of (by decide +kernel)⟩
  all_goals exact ⟨0, rfl, levelLe_of (by decide +kernel)⟩

theorem LevelLe.mono {n n' : Nat} {fmt : CStr} (h : LevelLe n fmt) (hn : n ≤ n') : LevelLe n' fmt :=
  fun pre m c rest f hf hd => Nat.le_trans (h pre m c rest f hf hd) hn

theorem reads_loop {fmt s s' : CStr} {t t' : Tm} {k k' : Bool} (h : Reads fmt s t k s' t' k') :
    ∀ n, LevelLe n fmt → strptimeLoop (subN n) fmt ⟨s, t, k⟩ = some ⟨s', t', k'⟩ := by
  induction h with
  | done => intro n _; rfl
  | white a fmt s s1 s' t t' k k' ha hs _ ih =>
    intro n hl
    have hne : a ≠ '%' := by rintro rfl; exact absurd ha (by decide)
    rw [loop_char hne, if_pos ha]
    have := (skipWhite_iff _ _).2 hs
    dsimp only
    rw [this]
    exact ih n hl.tail
  | char a fmt s s' t t' k k' ha hne _ ih =>
    intro n hl
    rw [loop_char hne, if_neg (by simp [ha])]
    dsimp only
    rw [if_pos rfl]
    exact ih n hl.tail
  | item fmt fmt' m c s s1 s' t t1 t' k k1 k' hd hi _ ih =>
    intro n hl
    obtain ⟨e, o, hm, hloop⟩ := loop_directive (sub := subN n) hd
    rw [hloop, item_bwd hm hi]
    obtain ⟨pre, hp⟩ := directive_suffix hd
    exact ih n (LevelLe.suffix pre (hp ▸ hl))
  | group fmt fmt' g m c s s1 s' t t1 t' k k1 k' hd hok hg _ _ ih1 ih2 =>
    intro n hl
    obtain ⟨e, o, hm, hloop⟩ := loop_directive (sub := subN n) hd
    obtain ⟨l, hlev, hlg⟩ := group_level hg
    have hle := hl [] m c fmt' fmt rfl hd
    obtain ⟨n', rfl⟩ : ∃ n', n = n' + 1 := ⟨n - 1, by omega⟩
    have hsub : subN (n' + 1) s g t = some (s1, t1) := by
      have := ih1 n' (hlg.mono (by omega))
      change strptimeWith (subN n') s g t = _
      unfold strptimeWith
      rw [this]; rfl
    rw [hloop, convSpec_bwd hm (s := ⟨s, t, k⟩) (s' := ⟨s1, t1, k⟩) (Or.inr ⟨g, hg, hok, hsub, rfl⟩)]
    obtain ⟨pre, hp⟩ := directive_suffix hd
    exact ih2 _ (LevelLe.suffix pre (hp ▸ hl))

/-- `arg_strptime` reads exactly what the grammar of date formats says. -/
theorem strptime_iff (fmt s s' : CStr) (t t' : Tm) :
    strptime s fmt t = some (s', t') ↔ ∃ k, Reads fmt s t false s' t' k := by
  constructor
  · exact strptimeWith_reads (subReads_with (subReads_with subReads_none))
  · rintro ⟨k, h⟩
    have := reads_loop h 2 (levelLe_two fmt)
    change strptimeWith (subN 2) s fmt t = _
    unfold strptimeWith
    rw [this]; rfl

end Argtable
