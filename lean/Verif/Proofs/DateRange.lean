import Verif.Proofs.DateConv
import Verif.Spec.Scan
/-!
# Dates: ranges, round trip, entries (C28-C31)
-/

namespace Argtable

open Spec

theorem group_nested {c : Char} {g : CStr} (h : Group c g) : nestedFmt c = some g := by
  cases h <;> rfl

theorem writesFmt_directive {fmt fmt' : CStr} {m : Option Char} {c : Char} (h : Directive fmt m c fmt') :
    writesFmt fmt = writes c ++ writesFmt fmt' := by
  cases h with
  | plain c _ h1 h2 => exact writesFmt_conv h1 h2 _
  | modified m c _ h _ _ => rcases h with rfl | rfl <;> rfl

theorem reads_unique {fmt s s' s'' : CStr} {t t' t'' : Tm} {k' k'' : Bool} (h : Reads fmt s t false s' t' k')
    (h2 : Reads fmt s t false s'' t'' k'') : s' = s'' ∧ t' = t'' := by
  have a := (strptime_iff fmt s s' t t').2 ⟨_, h⟩
  have b := (strptime_iff fmt s s'' t t'').2 ⟨_, h2⟩
  rw [a] at b
  cases b
  exact ⟨rfl, rfl⟩

/-! ### ranges -/

theorem tdiv_facts (y : Int) : y.tdiv 100 * 100 + y.tmod 100 = y ∧ -99 ≤ y.tmod 100 ∧ y.tmod 100 ≤ 99 ∧
    (0 ≤ y → 0 ≤ y.tmod 100) ∧ (y ≤ 0 → y.tmod 100 ≤ 0) := by
  rcases Int.le_total 0 y with h | h
  · rw [Int.tdiv_eq_ediv_of_nonneg h, Int.tmod_eq_emod_of_nonneg h]
    omega
  · obtain ⟨z, rfl⟩ : ∃ z, y = -z := ⟨-y, by omega⟩
    rw [Int.neg_tdiv, Int.neg_tmod, Int.tdiv_eq_ediv_of_nonneg (by omega), Int.tmod_eq_emod_of_nonneg (by omega)]
    omega

/-- The year is the only member with a range that depends on the mark. -/
theorem assign_range {c : Char} {lo hi n : Nat} {t t' : Tm} {k k' : Bool} (h : Assign c lo hi n t k t' k')
    (h1 : lo ≤ n) (h2 : n ≤ hi) (hk : k = true → InRange .year t.year) :
    (k' = true → InRange .year t'.year) ∧
    (∀ f, f ∈ writes c → InRange f (t'.fld f)) ∧ ∀ f, f ∉ writes c → t'.fld f = t.fld f := by
  have fin : ∀ {f : Fld} {v : Int} {t t' : Tm} {k : Bool} {c : Char}, writes c = [f] → t'.fld f = v → InRange f v →
      (∀ g, g ≠ f → t'.fld g = t.fld g) → (k = true → InRange .year t.year) →
      (k = true → InRange .year t'.year) ∧ (∀ g, g ∈ writes c → InRange g (t'.fld g)) ∧
      ∀ g, g ∉ writes c → t'.fld g = t.fld g := by
    intro f v t t' k c hw hv hr ho hk
    rw [hw]
    refine ⟨fun hkt => ?_, fun g hg => ?_, fun g hg => ho g (by simpa using hg)⟩
    · by_cases hf : f = .year
      · subst hf; change InRange .year (t'.fld .year); rw [hv]; exact hr
      · have := ho .year (Ne.symm hf)
        change InRange .year (t'.fld .year); rw [this]; exact hk hkt
    · have : g = f := by simpa using hg
      subst this; rw [hv]; exact hr
  have one : ∀ {f : Fld} {v : Int} {t t' : Tm} {k : Bool} {c : Char}, writes c = [f] → t'.fld f = v → InRange f v →
      (∀ g, g ≠ f → t'.fld g = t.fld g) → f = .year →
      (k = true → InRange .year t'.year) ∧ (∀ g, g ∈ writes c → InRange g (t'.fld g)) ∧
      ∀ g, g ∉ writes c → t'.fld g = t.fld g := by
    intro f v t t' k c hw hv hr ho hy
    subst hy
    rw [hw]
    refine ⟨fun _ => ?_, fun g hg => ?_, fun g hg => ho g (by simpa using hg)⟩
    · change InRange .year (t'.fld .year); rw [hv]; exact hr
    · have : g = .year := by simpa using hg
      subst this; rw [hv]; exact hr
  have others : ∀ (f : Fld) (t t' : Tm), (∀ g, g ≠ f → t'.fld g = t.fld g) → ∀ g, g ≠ f → t'.fld g = t.fld g :=
    fun _ _ _ h => h
  cases h with
  | mday _ _ _ _ hc =>
    rcases hc with rfl | rfl <;>
    exact fin (f := .mday) (v := n) rfl rfl ⟨by omega, by omega⟩ (by intro g hg; cases g <;> first | rfl | exact absurd rfl hg) hk
  | hour24 _ _ _ _ hc =>
    rcases hc with rfl | rfl <;>
    exact fin (f := .hour) (v := n) rfl rfl ⟨by omega, by omega⟩ (by intro g hg; cases g <;> first | rfl | exact absurd rfl hg) hk
  | hour12 _ _ _ _ hc =>
    rcases hc with rfl | rfl <;>
    exact fin (f := .hour) (v := (n % 12 : Nat)) rfl rfl ⟨by omega, by omega⟩ (by intro g hg; cases g <;> first | rfl | exact absurd rfl hg) hk
  | yday => exact fin (f := .yday) (v := (n : Int) - 1) rfl rfl ⟨by omega, by omega⟩ (by intro g hg; cases g <;> first | rfl | exact absurd rfl hg) hk
  | min => exact fin (f := .min) (v := n) rfl rfl ⟨by omega, by omega⟩ (by intro g hg; cases g <;> first | rfl | exact absurd rfl hg) hk
  | mon => exact fin (f := .mon) (v := (n : Int) - 1) rfl rfl ⟨by omega, by omega⟩ (by intro g hg; cases g <;> first | rfl | exact absurd rfl hg) hk
  | sec => exact fin (f := .sec) (v := n) rfl rfl ⟨by omega, by omega⟩ (by intro g hg; cases g <;> first | rfl | exact absurd rfl hg) hk
  | week _ _ _ _ hc =>
    have : writes c = [] := by rcases hc with rfl | rfl <;> rfl
    rw [this]
    exact ⟨hk, fun f hf => (by cases hf), fun f _ => rfl⟩
  | wday => exact fin (f := .wday) (v := n) rfl rfl ⟨by omega, by omega⟩ (by intro g hg; cases g <;> first | rfl | exact absurd rfl hg) hk
  | year => exact one (f := .year) (v := (n : Int) - 1900) rfl rfl ⟨by omega, by omega⟩ (by intro g hg; cases g <;> first | rfl | exact absurd rfl hg) rfl
  | century => exact one (f := .year) (v := (n : Int) * 100) rfl rfl ⟨by omega, by omega⟩ (by intro g hg; cases g <;> first | rfl | exact absurd rfl hg) rfl
  | centuryAfter =>
    obtain ⟨y1, y2⟩ := hk rfl
    have hT := tdiv_facts t.year
    exact one (f := .year) (v := t.year.tmod 100 + n * 100) rfl rfl ⟨by omega, by omega⟩ (by intro g hg; cases g <;> first | rfl | exact absurd rfl hg) rfl
  | old => exact one (f := .year) (v := n) rfl rfl ⟨by omega, by omega⟩ (by intro g hg; cases g <;> first | rfl | exact absurd rfl hg) rfl
  | new => exact one (f := .year) (v := (n : Int) + 100) rfl rfl ⟨by omega, by omega⟩ (by intro g hg; cases g <;> first | rfl | exact absurd rfl hg) rfl
  | yearAfter =>
    obtain ⟨y1, y2⟩ := hk rfl
    have hT := tdiv_facts t.year
    exact one (f := .year) (v := t.year.tdiv 100 * 100 + n) rfl rfl ⟨by omega, by omega⟩ (by intro g hg; cases g <;> first | rfl | exact absurd rfl hg) rfl

theorem named_lt {names : List CStr} {s s' : CStr} {i : Nat} (h : Named names s i s') : i < names.length := by
  obtain ⟨name, w, h1, _⟩ := h
  exact (List.getElem?_eq_some_iff.1 h1).1

theorem item_range {m : Option Char} {c : Char} {s s' : CStr} {t t' : Tm} {k k' : Bool}
    (h : Item m c s t k s' t' k') (hk : k = true → InRange .year t.year) (hh : 0 ≤ t.hour) :
    (k' = true → InRange .year t'.year) ∧ 0 ≤ t'.hour ∧
    (∀ f, f ∈ writes c → InRange f (t'.fld f)) ∧ ∀ f, f ∉ writes c → t'.fld f = t.fld f := by
  cases h with
  | percent => exact ⟨hk, hh, fun f hf => (by cases hf), fun f _ => rfl⟩
  | number _ _ lo hi n _ _ _ _ _ _ hok hn ha =>
    obtain ⟨_, _, _, l1, l2, _⟩ := hn
    obtain ⟨a1, a2, a3⟩ := assign_range ha l1 l2 hk
    refine ⟨a1, ?_, a2, a3⟩
    by_cases hw : Fld.hour ∈ writes c
    · exact (a2 _ hw).1
    · have := a3 _ hw
      change 0 ≤ t'.fld .hour
      rw [this]; exact hh
  | weekday _ i _ _ _ _ hc hn =>
    have := named_lt hn
    have hl : i < 7 := this
    have hw : writes c = [.wday] := by rcases hc with rfl | rfl <;> rfl
    rw [hw]
    refine ⟨hk, hh, ?_, ?_⟩
    · intro f hf
      have : f = .wday := by simpa using hf
      subst this
      exact ⟨by change (0 : Int) ≤ i; omega, by change (i : Int) ≤ 6; omega⟩
    · intro f hf; cases f <;> first | rfl | exact absurd (by simp) hf
  | month _ i _ _ _ _ hc hn =>
    have := named_lt hn
    have hl : i < 12 := this
    have hw : writes c = [.mon] := by rcases hc with rfl | rfl | rfl <;> rfl
    rw [hw]
    refine ⟨hk, hh, ?_, ?_⟩
    · intro f hf
      have : f = .mon := by simpa using hf
      subst this
      exact ⟨by change (0 : Int) ≤ i; omega, by change (i : Int) ≤ 11; omega⟩
    · intro f hf; cases f <;> first | rfl | exact absurd (by simp) hf
  | am _ _ _ hs h11 =>
    have hw : writes 'p' = [.hour] := rfl
    rw [hw]
    refine ⟨hk, hh, ?_, fun f _ => rfl⟩
    intro f hf
    have : f = .hour := by simpa using hf
    subst this
    exact ⟨hh, by change t.hour ≤ 23; omega⟩
  | pm _ _ _ hs h11 =>
    have hw : writes 'p' = [.hour] := rfl
    rw [hw]
    refine ⟨hk, by dsimp only; omega, ?_, ?_⟩
    · intro f hf
      have : f = .hour := by simpa using hf
      subst this
      exact ⟨by change 0 ≤ t.hour + 12; omega, by change t.hour + 12 ≤ 23; omega⟩
    · intro f hf; cases f <;> first | rfl | exact absurd (by simp) hf
  | white _ _ _ _ _ hc _ =>
    have hw : writes c = [] := by rcases hc with rfl | rfl <;> rfl
    rw [hw]
    exact ⟨hk, hh, fun f hf => (by cases hf), fun f _ => rfl⟩

theorem reads_range {fmt s s' : CStr} {t t' : Tm} {k k' : Bool} (h : Reads fmt s t k s' t' k') :
    (k = true → InRange .year t.year) → 0 ≤ t.hour →
    (k' = true → InRange .year t'.year) ∧ 0 ≤ t'.hour ∧
    (∀ f, f ∈ writesFmt fmt → InRange f (t'.fld f)) ∧ (∀ f, f ∉ writesFmt fmt → t'.fld f = t.fld f) ∧
    ∀ f, InRange f (t.fld f) → InRange f (t'.fld f) := by
  induction h with
  | done => exact fun hk hh => ⟨hk, hh, fun f hf => (by cases hf), fun f _ => rfl, fun f h => h⟩
  | white a fmt s s1 s' t t' k k' ha hs _ ih =>
    have hne : a ≠ '%' := by rintro rfl; exact absurd ha (by decide)
    rw [writesFmt_char hne]
    exact ih
  | char a fmt s s' t t' k k' ha hne _ ih =>
    rw [writesFmt_char hne]
    exact ih
  | item fmt fmt' m c s s1 s' t t1 t' k k1 k' hd hi _ ih =>
    intro hk hh
    obtain ⟨a1, a2, a3, a4⟩ := item_range hi hk hh
    obtain ⟨b1, b2, b3, b4, b5⟩ := ih a1 a2
    rw [writesFmt_directive hd]
    refine ⟨b1, b2, fun f hf => ?_, fun f hf => ?_, fun f hf => ?_⟩
    · rcases List.mem_append.1 hf with hf | hf
      · exact b5 f (a3 f hf)
      · exact b3 f hf
    · rw [List.mem_append, not_or] at hf
      rw [b4 f hf.2, a4 f hf.1]
    · apply b5
      by_cases hw : f ∈ writes c
      · exact a3 f hw
      · rw [a4 f hw]; exact hf
  | group fmt fmt' g m c s s1 s' t t1 t' k k1 k' hd hok hg _ _ ih1 ih2 =>
    intro hk hh
    obtain ⟨a1, a2, a3, a4, a5⟩ := ih1 (fun h => by cases h) hh
    obtain ⟨b1, b2, b3, b4, b5⟩ := ih2 (fun h => a5 .year (hk h)) a2
    obtain ⟨_, hw⟩ := nested_facts (group_nested hg)
    rw [writesFmt_directive hd]
    refine ⟨b1, b2, fun f hf => ?_, fun f hf => ?_, fun f hf => b5 f (a5 f hf)⟩
    · rcases List.mem_append.1 hf with hf | hf
      · exact b5 f (a3 f ((hw f).2 hf))
      · exact b3 f hf
    · rw [List.mem_append, not_or] at hf
      rw [b4 f hf.2, a4 f fun h => hf.1 ((hw f).1 h)]

/-! ### showing and reading -/

theorem padded_number {lo hi k n : Nat} {w r : CStr} {v : Int} (h : Padded k w v) (hv : v = n)
    (hlo : lo ≤ n) (hhi : n ≤ hi) (hk : (Nat.toDigits 10 hi).length = k) : Number lo hi (w ++ r) n r := by
  obtain ⟨m, h1, h2, h3⟩ := h
  have : m = n := by omega
  subst this
  exact ⟨w, rfl, h2, hlo, hhi, by rw [hk, h3], Or.inl (by rw [hk, h3])⟩

/-- The date `t'` is `t` on the members in `W` and `t0` on the others. -/
def Mix (W : List Fld) (t t0 t' : Tm) : Prop := ∀ f, t'.fld f = if f ∈ W then t.fld f else t0.fld f

theorem mix_one {f : Fld} {c : Char} {t t0 t' : Tm} (hw : writes c = [f]) (h1 : t'.fld f = t.fld f)
    (h2 : ∀ g, g ≠ f → t'.fld g = t0.fld g) : Mix (writes c) t t0 t' := by
  intro g
  rw [hw]
  by_cases hg : g = f
  · subst hg; rw [if_pos (by simp), h1]
  · rw [if_neg (by simpa using hg), h2 g hg]

theorem shown_item {m : Option Char} {c : Char} {t : Tm} {w : CStr} (hok : ModOk m c) (h : Shown c t w) (r : CStr)
    (t0 : Tm) (k : Bool) (hk : k = true → t0.year = t.year) :
    ∃ t' k', Item m c (w ++ r) t0 k r t' k' ∧ Mix (writes c) t t0 t' ∧ (k' = true → t'.year = t.year) := by
  cases h with
  | percent =>
    refine ⟨t0, k, .percent m _ _ _, ?_, hk⟩
    intro f; rw [if_neg]; intro h; cases h
  | mday _ _ _ hc hr hp =>
    obtain ⟨n, hn, _⟩ := id hp
    obtain ⟨r1, r2⟩ := hr
    refine ⟨_, _, .number m c _ _ n _ _ _ _ _ _ hok (padded_number hp hn (by omega) (by omega) (by decide +kernel))
      (.mday c n t0 k hc), ?_, hk⟩
    exact mix_one (f := .mday) (by rcases hc with rfl | rfl <;> rfl) hn.symm (by intro g hg; cases g <;> first | rfl | exact absurd rfl hg)
  | hour _ _ _ hc hr hp =>
    obtain ⟨n, hn, _⟩ := id hp
    obtain ⟨r1, r2⟩ := hr
    refine ⟨_, _, .number m c _ _ n _ _ _ _ _ _ hok (padded_number hp hn (by omega) (by omega) (by decide +kernel))
      (.hour24 c n t0 k hc), ?_, hk⟩
    exact mix_one (f := .hour) (by rcases hc with rfl | rfl <;> rfl) hn.symm (by intro g hg; cases g <;> first | rfl | exact absurd rfl hg)
  | min _ _ hr hp =>
    obtain ⟨n, hn, _⟩ := id hp
    obtain ⟨r1, r2⟩ := hr
    refine ⟨_, _, .number m _ _ _ n _ _ _ _ _ _ hok (padded_number hp hn (by omega) (by omega) (by decide +kernel))
      (.min n t0 k), ?_, hk⟩
    exact mix_one (f := .min) rfl hn.symm (by intro g hg; cases g <;> first | rfl | exact absurd rfl hg)
  | sec _ _ hr hp =>
    obtain ⟨n, hn, _⟩ := id hp
    obtain ⟨r1, r2⟩ := hr
    refine ⟨_, _, .number m _ _ _ n _ _ _ _ _ _ hok (padded_number hp hn (by omega) (by omega) (by decide +kernel))
      (.sec n t0 k), ?_, hk⟩
    exact mix_one (f := .sec) rfl hn.symm (by intro g hg; cases g <;> first | rfl | exact absurd rfl hg)
  | mon _ _ hr hp =>
    obtain ⟨n, hn, _⟩ := id hp
    obtain ⟨r1, r2⟩ := hr
    refine ⟨_, _, .number m _ _ _ n _ _ _ _ _ _ hok (padded_number hp hn (by omega) (by omega) (by decide +kernel))
      (.mon n t0 k), ?_, hk⟩
    exact mix_one (f := .mon) rfl (by change (n : Int) - 1 = t.mon; omega) (by intro g hg; cases g <;> first | rfl | exact absurd rfl hg)
  | yday _ _ hr hp =>
    obtain ⟨n, hn, _⟩ := id hp
    obtain ⟨r1, r2⟩ := hr
    refine ⟨_, _, .number m _ _ _ n _ _ _ _ _ _ hok (padded_number hp hn (by omega) (by omega) (by decide +kernel))
      (.yday n t0 k), ?_, hk⟩
    exact mix_one (f := .yday) rfl (by change (n : Int) - 1 = t.yday; omega) (by intro g hg; cases g <;> first | rfl | exact absurd rfl hg)
  | wday _ _ hr hp =>
    obtain ⟨n, hn, _⟩ := id hp
    obtain ⟨r1, r2⟩ := hr
    refine ⟨_, _, .number m _ _ _ n _ _ _ _ _ _ hok (padded_number hp hn (by omega) (by omega) (by decide +kernel))
      (.wday n t0 k), ?_, hk⟩
    exact mix_one (f := .wday) rfl hn.symm (by intro g hg; cases g <;> first | rfl | exact absurd rfl hg)
  | year _ _ r1 r2 hp =>
    obtain ⟨n, hn, _⟩ := id hp
    refine ⟨_, _, .number m _ _ _ n _ _ _ _ _ _ hok (padded_number hp hn (by omega) (by omega) (by decide +kernel))
      (.year n t0 k), ?_, fun _ => by change (n : Int) - 1900 = t.year; omega⟩
    exact mix_one (f := .year) rfl (by change (n : Int) - 1900 = t.year; omega) (by intro g hg; cases g <;> first | rfl | exact absurd rfl hg)
  | yy _ _ r1 r2 hp =>
    obtain ⟨n, hn, _⟩ := id hp
    have hnum : Number 0 99 (w ++ r) n r := padded_number hp hn (by omega) (by omega) (by decide +kernel)
    cases k with
    | false =>
      by_cases h69 : 69 ≤ n
      · refine ⟨_, _, .number m _ _ _ n _ _ _ _ _ _ hok hnum (.old n t0 h69), ?_,
          fun _ => by change (n : Int) = t.year; omega⟩
        exact mix_one (f := .year) rfl (by change (n : Int) = t.year; omega) (by intro g hg; cases g <;> first | rfl | exact absurd rfl hg)
      · refine ⟨_, _, .number m _ _ _ n _ _ _ _ _ _ hok hnum (.new n t0 (by omega)), ?_,
          fun _ => by change (n : Int) + 100 = t.year; omega⟩
        exact mix_one (f := .year) rfl (by change (n : Int) + 100 = t.year; omega) (by intro g hg; cases g <;> first | rfl | exact absurd rfl hg)
    | true =>
      have he := hk rfl
      have hT := tdiv_facts t.year
      refine ⟨_, _, .number m _ _ _ n _ _ _ _ _ _ hok hnum (.yearAfter n t0), ?_,
        fun _ => by change t0.year.tdiv 100 * 100 + n = t.year; rw [he]; omega⟩
      exact mix_one (f := .year) rfl (by change t0.year.tdiv 100 * 100 + n = t.year; rw [he]; omega) (by intro g hg; cases g <;> first | rfl | exact absurd rfl hg)
  | day _ i _ hi hw =>
    have hm : m = none := by
      rcases hok with h | h | h
      · exact h
      · exact absurd h.2 (by decide)
      · exact absurd h.2 (by decide)
    subst hm
    refine ⟨_, _, .weekday 'A' i _ _ t0 k (Or.inl rfl) ⟨w, w, hw, rfl, Or.inl rfl⟩, ?_, hk⟩
    exact mix_one (f := .wday) rfl hi.symm (by intro g hg; cases g <;> first | rfl | exact absurd rfl hg)
  | month _ i _ hi hw =>
    have hm : m = none := by
      rcases hok with h | h | h
      · exact h
      · exact absurd h.2 (by decide)
      · exact absurd h.2 (by decide)
    subst hm
    refine ⟨_, _, .month 'B' i _ _ t0 k (Or.inl rfl) ⟨w, w, hw, rfl, Or.inl rfl⟩, ?_, hk⟩
    exact mix_one (f := .mon) rfl hi.symm (by intro g hg; cases g <;> first | rfl | exact absurd rfl hg)

theorem Mix.year {W : List Fld} {t t0 t' : Tm} (h : Mix W t t0 t') (hy : t0.year = t.year) : t'.year = t.year := by
  have := h .year
  change t'.fld .year = _
  rw [this]
  split
  · rfl
  · exact hy

theorem shows_reads {fmt s : CStr} {t : Tm} (h : Renders fmt t s) : ∀ (r : CStr) (t0 : Tm) (k : Bool),
    (k = true → t0.year = t.year) →
    ∃ t' k', Reads fmt (s ++ r) t0 k r t' k' ∧ Mix (writesFmt fmt) t t0 t' ∧ (k' = true → t'.year = t.year) := by
  induction h with
  | done t =>
    intro r t0 k hk
    refine ⟨t0, k, .done _ _ _, ?_, hk⟩
    intro f; rw [if_neg]; intro h; cases h
  | white a fmt w s t ha hw hne hst _ ih =>
    intro r t0 k hk
    obtain ⟨t', k', h1, h2, h3⟩ := ih r t0 k hk
    have hn : a ≠ '%' := by rintro rfl; exact absurd ha (by decide)
    refine ⟨t', k', .white a fmt _ (s ++ r) _ _ _ _ _ ha ⟨w, by simp, hw, ?_⟩ h1, by rw [writesFmt_char hn]; exact h2, h3⟩
    intro c u hcu
    cases s with
    | nil => exact absurd rfl hne
    | cons d s => cases hcu; exact hst c s rfl
  | char a fmt s t ha hn _ ih =>
    intro r t0 k hk
    obtain ⟨t', k', h1, h2, h3⟩ := ih r t0 k hk
    exact ⟨t', k', .char a fmt _ _ _ _ _ _ ha hn h1, by rw [writesFmt_char hn]; exact h2, h3⟩
  | item fmt fmt' m c w s t hd hok hs _ ih =>
    intro r t0 k hk
    obtain ⟨t1, k1, h1, h2, h3⟩ := shown_item hok hs (s ++ r) t0 k hk
    obtain ⟨t', k', g1, g2, g3⟩ := ih r t1 k1 h3
    rw [List.append_assoc]
    refine ⟨t', k', .item _ _ _ _ _ _ _ _ _ _ _ _ _ hd h1 g1, ?_, g3⟩
    intro f
    rw [g2 f, h2 f, writesFmt_directive hd]
    by_cases h1 : f ∈ writesFmt fmt' <;> by_cases h2 : f ∈ writes c <;> simp [h1, h2]
  | group fmt fmt' g m c w s t hd hok hg _ _ ih1 ih2 =>
    intro r t0 k hk
    obtain ⟨t1, k1, h1, h2, h3⟩ := ih1 (s ++ r) t0 false (fun h => by cases h)
    obtain ⟨t', k', g1, g2, g3⟩ := ih2 r t1 k (fun h => h2.year (hk h))
    rw [List.append_assoc]
    refine ⟨t', k', .group _ _ _ _ _ _ _ _ _ _ _ _ _ _ hd hok hg h1 g1, ?_, g3⟩
    obtain ⟨_, hw⟩ := nested_facts (group_nested hg)
    intro f
    rw [g2 f, h2 f, writesFmt_directive hd]
    have := hw f
    by_cases h1 : f ∈ writesFmt fmt' <;> by_cases h2 : f ∈ writes c <;> simp [h1, h2, this]

/-! ### entries -/

variable {δ : Type} {lc : Libc δ}

theorem give_date {fmt : CStr} {h : Hdr (Obj δ)} {o : DateObj} (hd : DateEntry lc fmt h o) :
    (o.tmval.length : Int) = h.maxcount ∧ (o.count : Int) ≤ h.maxcount ∧ h.parent = .date o ∧
    ∀ q a, give { h with parent := .date q } a = (do
      let (o, e) ← dateScan fmt h.maxcount q a
      .ok (.date o, e)) := by
  cases hd with
  | mk so lo fm dt mn mx gl h ov o hh hc hlen =>
    obtain ⟨hm, -, -, -, -, -, -, -, -, -, hs⟩ := argDaten_inv hh
    refine ⟨hlen, hc, rfl, fun q a => ?_⟩
    unfold give
    dsimp only
    rw [hs, hm]

theorem dateEntry_set {fmt : CStr} {h : Hdr (Obj δ)} {o q : DateObj} (hd : DateEntry lc fmt h o)
    (h1 : (q.count : Int) ≤ h.maxcount) (h2 : (q.tmval.length : Int) = h.maxcount) :
    DateEntry lc fmt { h with parent := .date q } q := by
  cases hd with
  | mk so lo fm dt mn mx gl h ov o hh hc hlen =>
    exact .mk so lo fm dt mn mx gl h ov q hh h1 h2

theorem dateEntry_made {so lo fm dt : Option CStr} {mn mx : Int} {gl : Option CStr} {h : Hdr (Obj δ)}
    (hh : argDaten lc so lo fm dt mn mx gl = .ok h) :
    ∃ n, DateEntry lc (fm.getD (cs "%x")) h ⟨0, List.replicate n {}⟩ := by
  have h2 := hh
  unfold argDaten at h2
  cases hn : arrayCells (foolproof mn mx) with
  | error e => simp only [bind, Except.bind, hn] at h2; cases h2
  | ok n =>
    have hc := arrayCells_inv hn
    simp only [bind, Except.bind, hn] at h2
    have := DateEntry.mk (lc := lc) so lo fm dt mn mx gl h false ⟨0, List.replicate n {}⟩ hh
      (by rw [(argDaten_inv hh).1, ← hc]; simp) (by rw [(argDaten_inv hh).1, ← hc]; simp)
    cases h2
    exact ⟨n, this⟩

end Argtable
