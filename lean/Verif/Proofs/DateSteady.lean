import Verif.Spec.Steady
import Verif.Spec.Date
/-!
# `arg_strptime` overwrites what it found (C12)
-/

namespace Argtable

open Spec

theorem Tm.ext_fld {a b : Tm} (h : ∀ f, a.fld f = b.fld f) : a = b := by
  obtain ⟨_, _, _, _, _, _, _, _⟩ := a
  obtain ⟨_, _, _, _, _, _, _, _⟩ := b
  have h1 := h .sec
  have h2 := h .min
  have h3 := h .hour
  have h4 := h .mday
  have h5 := h .mon
  have h6 := h .year
  have h7 := h .wday
  have h8 := h .yday
  simp only [Tm.fld] at h1 h2 h3 h4 h5 h6 h7 h8
  subst h1 h2 h3 h4 h5 h6 h7 h8
  rfl

/-- `a` and `b` agree on all members outside `D`. -/
def AgreeOff (D : Fld → Prop) (a b : Tm) : Prop := ∀ f, ¬ D f → a.fld f = b.fld f

/-- `D` without the members in `W`. -/
def off (D : Fld → Prop) (W : List Fld) : Fld → Prop := fun f => D f ∧ f ∉ W

def RelO {α : Type} (P : α → α → Prop) : Option α → Option α → Prop
  | some a, some b => P a b
  | none, none => True
  | _, _ => False

/-- The formats used by the "complex" conversions. -/
def nestedFmt (c : Char) : Option CStr :=
  if c = 'c' then some (cs "%x %X")
  else if c = 'D' ∨ c = 'x' then some (cs "%m/%d/%y")
  else if c = 'R' then some (cs "%H:%M")
  else if c = 'r' then some (cs "%I:%M:%S %p")
  else if c = 'T' ∨ c = 'X' then some (cs "%H:%M:%S")
  else none

abbrev Sub := CStr → CStr → Tm → Option (CStr × Tm)

/-- `sub` overwrites the members that the nested formats set, with values that do not depend on the old
content. -/
def SubAgree (sub : Sub) : Prop :=
  ∀ c fmt, nestedFmt c = some fmt → ∀ bp tm tm' D, AgreeOff D tm tm' →
    RelO (fun r r' => r.1 = r'.1 ∧ AgreeOff (off D (writes c)) r.2 r'.2) (sub bp fmt tm) (sub bp fmt tm')

/-- `sub` changes no other members. -/
def SubKeep (sub : Sub) : Prop :=
  ∀ c fmt, nestedFmt c = some fmt → ∀ bp tm r, sub bp fmt tm = some r →
    AgreeOff (fun f => f ∈ writes c) tm r.2

/-- The relation between two runs. -/
structure Sync (D : Fld → Prop) (s s' : PState) : Prop where
  bp : s.bp = s'.bp
  split : s.split = s'.split
  tm : AgreeOff D s.tm s'.tm
  year : s.split = true → ¬ D .year

theorem Sync.weaken {D : Fld → Prop} {s s' : PState} (h : Sync D s s') {D' : Fld → Prop}
    (hd : ∀ f, D f → D' f) (hy : s.split = true → ¬ D' .year) : Sync D' s s' :=
  ⟨h.bp, h.split, fun f hf => h.tm f fun h => hf (hd f h), hy⟩

/-- A numeric conversion. -/
theorem sync_num {D D' : Fld → Prop} {s s' : PState} (h : Sync D s s') {cond : Prop} [Decidable cond]
    {lo hi : Nat} {F F' : Nat × CStr → PState}
    (hF : ∀ n bp, Sync D { s with bp := bp } { s' with bp := bp } → Sync D' (F (n, bp)) (F' (n, bp))) :
    RelO (Sync D') (if cond then none else (convNum s.bp lo hi).map F)
      (if cond then none else (convNum s'.bp lo hi).map F') := by
  split
  · trivial
  · rw [← h.bp]
    cases convNum s.bp lo hi with
    | none => trivial
    | some p => exact hF _ _ ⟨rfl, h.split, h.tm, h.year⟩

theorem agree_set {D : Fld → Prop} {a b : Tm} (h : AgreeOff D a b) (W : List Fld) (a' b' : Tm)
    (hW : ∀ f ∈ W, a'.fld f = b'.fld f) (ha : ∀ f, f ∉ W → a'.fld f = a.fld f)
    (hb : ∀ f, f ∉ W → b'.fld f = b.fld f) : AgreeOff (off D W) a' b' := by
  intro f hf
  by_cases hw : f ∈ W
  · exact hW f hw
  · rw [ha f hw, hb f hw]
    exact h f fun hd => hf ⟨hd, hw⟩

theorem sync_set {D : Fld → Prop} {s s' : PState} (h : Sync D s s') (W : List Fld) (a b : Tm)
    (hW : ∀ f ∈ W, a.fld f = b.fld f) (ha : ∀ f, f ∉ W → a.fld f = s.tm.fld f)
    (hb : ∀ f, f ∉ W → b.fld f = s'.tm.fld f) :
    Sync (off D W) { s with tm := a } { s' with tm := b } :=
  ⟨h.bp, h.split, agree_set h.tm W a b hW ha hb, fun hs hd => h.year hs hd.1⟩

theorem sync_nested {sub : Sub} (hsub : SubAgree sub) {D : Fld → Prop} {s s' : PState}
    (h : Sync D s s') (cond : Prop) [Decidable cond] {c : Char} {fmt : CStr}
    (hc : nestedFmt c = some fmt) :
    RelO (Sync (off D (writes c)))
      (if cond then none else (sub s.bp fmt s.tm).map fun (bp, tm) => { s with bp := bp, tm := tm })
      (if cond then none else (sub s'.bp fmt s'.tm).map fun (bp, tm) => { s' with bp := bp, tm := tm }) := by
  split
  · trivial
  · have := hsub c fmt hc s.bp s.tm s'.tm D h.tm
    rw [← h.bp]
    cases h1 : sub s.bp fmt s.tm with
    | none =>
      rw [h1] at this
      cases h2 : sub s.bp fmt s'.tm with
      | none => trivial
      | some r => rw [h2] at this; exact this
    | some r =>
      rw [h1] at this
      cases h2 : sub s.bp fmt s'.tm with
      | none => rw [h2] at this; exact this
      | some r' =>
        rw [h2] at this
        exact ⟨this.1, h.split, this.2, fun hs hd => h.year hs hd.1⟩


theorem sync_set1 {D : Fld → Prop} {s s' : PState} (h : Sync D s s') (w : Fld) (a b : Tm)
    (hW : a.fld w = b.fld w) (ha : ∀ f, f ≠ w → a.fld f = s.tm.fld f)
    (hb : ∀ f, f ≠ w → b.fld f = s'.tm.fld f) :
    Sync (off D [w]) { s with tm := a } { s' with tm := b } :=
  sync_set h [w] a b (by intro f hf; rw [List.mem_singleton] at hf; rw [hf]; exact hW)
    (fun f hf => ha f (by simpa using hf)) (fun f hf => hb f (by simpa using hf))

/-- A field set that leaves the others. -/
macro "fld_set" : tactic =>
  `(tactic| (intro n bp h
             refine sync_set1 h _ _ _ rfl ?_ ?_ <;> (intro f hf; cases f <;> first | exact absurd rfl hf | rfl)))

theorem fld_year_ne (t : Tm) (y : Int) (f : Fld) (hf : f ≠ .year) : ({ t with year := y } : Tm).fld f = t.fld f := by
  cases f <;> first | exact absurd rfl hf | rfl

theorem convSpec_agree {sub : Sub} (hsub : SubAgree sub) {D : Fld → Prop} {s s' : PState}
    (h : Sync D s s') (e o : Bool) (c : Char) (hp : c = 'p' → ¬ D .hour) :
    RelO (Sync (off D (writes c))) (convSpec sub e o c s) (convSpec sub e o c s') := by
  unfold convSpec
  dsimp only
  by_cases hc : c = '%'
  · rw [if_pos hc, if_pos hc]
    subst hc
    rw [← h.bp]
    cases s.bp with
    | nil => trivial
    | cons d bp =>
      dsimp only
      split
      · exact ⟨rfl, h.split, fun f hf => h.tm f fun hd => hf ⟨hd, by simp [writes]⟩, fun hs hd => h.year hs hd.1⟩
      · trivial
  rw [if_neg hc, if_neg hc]
  by_cases hc : c = 'c'
  · rw [if_pos hc, if_pos hc]
    subst hc; exact sync_nested hsub h _ rfl
  rw [if_neg hc, if_neg hc]
  by_cases hc : c = 'D'
  · rw [if_pos hc, if_pos hc]
    subst hc; exact sync_nested hsub h _ rfl
  rw [if_neg hc, if_neg hc]
  by_cases hc : c = 'R'
  · rw [if_pos hc, if_pos hc]
    subst hc; exact sync_nested hsub h _ rfl
  rw [if_neg hc, if_neg hc]
  by_cases hc : c = 'r'
  · rw [if_pos hc, if_pos hc]
    subst hc; exact sync_nested hsub h _ rfl
  rw [if_neg hc, if_neg hc]
  by_cases hc : c = 'T'
  · rw [if_pos hc, if_pos hc]
    subst hc; exact sync_nested hsub h _ rfl
  rw [if_neg hc, if_neg hc]
  by_cases hc : c = 'X'
  · rw [if_pos hc, if_pos hc]
    subst hc; exact sync_nested hsub h _ rfl
  rw [if_neg hc, if_neg hc]
  by_cases hc : c = 'x'
  · rw [if_pos hc, if_pos hc]
    subst hc; exact sync_nested hsub h _ rfl
  rw [if_neg hc, if_neg hc]
  by_cases hc : c = 'A' ∨ c = 'a'
  · rw [if_pos hc, if_pos hc]
    have hw : writes c = [.wday] := by rcases hc with rfl | rfl <;> rfl
    rw [hw]
    split
    · trivial
    · rw [← h.bp]
      cases findName s.bp dayNames abdayNames 0 with
      | none => trivial
      | some p =>
        obtain ⟨i, len⟩ := p
        refine sync_set1 (s := { s with bp := s.bp.drop len }) (s' := { s' with bp := s.bp.drop len })
          ⟨rfl, h.split, h.tm, h.year⟩ _ _ _ rfl ?_ ?_ <;> (intro f hf; cases f <;> first | exact absurd rfl hf | rfl)
  rw [if_neg hc, if_neg hc]
  by_cases hc : c = 'B' ∨ c = 'b' ∨ c = 'h'
  · rw [if_pos hc, if_pos hc]
    have hw : writes c = [.mon] := by rcases hc with rfl | rfl | rfl <;> rfl
    rw [hw]
    split
    · trivial
    · rw [← h.bp]
      cases findName s.bp monNames abmonNames 0 with
      | none => trivial
      | some p =>
        obtain ⟨i, len⟩ := p
        refine sync_set1 (s := { s with bp := s.bp.drop len }) (s' := { s' with bp := s.bp.drop len })
          ⟨rfl, h.split, h.tm, h.year⟩ _ _ _ rfl ?_ ?_ <;> (intro f hf; cases f <;> first | exact absurd rfl hf | rfl)
  rw [if_neg hc, if_neg hc]
  by_cases hc : c = 'C'
  · rw [if_pos hc, if_pos hc]
    subst hc
    have hw : writes 'C' = [.year] := rfl
    rw [hw]
    refine sync_num h ?_
    intro n bp h
    dsimp only
    have hsp : s.split = s'.split := h.split
    by_cases hs : s.split = true
    · rw [if_pos hs, if_pos (hsp ▸ hs)]
      refine sync_set1 h .year _ _ ?_ (fld_year_ne _ _) (fld_year_ne _ _)
      have : s.tm.year = s'.tm.year := h.tm .year (h.year hs)
      simp only [Tm.fld, this]
    · have hs' : ¬ s'.split = true := hsp ▸ hs
      rw [if_neg hs, if_neg hs']
      have := sync_set1 h .year { s.tm with year := (n : Int) * 100 } { s'.tm with year := (n : Int) * 100 } rfl
          (fld_year_ne _ _) (fld_year_ne _ _)
      exact ⟨this.bp, rfl, this.tm, fun _ hd => hd.2 (by simp)⟩
  rw [if_neg hc, if_neg hc]
  by_cases hc : c = 'd' ∨ c = 'e'
  · rw [if_pos hc, if_pos hc]
    have hw : writes c = [.mday] := by rcases hc with rfl | rfl <;> rfl
    rw [hw]
    exact sync_num h (by fld_set)
  rw [if_neg hc, if_neg hc]
  by_cases hc : c = 'k'
  · rw [if_pos hc, if_pos hc]
    subst hc
    exact sync_num h (by fld_set)
  rw [if_neg hc, if_neg hc]
  by_cases hc : c = 'H'
  · rw [if_pos hc, if_pos hc]
    subst hc
    exact sync_num h (by fld_set)
  rw [if_neg hc, if_neg hc]
  by_cases hc : c = 'l'
  · rw [if_pos hc, if_pos hc]
    subst hc
    exact sync_num h (by fld_set)
  rw [if_neg hc, if_neg hc]
  by_cases hc : c = 'I'
  · rw [if_pos hc, if_pos hc]
    subst hc
    exact sync_num h (by fld_set)
  rw [if_neg hc, if_neg hc]
  by_cases hc : c = 'j'
  · rw [if_pos hc, if_pos hc]
    subst hc
    exact sync_num h (by fld_set)
  rw [if_neg hc, if_neg hc]
  by_cases hc : c = 'M'
  · rw [if_pos hc, if_pos hc]
    subst hc
    exact sync_num h (by fld_set)
  rw [if_neg hc, if_neg hc]
  by_cases hc : c = 'm'
  · rw [if_pos hc, if_pos hc]
    subst hc
    exact sync_num h (by fld_set)
  rw [if_neg hc, if_neg hc]
  by_cases hc : c = 'p'
  · rw [if_pos hc, if_pos hc]
    subst hc
    have hh : s.tm.hour = s'.tm.hour := h.tm .hour (hp rfl)
    have hk : Sync (off D (writes 'p')) s s' := h.weaken
      (fun f hf => ⟨hf, by
        intro hw
        have : f = .hour := by simpa [writes] using hw
        subst this
        exact hp rfl hf⟩) (fun hs hd => h.year hs hd.1) |> fun w =>
          ⟨w.bp, w.split, w.tm, w.year⟩
    split
    · trivial
    · rw [← h.bp, ← hh]
      split
      · split
        · trivial
        · exact ⟨rfl, hk.split, hk.tm, hk.year⟩
      · split
        · split
          · trivial
          · refine sync_set1 (s := { s with bp := s.bp.drop 2 }) (s' := { s' with bp := s.bp.drop 2 })
              ⟨rfl, h.split, h.tm, h.year⟩ .hour _ _ rfl ?_ ?_ <;> (intro f hf; cases f <;> first | exact absurd rfl hf | rfl)
        · trivial
  rw [if_neg hc, if_neg hc]
  by_cases hc : c = 'S'
  · rw [if_pos hc, if_pos hc]
    subst hc
    exact sync_num h (by fld_set)
  rw [if_neg hc, if_neg hc]
  by_cases hc : c = 'U' ∨ c = 'W'
  · rw [if_pos hc, if_pos hc]
    have hw : writes c = [] := by rcases hc with rfl | rfl <;> rfl
    rw [hw]
    exact sync_num h (by
      intro n bp h
      exact ⟨h.bp, h.split, fun f hf => h.tm f fun hd => hf ⟨hd, by simp⟩, fun hs hd => h.year hs hd.1⟩)
  rw [if_neg hc, if_neg hc]
  by_cases hc : c = 'w'
  · rw [if_pos hc, if_pos hc]
    subst hc
    exact sync_num h (by fld_set)
  rw [if_neg hc, if_neg hc]
  by_cases hc : c = 'Y'
  · rw [if_pos hc, if_pos hc]
    subst hc
    exact sync_num h (by fld_set)
  rw [if_neg hc, if_neg hc]
  by_cases hc : c = 'y'
  · rw [if_pos hc, if_pos hc]
    subst hc
    have hw : writes 'y' = [.year] := rfl
    rw [hw]
    refine sync_num h ?_
    intro n bp h
    dsimp only
    have hsp : s.split = s'.split := h.split
    by_cases hs : s.split = true
    · rw [if_pos hs, if_pos (hsp ▸ hs)]
      refine sync_set1 h .year _ _ ?_ (fld_year_ne _ _) (fld_year_ne _ _)
      have : s.tm.year = s'.tm.year := h.tm .year (h.year hs)
      simp only [Tm.fld, this]
    · have hs' : ¬ s'.split = true := hsp ▸ hs
      rw [if_neg hs, if_neg hs']
      split
      · have := sync_set1 h .year { s.tm with year := (n : Int) + 2000 - 1900 } { s'.tm with year := (n : Int) + 2000 - 1900 } rfl
          (fld_year_ne _ _) (fld_year_ne _ _)
        exact ⟨this.bp, rfl, this.tm, fun _ hd => hd.2 (by simp)⟩
      · have := sync_set1 h .year { s.tm with year := (n : Int) + 1900 - 1900 } { s'.tm with year := (n : Int) + 1900 - 1900 } rfl
          (fld_year_ne _ _) (fld_year_ne _ _)
        exact ⟨this.bp, rfl, this.tm, fun _ hd => hd.2 (by simp)⟩
  rw [if_neg hc, if_neg hc]
  by_cases hc : c = 'n' ∨ c = 't'
  · rw [if_pos hc, if_pos hc]
    have hw : writes c = [] := by rcases hc with rfl | rfl <;> rfl
    rw [hw]
    split
    · trivial
    · exact ⟨by simp only [h.bp], h.split, fun f hf => h.tm f fun hd => hf ⟨hd, by simp⟩, fun hs hd => h.year hs hd.1⟩
  rw [if_neg hc, if_neg hc]
  trivial

/-! ### members that are not set are kept -/

theorem agree_refl (D : Fld → Prop) (a : Tm) : AgreeOff D a a := fun _ _ => rfl

theorem num_keep {s s' : PState} {W : List Fld} {cond : Prop} [Decidable cond] {lo hi : Nat}
    {F : Nat × CStr → PState} (h : (if cond then none else (convNum s.bp lo hi).map F) = some s')
    (hF : ∀ n bp, AgreeOff (fun f => f ∈ W) s.tm (F (n, bp)).tm) :
    AgreeOff (fun f => f ∈ W) s.tm s'.tm := by
  split at h
  · cases h
  · cases hc : convNum s.bp lo hi with
    | none => rw [hc] at h; cases h
    | some p => rw [hc] at h; cases h; exact hF _ _

theorem nested_keep {sub : Sub} (hsub : SubKeep sub) {s s' : PState} {cond : Prop} [Decidable cond]
    {c : Char} {fmt : CStr} (hc : nestedFmt c = some fmt)
    (h : (if cond then none else (sub s.bp fmt s.tm).map fun (bp, tm) => { s with bp := bp, tm := tm }) = some s') :
    AgreeOff (fun f => f ∈ writes c) s.tm s'.tm := by
  split at h
  · cases h
  · cases hr : sub s.bp fmt s.tm with
    | none => rw [hr] at h; cases h
    | some p => rw [hr] at h; cases h; exact hsub c fmt hc _ _ _ hr

macro "fld_keep" : tactic =>
  `(tactic| (intro n bp f hf; cases f <;> first | rfl | exact absurd (by decide) hf))

theorem year_keep (t : Tm) (y : Int) : AgreeOff (fun f => f ∈ [Fld.year]) t { t with year := y } := by
  intro f hf
  exact (fld_year_ne t y f (by rintro rfl; exact hf (by simp))).symm

theorem convSpec_keep {sub : Sub} (hsub : SubKeep sub) {s s' : PState} (e o : Bool) (c : Char)
    (h : convSpec sub e o c s = some s') : AgreeOff (fun f => f ∈ writes c) s.tm s'.tm := by
  unfold convSpec at h
  dsimp only at h
  by_cases hc : c = '%'
  · rw [if_pos hc] at h
    split at h
    · split at h
      · cases h; exact agree_refl _ _
      · cases h
    · cases h
  rw [if_neg hc] at h
  by_cases hc : c = 'c'
  · rw [if_pos hc] at h
    subst hc; exact nested_keep hsub rfl h
  rw [if_neg hc] at h
  by_cases hc : c = 'D'
  · rw [if_pos hc] at h
    subst hc; exact nested_keep hsub rfl h
  rw [if_neg hc] at h
  by_cases hc : c = 'R'
  · rw [if_pos hc] at h
    subst hc; exact nested_keep hsub rfl h
  rw [if_neg hc] at h
  by_cases hc : c = 'r'
  · rw [if_pos hc] at h
    subst hc; exact nested_keep hsub rfl h
  rw [if_neg hc] at h
  by_cases hc : c = 'T'
  · rw [if_pos hc] at h
    subst hc; exact nested_keep hsub rfl h
  rw [if_neg hc] at h
  by_cases hc : c = 'X'
  · rw [if_pos hc] at h
    subst hc; exact nested_keep hsub rfl h
  rw [if_neg hc] at h
  by_cases hc : c = 'x'
  · rw [if_pos hc] at h
    subst hc; exact nested_keep hsub rfl h
  rw [if_neg hc] at h
  by_cases hc : c = 'A' ∨ c = 'a'
  · rw [if_pos hc] at h
    have hw : writes c = [.wday] := by rcases hc with rfl | rfl <;> rfl
    rw [hw]
    split at h
    · cases h
    · cases hn : findName s.bp dayNames abdayNames 0 with
      | none => rw [hn] at h; cases h
      | some p =>
        rw [hn] at h; cases h
        intro f hf; cases f <;> first | rfl | exact absurd (by decide) hf
  rw [if_neg hc] at h
  by_cases hc : c = 'B' ∨ c = 'b' ∨ c = 'h'
  · rw [if_pos hc] at h
    have hw : writes c = [.mon] := by rcases hc with rfl | rfl | rfl <;> rfl
    rw [hw]
    split at h
    · cases h
    · cases hn : findName s.bp monNames abmonNames 0 with
      | none => rw [hn] at h; cases h
      | some p =>
        rw [hn] at h; cases h
        intro f hf; cases f <;> first | rfl | exact absurd (by decide) hf
  rw [if_neg hc] at h
  by_cases hc : c = 'C'
  · rw [if_pos hc] at h
    subst hc
    have hw : writes 'C' = [.year] := rfl
    rw [hw]
    refine num_keep h ?_
    intro n bp
    dsimp only
    split
    · exact year_keep _ _
    · exact year_keep _ _
  rw [if_neg hc] at h
  by_cases hc : c = 'd' ∨ c = 'e'
  · rw [if_pos hc] at h
    rcases hc with rfl | rfl
    · exact num_keep h (by fld_keep)
    · exact num_keep h (by fld_keep)
  rw [if_neg hc] at h
  by_cases hc : c = 'k'
  · rw [if_pos hc] at h
    subst hc
    exact num_keep h (by fld_keep)
  rw [if_neg hc] at h
  by_cases hc : c = 'H'
  · rw [if_pos hc] at h
    subst hc
    exact num_keep h (by fld_keep)
  rw [if_neg hc] at h
  by_cases hc : c = 'l'
  · rw [if_pos hc] at h
    subst hc
    exact num_keep h (by fld_keep)
  rw [if_neg hc] at h
  by_cases hc : c = 'I'
  · rw [if_pos hc] at h
    subst hc
    exact num_keep h (by fld_keep)
  rw [if_neg hc] at h
  by_cases hc : c = 'j'
  · rw [if_pos hc] at h
    subst hc
    exact num_keep h (by fld_keep)
  rw [if_neg hc] at h
  by_cases hc : c = 'M'
  · rw [if_pos hc] at h
    subst hc
    exact num_keep h (by fld_keep)
  rw [if_neg hc] at h
  by_cases hc : c = 'm'
  · rw [if_pos hc] at h
    subst hc
    exact num_keep h (by fld_keep)
  rw [if_neg hc] at h
  by_cases hc : c = 'p'
  · rw [if_pos hc] at h
    subst hc
    split at h
    · cases h
    · split at h
      · split at h
        · cases h
        · cases h; exact agree_refl _ _
      · split at h
        · split at h
          · cases h
          · cases h
            intro f hf; cases f <;> first | rfl | exact absurd (by decide) hf
        · cases h
  rw [if_neg hc] at h
  by_cases hc : c = 'S'
  · rw [if_pos hc] at h
    subst hc
    exact num_keep h (by fld_keep)
  rw [if_neg hc] at h
  by_cases hc : c = 'U' ∨ c = 'W'
  · rw [if_pos hc] at h
    rcases hc with rfl | rfl
    · exact num_keep h (by fld_keep)
    · exact num_keep h (by fld_keep)
  rw [if_neg hc] at h
  by_cases hc : c = 'w'
  · rw [if_pos hc] at h
    subst hc
    exact num_keep h (by fld_keep)
  rw [if_neg hc] at h
  by_cases hc : c = 'Y'
  · rw [if_pos hc] at h
    subst hc
    exact num_keep h (by fld_keep)
  rw [if_neg hc] at h
  by_cases hc : c = 'y'
  · rw [if_pos hc] at h
    subst hc
    have hw : writes 'y' = [.year] := rfl
    rw [hw]
    refine num_keep h ?_
    intro n bp
    dsimp only
    split
    · exact year_keep _ _
    · split
      · exact year_keep _ _
      · exact year_keep _ _
  rw [if_neg hc] at h
  by_cases hc : c = 'n' ∨ c = 't'
  · rw [if_pos hc] at h
    split at h
    · cases h
    · cases h; exact agree_refl _ _
  rw [if_neg hc] at h
  cases h

/-! ### formats -/

theorem off_append (D : Fld → Prop) (W W' : List Fld) : off (off D W) W' = off D (W ++ W') := by
  funext f
  simp only [off, List.mem_append, not_or, and_assoc]

theorem off_nil (D : Fld → Prop) : off D [] = D := by
  funext f
  simp [off]

theorem writes_hour {c : Char} (h : setsHour c = true) : Fld.hour ∈ writes c := by
  simp only [setsHour, List.mem_cons, List.not_mem_nil, or_false, decide_eq_true_eq] at h
  rcases h with rfl | rfl | rfl | rfl | rfl | rfl | rfl | rfl | rfl <;> decide

theorem relO_bind {α : Type} {P Q : α → α → Prop} {x y : Option α} {f g : α → Option α}
    (h : RelO P x y) (hf : ∀ a b, P a b → RelO Q (f a) (g b)) : RelO Q (x.bind f) (y.bind g) := by
  cases x <;> cases y
  · trivial
  · exact absurd h id
  · exact absurd h id
  · exact hf _ _ h

theorem writesFmt_char {a : Char} (ha : a ≠ '%') (fmt : CStr) : writesFmt (a :: fmt) = writesFmt fmt := by
  rw [writesFmt.eq_def]
  simp only [ne_eq, ha, not_false_eq_true, if_true]

theorem writesFmt_conv {c : Char} (hE : c ≠ 'E') (hO : c ≠ 'O') (fmt : CStr) :
    writesFmt ('%' :: c :: fmt) = writes c ++ writesFmt fmt := by
  rw [writesFmt.eq_def]
  simp only [ne_eq, not_true_eq_false, if_false, hE, hO, or_self]

theorem steadyFmt_char {a : Char} (ha : a ≠ '%') (fmt : CStr) (hour : Bool) :
    steadyFmt (a :: fmt) hour = steadyFmt fmt hour := by
  rw [steadyFmt.eq_def]
  simp only [ne_eq, ha, not_false_eq_true, if_true]

theorem steadyFmt_conv {c : Char} (hE : c ≠ 'E') (hO : c ≠ 'O') (fmt : CStr) (hour : Bool) :
    steadyFmt ('%' :: c :: fmt) hour = ((c ≠ 'p' || hour) && steadyFmt fmt (hour || setsHour c)) := by
  rw [steadyFmt.eq_def]
  simp only [ne_eq, not_true_eq_false, if_false, hE, hO, or_self]

theorem loop_char {sub : Sub} {a : Char} (ha : a ≠ '%') (fmt : CStr) (s : PState) :
    strptimeLoop sub (a :: fmt) s = if isSpace a then
        strptimeLoop sub fmt { s with bp := s.bp.dropWhile isSpace }
      else match s.bp with
        | d :: bp => if a = d then strptimeLoop sub fmt { s with bp := bp } else none
        | [] => none := by
  rw [strptimeLoop.eq_def]
  simp only [ne_eq, ha, not_false_eq_true, if_true]
  rfl

theorem loop_conv {sub : Sub} {c : Char} (hE : c ≠ 'E') (hO : c ≠ 'O') (fmt : CStr) (s : PState) :
    strptimeLoop sub ('%' :: c :: fmt) s = (convSpec sub false false c s).bind (strptimeLoop sub fmt) := by
  have hsp : isSpace '%' = false := by decide
  rw [strptimeLoop.eq_def]
  simp only [hsp, Bool.false_eq_true, if_false, ne_eq, not_true_eq_false]

theorem loop_agree {sub : Sub} (hsub : SubAgree sub) : ∀ (n : Nat) (fmt : CStr), fmt.length ≤ n →
    ∀ (hour : Bool) (D : Fld → Prop) (s s' : PState), Sync D s s' → (hour = true → ¬ D .hour) →
    steadyFmt fmt hour = true →
    RelO (Sync (off D (writesFmt fmt))) (strptimeLoop sub fmt s) (strptimeLoop sub fmt s') := by
  intro n
  induction n with
  | zero =>
    intro fmt hl hour D s s' h _ _
    have : fmt = [] := List.length_eq_zero_iff.1 (by omega)
    subst this
    show Sync (off D []) s s'
    rw [off_nil]; exact h
  | succ n ih =>
    intro fmt hl hour D s s' h hh hst
    -- one conversion followed by the rest
    have step : ∀ (e o : Bool) (c : Char) (fmt : CStr), fmt.length ≤ n →
        ((c ≠ 'p' || hour) && steadyFmt fmt (hour || setsHour c)) = true →
        RelO (Sync (off D (writes c ++ writesFmt fmt)))
          ((convSpec sub e o c s).bind (strptimeLoop sub fmt))
          ((convSpec sub e o c s').bind (strptimeLoop sub fmt)) := by
      intro e o c fmt hl hs
      rw [Bool.and_eq_true] at hs
      refine relO_bind (convSpec_agree hsub h e o c ?_) ?_
      · rintro rfl
        exact hh (by simpa using hs.1)
      · intro a b hab
        rw [← off_append]
        refine ih fmt hl (hour || setsHour c) _ a b hab ?_ hs.2
        intro ho hd
        rw [Bool.or_eq_true] at ho
        rcases ho with ho | ho
        · exact hh ho hd.1
        · exact hd.2 (writes_hour ho)
    cases fmt with
    | nil =>
      show Sync (off D []) s s'
      rw [off_nil]; exact h
    | cons a fmt =>
      have hl' : fmt.length ≤ n := by simpa using hl
      by_cases ha : a = '%'
      · subst ha
        have hsp : isSpace '%' = false := by decide
        cases fmt with
        | nil => simp only [strptimeLoop]; trivial
        | cons c fmt =>
          by_cases hE : c = 'E'
          · subst hE
            cases fmt with
            | nil => simp only [strptimeLoop]; trivial
            | cons c fmt =>
              have hw : writesFmt ('%' :: 'E' :: c :: fmt) = writes c ++ writesFmt fmt := rfl
              rw [hw]
              simp only [strptimeLoop, hsp, Bool.false_eq_true, if_false, ne_eq, not_true_eq_false]
              split
              · trivial
              · exact step _ _ _ _ (by simp at hl'; omega) hst
          · by_cases hO : c = 'O'
            · subst hO
              cases fmt with
              | nil => simp only [strptimeLoop]; trivial
              | cons c fmt =>
                have hw : writesFmt ('%' :: 'O' :: c :: fmt) = writes c ++ writesFmt fmt := rfl
                rw [hw]
                simp only [strptimeLoop, hsp, Bool.false_eq_true, if_false, ne_eq, not_true_eq_false]
                split
                · trivial
                · exact step _ _ _ _ (by simp at hl'; omega) hst
            · have hw := writesFmt_conv hE hO fmt
              have hst' := (steadyFmt_conv hE hO fmt hour).symm.trans hst
              rw [hw]
              have e1 := loop_conv (sub := sub) hE hO fmt
              rw [e1, e1]
              exact step _ _ _ _ (by simp at hl'; omega) hst'
      · have hw := writesFmt_char ha fmt
        have hst' := (steadyFmt_char ha fmt hour).symm.trans hst
        rw [hw]
        have e1 := loop_char (sub := sub) ha fmt
        rw [e1, e1, ← h.bp]
        split
        · exact ih fmt hl' hour D _ _ ⟨rfl, h.split, h.tm, h.year⟩ hh hst'
        · split
          · split
            · exact ih fmt hl' hour D _ _ ⟨rfl, h.split, h.tm, h.year⟩ hh hst'
            · trivial
          · trivial

theorem agree_trans {D : Fld → Prop} {a b c : Tm} (h : AgreeOff D a b) (h' : AgreeOff D b c) :
    AgreeOff D a c := fun f hf => (h f hf).trans (h' f hf)

theorem agree_mono {D D' : Fld → Prop} {a b : Tm} (h : AgreeOff D a b) (hd : ∀ f, D f → D' f) :
    AgreeOff D' a b := fun f hf => h f fun hx => hf (hd f hx)

theorem loop_keep {sub : Sub} (hsub : SubKeep sub) : ∀ (n : Nat) (fmt : CStr), fmt.length ≤ n →
    ∀ (s s' : PState), strptimeLoop sub fmt s = some s' →
    AgreeOff (fun f => f ∈ writesFmt fmt) s.tm s'.tm := by
  intro n
  induction n with
  | zero =>
    intro fmt hl s s' h
    have : fmt = [] := List.length_eq_zero_iff.1 (by omega)
    subst this
    cases h; exact agree_refl _ _
  | succ n ih =>
    intro fmt hl s s' h
    have step : ∀ (e o : Bool) (c : Char) (fmt : CStr), fmt.length ≤ n →
        (convSpec sub e o c s).bind (strptimeLoop sub fmt) = some s' →
        AgreeOff (fun f => f ∈ writes c ++ writesFmt fmt) s.tm s'.tm := by
      intro e o c fmt hl hs
      cases hc : convSpec sub e o c s with
      | none => rw [hc] at hs; cases hs
      | some s1 =>
        rw [hc] at hs
        exact agree_trans (agree_mono (convSpec_keep hsub e o c hc) fun f hf => List.mem_append_left _ hf)
          (agree_mono (ih fmt hl _ _ hs) fun f hf => List.mem_append_right _ hf)
    cases fmt with
    | nil => cases h; exact agree_refl _ _
    | cons a fmt =>
      have hl' : fmt.length ≤ n := by simpa using hl
      by_cases ha : a = '%'
      · subst ha
        have hsp : isSpace '%' = false := by decide
        cases fmt with
        | nil => simp only [strptimeLoop, hsp, Bool.false_eq_true, if_false, ne_eq, not_true_eq_false] at h; cases h
        | cons c fmt =>
          by_cases hE : c = 'E'
          · subst hE
            cases fmt with
            | nil => simp only [strptimeLoop, hsp, Bool.false_eq_true, if_false, ne_eq, not_true_eq_false] at h; cases h
            | cons c fmt =>
              have hw : writesFmt ('%' :: 'E' :: c :: fmt) = writes c ++ writesFmt fmt := rfl
              rw [hw]
              simp only [strptimeLoop, hsp, Bool.false_eq_true, if_false, ne_eq, not_true_eq_false] at h
              split at h
              · cases h
              · exact step _ _ _ _ (by simp at hl'; omega) h
          · by_cases hO : c = 'O'
            · subst hO
              cases fmt with
              | nil => simp only [strptimeLoop, hsp, Bool.false_eq_true, if_false, ne_eq, not_true_eq_false] at h; cases h
              | cons c fmt =>
                have hw : writesFmt ('%' :: 'O' :: c :: fmt) = writes c ++ writesFmt fmt := rfl
                rw [hw]
                simp only [strptimeLoop, hsp, Bool.false_eq_true, if_false, ne_eq, not_true_eq_false] at h
                split at h
                · cases h
                · exact step _ _ _ _ (by simp at hl'; omega) h
            · have hw := writesFmt_conv hE hO fmt
              rw [hw]
              have e1 := loop_conv (sub := sub) hE hO fmt
              rw [e1] at h
              exact step _ _ _ _ (by simp at hl'; omega) h
      · have hw := writesFmt_char ha fmt
        rw [hw]
        have e1 := loop_char (sub := sub) ha fmt
        rw [e1] at h
        split at h
        · have := ih fmt hl' _ _ h; exact this
        · split at h
          · split at h
            · have := ih fmt hl' _ _ h; exact this
            · cases h
          · cases h

theorem nested_facts {c : Char} {fmt : CStr} (h : nestedFmt c = some fmt) :
    steadyFmt fmt false = true ∧ ∀ f, f ∈ writesFmt fmt ↔ f ∈ writes c := by
  unfold nestedFmt at h
  by_cases h1 : c = 'c'
  · have hw : writes c = [.mon, .mday, .year, .hour, .min, .sec] := by
      rcases h1 with rfl <;> rfl
    rw [if_pos h1] at h
    cases h
    have hf : writesFmt (cs "%x %X") = [.mon, .mday, .year, .hour, .min, .sec] := by decide +kernel
    exact ⟨by decide +kernel, fun f => by rw [hf, hw]; try (cases f <;> decide)⟩
  rw [if_neg h1] at h
  by_cases h1 : c = 'D' ∨ c = 'x'
  · have hw : writes c = [.mon, .mday, .year] := by
      rcases h1 with rfl | rfl <;> rfl
    rw [if_pos h1] at h
    cases h
    have hf : writesFmt (cs "%m/%d/%y") = [.mon, .mday, .year] := by decide +kernel
    exact ⟨by decide +kernel, fun f => by rw [hf, hw]; try (cases f <;> decide)⟩
  rw [if_neg h1] at h
  by_cases h1 : c = 'R'
  · have hw : writes c = [.hour, .min] := by
      rcases h1 with rfl <;> rfl
    rw [if_pos h1] at h
    cases h
    have hf : writesFmt (cs "%H:%M") = [.hour, .min] := by decide +kernel
    exact ⟨by decide +kernel, fun f => by rw [hf, hw]; try (cases f <;> decide)⟩
  rw [if_neg h1] at h
  by_cases h1 : c = 'r'
  · have hw : writes c = [.hour, .min, .sec] := by
      rcases h1 with rfl <;> rfl
    rw [if_pos h1] at h
    cases h
    have hf : writesFmt (cs "%I:%M:%S %p") = [.hour, .min, .sec, .hour] := by decide +kernel
    exact ⟨by decide +kernel, fun f => by rw [hf, hw]; try (cases f <;> decide)⟩
  rw [if_neg h1] at h
  by_cases h1 : c = 'T' ∨ c = 'X'
  · have hw : writes c = [.hour, .min, .sec] := by
      rcases h1 with rfl | rfl <;> rfl
    rw [if_pos h1] at h
    cases h
    have hf : writesFmt (cs "%H:%M:%S") = [.hour, .min, .sec] := by decide +kernel
    exact ⟨by decide +kernel, fun f => by rw [hf, hw]; try (cases f <;> decide)⟩
  rw [if_neg h1] at h
  cases h

theorem strptimeWith_agree {sub : Sub} (hsub : SubAgree sub) {fmt : CStr} (hst : steadyFmt fmt false = true)
    (bp : CStr) {tm tm' : Tm} {D : Fld → Prop} (h : AgreeOff D tm tm') :
    RelO (fun r r' => r.1 = r'.1 ∧ AgreeOff (off D (writesFmt fmt)) r.2 r'.2) (strptimeWith sub bp fmt tm)
      (strptimeWith sub bp fmt tm') := by
  have := loop_agree hsub fmt.length fmt (Nat.le_refl _) false D ⟨bp, tm, false⟩ ⟨bp, tm', false⟩
    ⟨rfl, rfl, h, fun h => by cases h⟩ (fun h => by cases h) hst
  unfold strptimeWith
  cases h1 : strptimeLoop sub fmt ⟨bp, tm, false⟩ <;> cases h2 : strptimeLoop sub fmt ⟨bp, tm', false⟩ <;>
    rw [h1, h2] at this
  · trivial
  · exact this
  · exact this
  · exact ⟨this.bp, this.tm⟩

theorem subAgree_with {sub : Sub} (hsub : SubAgree sub) : SubAgree (strptimeWith sub) := by
  intro c fmt hc bp tm tm' D h
  obtain ⟨hst, hw⟩ := nested_facts hc
  have e : off D (writesFmt fmt) = off D (writes c) := by
    funext f; simp only [off, hw f]
  rw [← e]
  exact strptimeWith_agree hsub hst bp h

theorem strptimeWith_keep {sub : Sub} (hsub : SubKeep sub) {fmt bp : CStr} {tm : Tm} {r : CStr × Tm}
    (h : strptimeWith sub bp fmt tm = some r) : AgreeOff (fun f => f ∈ writesFmt fmt) tm r.2 := by
  unfold strptimeWith at h
  cases h1 : strptimeLoop sub fmt ⟨bp, tm, false⟩ with
  | none => rw [h1] at h; cases h
  | some s =>
    rw [h1] at h; cases h
    exact loop_keep hsub _ fmt (Nat.le_refl _) _ _ h1

theorem subKeep_with {sub : Sub} (hsub : SubKeep sub) : SubKeep (strptimeWith sub) := by
  intro c fmt hc bp tm r h
  obtain ⟨_, hw⟩ := nested_facts hc
  exact agree_mono (strptimeWith_keep hsub h) fun f hf => (hw f).1 hf

theorem subAgree_none : SubAgree (fun _ _ _ => none) := fun _ _ _ _ _ _ _ _ => trivial

theorem subKeep_none : SubKeep (fun _ _ _ => none) := fun _ _ _ _ _ _ h => by cases h

/-- A steady format overwrites every member that it sets with a value that does not depend on what was
there. -/
theorem strptime_agree {fmt : CStr} (hst : steadyFmt fmt false = true) (a : CStr) {tm tm' : Tm}
    (h : AgreeOff (fun f => f ∈ writesFmt fmt) tm tm') : strptime a fmt tm = strptime a fmt tm' := by
  have := strptimeWith_agree (subAgree_with (subAgree_with subAgree_none)) hst a h
  unfold strptime
  cases h1 : strptimeWith (strptimeWith (strptimeWith fun _ _ _ => none)) a fmt tm <;>
    cases h2 : strptimeWith (strptimeWith (strptimeWith fun _ _ _ => none)) a fmt tm' <;> rw [h1, h2] at this
  · exact absurd this id
  · exact absurd this id
  · rename_i r r'
    obtain ⟨e1, e2⟩ := this
    have : r.2 = r'.2 := Tm.ext_fld fun f => e2 f fun hf => hf.2 hf.1
    exact congrArg some (Prod.ext e1 this)

/-- `arg_strptime` changes no members that the format does not set. -/
theorem strptime_keep {fmt a : CStr} {tm : Tm} {r : CStr × Tm} (h : strptime a fmt tm = some r) :
    AgreeOff (fun f => f ∈ writesFmt fmt) tm r.2 :=
  strptimeWith_keep (subKeep_with (subKeep_with subKeep_none)) h

end Argtable
