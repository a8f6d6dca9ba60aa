import Verif.Proofs.DateRange
import Verif.Props.Demo
/-!
# Dates (C28-C31)

`Spec.Matches fmt s t t'` is the grammar of date formats; `Spec.DateEntry lc fmt h o`: `h` is an `arg_date`
entry with the format `fmt` and the content `o`; `Spec.give h (some a)` gives it an argument.
-/

namespace Argtable

open Spec

variable {δ : Type} {lc : Libc δ}

/-! ## C31: exactly the texts that match as a whole are accepted -/

/-- C31.  An `arg_date` with room left accepts an argument that matches its format as a whole, and stores the
resulting date in the next cell. -/
theorem C31_accept {fmt : CStr} {h : Hdr (Obj δ)} {o : DateObj} (hd : DateEntry lc fmt h o) {t t' : Tm}
    (hroom : (o.count : Int) < h.maxcount) (ht : o.tmval[o.count]? = some t) {a : CStr} (hm : Matches fmt a t t') :
    give h (some a) = .ok (.date ⟨o.count + 1, o.tmval.set o.count t'⟩, 0) := by
  obtain ⟨hlen, hc, hp, hg⟩ := give_date hd
  have hh : h = { h with parent := .date o } := by rw [← hp]
  rw [hh, hg]
  unfold dateScan
  rw [if_neg (by omega)]
  dsimp only
  rw [ht]
  dsimp only
  rw [(strptime_iff fmt a [] t t').2 hm]
  dsimp only
  rw [storeAt_ok (by omega), bind_ok]
  rfl

/-- C31.  It rejects every other argument, and then nothing changes. -/
theorem C31_reject {fmt : CStr} {h : Hdr (Obj δ)} {o : DateObj} (hd : DateEntry lc fmt h o) {t : Tm}
    (hroom : (o.count : Int) < h.maxcount) (ht : o.tmval[o.count]? = some t) {a : CStr}
    (hm : ¬ ∃ t', Matches fmt a t t') : give h (some a) = .ok (.date o, ARG_ERR_BADDATE) := by
  obtain ⟨hlen, hc, hp, hg⟩ := give_date hd
  have hh : h = { h with parent := .date o } := by rw [← hp]
  rw [hh, hg]
  unfold dateScan
  rw [if_neg (by omega)]
  dsimp only
  rw [ht]
  dsimp only
  split
  · rename_i tm hs
    exact absurd ⟨tm, (strptime_iff fmt a [] t tm).1 hs⟩ hm
  · rfl

/-- C31.  A text matches a format in at most one way. -/
theorem C31_unique {fmt a : CStr} {t t' t'' : Tm} (h : Matches fmt a t t') (h2 : Matches fmt a t t'') : t' = t'' := by
  obtain ⟨_, h⟩ := h
  obtain ⟨_, h2⟩ := h2
  exact (reads_unique h h2).2

/-- C31.  The members that the format does not mention keep what was in the cell. -/
theorem C31_keep {fmt a : CStr} {t t' : Tm} (h : Matches fmt a t t') (f : Fld) (hf : f ∉ writesFmt fmt) :
    t'.fld f = t.fld f :=
  (strptime_keep ((strptime_iff fmt a [] t t').2 h) f hf).symm

/-- C31.  The conversion `%F` is not supported: such a format matches nothing. -/
theorem C31_no_F (fmt a : CStr) (t : Tm) : ¬ ∃ t', Matches ('%' :: 'F' :: fmt) a t t' := by
  rintro ⟨t', hm⟩
  have h : strptimeLoop (subN 2) ('%' :: 'F' :: fmt) ⟨a, t, false⟩ = none := by
    rw [loop_conv (by decide) (by decide)]
    rfl
  have := (strptime_iff _ a [] t t').2 hm
  change strptimeWith (subN 2) a _ t = _ at this
  unfold strptimeWith at this
  rw [h] at this
  cases this

/-- A format with text, white space, a name and a number. -/
example : Matches (cs "on %a %d") (cs "on   mOnDaY 7") {} { wday := 1, mday := 7 } ∧
    ¬ ∃ t', Matches (cs "on %a %d") (cs "on Mon 7 ") {} t' := by
  constructor
  · exact (strptime_iff _ _ _ _ _).1 (by decide +kernel)
  · rintro ⟨t', h⟩
    have h1 := (strptime_iff _ _ _ _ _).2 h
    have h2 : strptime (cs "on Mon 7 ") (cs "on %a %d") {} = some (cs " ", { wday := 1, mday := 7 }) := by
      decide +kernel
    rw [h2] at h1
    cases h1

/-! ## C28: ranges -/

/-- C28.  When an `arg_date` accepts an argument, the members that its format mentions are in their calendar
range.  The hour of the cell must not be negative: `%p` adds to it. -/
theorem C28_range {fmt : CStr} {h : Hdr (Obj δ)} {o : DateObj} (hd : DateEntry lc fmt h o)
    (hhour : ∀ t ∈ o.tmval, 0 ≤ t.hour) {a : CStr} {o' : Obj δ} (hg : give h (some a) = .ok (o', 0)) :
    ∃ t', o' = .date ⟨o.count + 1, o.tmval.set o.count t'⟩ ∧ 0 ≤ t'.hour ∧
      ∀ f ∈ writesFmt fmt, InRange f (t'.fld f) := by
  obtain ⟨hlen, hc, hp, hgv⟩ := give_date hd
  have hh : h = { h with parent := .date o } := by rw [← hp]
  by_cases hroom : (o.count : Int) < h.maxcount
  · have hlt : o.count < o.tmval.length := by omega
    have ht := List.getElem?_eq_getElem hlt
    by_cases hm : ∃ t', Matches fmt a o.tmval[o.count] t'
    · obtain ⟨t', hm⟩ := hm
      rw [C31_accept hd hroom ht hm] at hg
      obtain ⟨k, hr⟩ := id hm
      obtain ⟨_, r2, r3, _⟩ := reads_range hr (fun h => by cases h) (hhour _ (List.getElem_mem hlt))
      refine ⟨t', ?_, r2, r3⟩
      cases hg; rfl
    · rw [C31_reject hd hroom ht hm] at hg
      cases hg
  · rw [hh, hgv] at hg
    unfold dateScan at hg
    rw [if_pos (by omega)] at hg
    cases hg

/-- C28.  All dates in an `arg_date` that has been given any arguments since it was made have the members
that the format mentions in their calendar range. -/
theorem C28_fresh {so lo fm dt : Option CStr} {mn mx : Int} {gl : Option CStr} {h : Hdr (Obj δ)}
    (hh : argDaten lc so lo fm dt mn mx gl = .ok h) (as : List CStr) :
    ∃ o codes, giveAll h as = .ok (.date o, codes) ∧
      ∀ i < o.count, ∃ t, o.tmval[i]? = some t ∧ ∀ f ∈ writesFmt (fm.getD (cs "%x")), InRange f (t.fld f) := by
  obtain ⟨n, hd⟩ := dateEntry_made hh
  have gen : ∀ (as : List CStr) (h : Hdr (Obj δ)) (o : DateObj), DateEntry lc (fm.getD (cs "%x")) h o →
      (∀ t ∈ o.tmval, 0 ≤ t.hour) →
      (∀ i < o.count, ∃ t, o.tmval[i]? = some t ∧ ∀ f ∈ writesFmt (fm.getD (cs "%x")), InRange f (t.fld f)) →
      ∃ o codes, giveAll h as = .ok (.date o, codes) ∧
        ∀ i < o.count, ∃ t, o.tmval[i]? = some t ∧ ∀ f ∈ writesFmt (fm.getD (cs "%x")), InRange f (t.fld f) := by
    intro as
    induction as with
    | nil =>
      intro h o hd _ hr
      obtain ⟨_, _, hp, _⟩ := give_date hd
      exact ⟨o, [], by rw [giveAll, hp], hr⟩
    | cons a as ih =>
      intro h o hd hhour hr
      obtain ⟨hlen, hc, hp, hgv⟩ := give_date hd
      have he : h = { h with parent := .date o } := by rw [← hp]
      have hrej : ∀ e, give h (some a) = .ok (.date o, e) → ∃ o codes, giveAll h (a :: as) = .ok (.date o, codes) ∧
        ∀ i < o.count, ∃ t, o.tmval[i]? = some t ∧ ∀ f ∈ writesFmt (fm.getD (cs "%x")), InRange f (t.fld f) := by
        intro e hge
        obtain ⟨o2, codes, h1, h2⟩ := ih _ o (dateEntry_set hd hc hlen) hhour hr
        exact ⟨o2, e :: codes, by rw [giveAll, hge, bind_ok]; dsimp only; rw [h1]; rfl, h2⟩
      by_cases hroom : (o.count : Int) < h.maxcount
      · have hlt : o.count < o.tmval.length := by omega
        have ht := List.getElem?_eq_getElem hlt
        by_cases hm : ∃ t', Matches (fm.getD (cs "%x")) a o.tmval[o.count] t'
        · obtain ⟨t', hm⟩ := hm
          have hacc := C31_accept hd hroom ht hm
          obtain ⟨t2, e2, h2, h3⟩ := C28_range hd hhour hacc
          obtain ⟨o2, codes, g1, g2⟩ := ih { h with parent := .date ⟨o.count + 1, o.tmval.set o.count t2⟩ } _
            (dateEntry_set hd (q := ⟨o.count + 1, o.tmval.set o.count t2⟩) (by dsimp only; omega)
              (by rw [List.length_set]; exact hlen))
            (by
              intro t ht
              rcases List.mem_or_eq_of_mem_set ht with ht | rfl
              · exact hhour t ht
              · exact h2)
            (by
              intro i hi
              dsimp only at hi ⊢
              by_cases hio : i = o.count
              · subst hio
                exact ⟨t2, by rw [List.getElem?_set_self hlt], h3⟩
              · rw [List.getElem?_set_ne (Ne.symm hio)]
                exact hr i (by omega))
          refine ⟨o2, 0 :: codes, ?_, g2⟩
          rw [giveAll, hacc, bind_ok]
          dsimp only
          rw [e2, g1]
          rfl
        · exact hrej _ (C31_reject hd hroom ht hm)
      · refine hrej ARG_ERR_MAXCOUNT ?_
        rw [he, hgv]
        unfold dateScan
        rw [if_pos (by omega)]
        rfl
  exact gen as h _ hd (fun t ht => by rw [List.eq_of_mem_replicate ht])
    (fun i hi => absurd hi (Nat.not_lt_zero i))

/-- Three arguments for an `arg_date` with the format `%H:%M`: accepted, out of range, accepted. -/
example : ∃ h, argDaten Demo.lc (some (cs "t")) none (some (cs "%H:%M")) none 0 2 none = .ok h ∧
    giveAll h [cs "23:59", cs "24:00", cs "7:5"] =
      .ok (.date ⟨2, [{ hour := 23, min := 59 }, { hour := 7, min := 5 }]⟩, [0, ARG_ERR_BADDATE, 0]) ∧
    writesFmt (cs "%H:%M") = [.hour, .min] :=
  ⟨_, rfl, by with_unfolding_all rfl, by decide +kernel⟩

/-- C28.  If the cell holds a negative hour (which only the application can have put there), then `%p` can
leave it out of range. -/
theorem C28_negative_hour : Matches (cs "%p") (cs "am") { hour := -1 } { hour := -1 } ∧
    Fld.hour ∈ writesFmt (cs "%p") ∧ ¬ InRange .hour (-1) :=
  ⟨⟨false, .item _ [] none 'p' _ [] _ _ _ _ _ false _ (.plain 'p' [] (by decide) (by decide))
      (.am _ _ _ (by unfold SameText; decide +kernel) (by decide)) (.done _ _ _)⟩,
    by decide +kernel, fun h => absurd h.1 (by decide)⟩

/-! ## C29: round trip -/

/-- C29.  A date that is written in a format is read back: the text matches as a whole, the members that the
format mentions get the values of that date, and the others keep theirs. -/
theorem C29_roundtrip {fmt s : CStr} {t : Tm} (h : Renders fmt t s) (t0 : Tm) :
    ∃ t', Matches fmt s t0 t' ∧ (∀ f ∈ writesFmt fmt, t'.fld f = t.fld f) ∧
      ∀ f, f ∉ writesFmt fmt → t'.fld f = t0.fld f := by
  obtain ⟨t', k', h1, h2, _⟩ := shows_reads h [] t0 false (fun h => by cases h)
  rw [List.append_nil] at h1
  exact ⟨t', ⟨k', h1⟩, fun f hf => by rw [h2 f, if_pos hf], fun f hf => by rw [h2 f, if_neg hf]⟩

/-- C29.  `YYYY-MM-DD`: year `y`, month `m` and day `d`, written with four, two and two digits, are stored
by an `arg_date` with the format `%Y-%m-%d`. -/
theorem C29_ymd {h : Hdr (Obj δ)} {o : DateObj} (hd : DateEntry lc (cs "%Y-%m-%d") h o) {t : Tm}
    (hroom : (o.count : Int) < h.maxcount) (ht : o.tmval[o.count]? = some t)
    {y m d : Int} {wy wm wd : CStr} (hy : Padded 4 wy y) (hm : Padded 2 wm m) (hdd : Padded 2 wd d)
    (y0 : 0 ≤ y) (y1 : y ≤ 9999) (m0 : 1 ≤ m) (m1 : m ≤ 12) (d0 : 1 ≤ d) (d1 : d ≤ 31) :
    give h (some (wy ++ '-' :: (wm ++ '-' :: wd))) =
      .ok (.date ⟨o.count + 1, o.tmval.set o.count { t with year := y - 1900, mon := m - 1, mday := d }⟩, 0) := by
  have hs : Renders (cs "%Y-%m-%d") { t with year := y - 1900, mon := m - 1, mday := d }
      (wy ++ '-' :: (wm ++ '-' :: (wd ++ []))) :=
    .item _ (cs "-%m-%d") none 'Y' _ _ _ (.plain 'Y' _ (by decide) (by decide)) (Or.inl rfl)
      (.year _ _ (by dsimp only; omega) (by dsimp only; omega) (by dsimp only; rw [Int.sub_add_cancel]; exact hy))
      (.char '-' (cs "%m-%d") _ _ (by decide) (by decide)
        (.item _ (cs "-%d") none 'm' _ _ _ (.plain 'm' _ (by decide) (by decide)) (Or.inl rfl)
          (.mon _ _ ⟨by dsimp only; omega, by dsimp only; omega⟩ (by dsimp only; rw [Int.sub_add_cancel]; exact hm))
          (.char '-' (cs "%d") _ _ (by decide) (by decide)
            (.item _ [] none 'd' _ _ _ (.plain 'd' _ (by decide) (by decide)) (Or.inl rfl)
              (.mday 'd' _ _ (Or.inl rfl) ⟨d0, d1⟩ hdd) (.done _)))))
  rw [List.append_nil] at hs
  obtain ⟨t', h1, h2, h3⟩ := C29_roundtrip hs t
  have hw : writesFmt (cs "%Y-%m-%d") = [.year, .mon, .mday] := by decide +kernel
  rw [hw] at h2 h3
  have e : t' = { t with year := y - 1900, mon := m - 1, mday := d } := by
    apply Tm.ext_fld
    intro f
    by_cases hf : f ∈ [Fld.year, .mon, .mday]
    · exact h2 f hf
    · rw [h3 f hf]; cases f <;> first | rfl | exact absurd (by decide) hf
  rw [← e]
  exact C31_accept hd hroom ht h1

/-- C29.  `HH:MM:SS` with the format `%H:%M:%S`. -/
theorem C29_hms {h : Hdr (Obj δ)} {o : DateObj} (hd : DateEntry lc (cs "%H:%M:%S") h o) {t : Tm}
    (hroom : (o.count : Int) < h.maxcount) (ht : o.tmval[o.count]? = some t)
    {hh mm ss : Int} {wh wm ws : CStr} (hw1 : Padded 2 wh hh) (hw2 : Padded 2 wm mm) (hw3 : Padded 2 ws ss)
    (h0 : 0 ≤ hh) (h1 : hh ≤ 23) (m0 : 0 ≤ mm) (m1 : mm ≤ 59) (s0 : 0 ≤ ss) (s1 : ss ≤ 61) :
    give h (some (wh ++ ':' :: (wm ++ ':' :: ws))) =
      .ok (.date ⟨o.count + 1, o.tmval.set o.count { t with hour := hh, min := mm, sec := ss }⟩, 0) := by
  have hs : Renders (cs "%H:%M:%S") { t with hour := hh, min := mm, sec := ss }
      (wh ++ ':' :: (wm ++ ':' :: (ws ++ []))) :=
    .item _ (cs ":%M:%S") none 'H' _ _ _ (.plain 'H' _ (by decide) (by decide)) (Or.inl rfl)
      (.hour 'H' _ _ (Or.inl rfl) ⟨h0, h1⟩ hw1)
      (.char ':' (cs "%M:%S") _ _ (by decide) (by decide)
        (.item _ (cs ":%S") none 'M' _ _ _ (.plain 'M' _ (by decide) (by decide)) (Or.inl rfl)
          (.min _ _ ⟨m0, m1⟩ hw2)
          (.char ':' (cs "%S") _ _ (by decide) (by decide)
            (.item _ [] none 'S' _ _ _ (.plain 'S' _ (by decide) (by decide)) (Or.inl rfl)
              (.sec _ _ ⟨s0, s1⟩ hw3) (.done _)))))
  rw [List.append_nil] at hs
  obtain ⟨t', g1, h2, h3⟩ := C29_roundtrip hs t
  have hw : writesFmt (cs "%H:%M:%S") = [.hour, .min, .sec] := by decide +kernel
  rw [hw] at h2 h3
  have e : t' = { t with hour := hh, min := mm, sec := ss } := by
    apply Tm.ext_fld
    intro f
    by_cases hf : f ∈ [Fld.hour, .min, .sec]
    · exact h2 f hf
    · rw [h3 f hf]; cases f <;> first | rfl | exact absurd (by decide) hf
  rw [← e]
  exact C31_accept hd hroom ht g1

/-- C29.  `MM/DD/YY` for the years 1969 to 2068 with the default format `%x`. -/
theorem C29_mdy {h : Hdr (Obj δ)} {o : DateObj} (hd : DateEntry lc (cs "%x") h o) {t : Tm}
    (hroom : (o.count : Int) < h.maxcount) (ht : o.tmval[o.count]? = some t)
    {y m d : Int} {wy wm wd : CStr} (hy : Padded 2 wy (y % 100)) (hm : Padded 2 wm m) (hdd : Padded 2 wd d)
    (y0 : 1969 ≤ y) (y1 : y ≤ 2068) (m0 : 1 ≤ m) (m1 : m ≤ 12) (d0 : 1 ≤ d) (d1 : d ≤ 31) :
    give h (some (wm ++ '/' :: (wd ++ '/' :: wy))) =
      .ok (.date ⟨o.count + 1, o.tmval.set o.count { t with year := y - 1900, mon := m - 1, mday := d }⟩, 0) := by
  have hs : Renders (cs "%m/%d/%y") { t with year := y - 1900, mon := m - 1, mday := d }
      (wm ++ '/' :: (wd ++ '/' :: (wy ++ []))) :=
    .item _ (cs "/%d/%y") none 'm' _ _ _ (.plain 'm' _ (by decide) (by decide)) (Or.inl rfl)
      (.mon _ _ ⟨by dsimp only; omega, by dsimp only; omega⟩ (by dsimp only; rw [Int.sub_add_cancel]; exact hm))
      (.char '/' (cs "%d/%y") _ _ (by decide) (by decide)
        (.item _ (cs "/%y") none 'd' _ _ _ (.plain 'd' _ (by decide) (by decide)) (Or.inl rfl)
          (.mday 'd' _ _ (Or.inl rfl) ⟨d0, d1⟩ hdd)
          (.char '/' (cs "%y") _ _ (by decide) (by decide)
            (.item _ [] none 'y' _ _ _ (.plain 'y' _ (by decide) (by decide)) (Or.inl rfl)
              (.yy _ _ (by dsimp only; omega) (by dsimp only; omega) (by
                dsimp only
                have : (y - 1900) % 100 = y % 100 := by omega
                rw [this]; exact hy)) (.done _)))))
  rw [List.append_nil] at hs
  have hx : Renders (cs "%x") { t with year := y - 1900, mon := m - 1, mday := d }
      ((wm ++ '/' :: (wd ++ '/' :: wy)) ++ []) :=
    .group _ [] _ none 'x' _ _ _ (.plain 'x' _ (by decide) (by decide)) (Or.inl rfl) .x hs (.done _)
  rw [List.append_nil] at hx
  obtain ⟨t', g1, h2, h3⟩ := C29_roundtrip hx t
  have hw : writesFmt (cs "%x") = [.mon, .mday, .year] := by decide +kernel
  rw [hw] at h2 h3
  have e : t' = { t with year := y - 1900, mon := m - 1, mday := d } := by
    apply Tm.ext_fld
    intro f
    by_cases hf : f ∈ [Fld.mon, .mday, .year]
    · exact h2 f hf
    · rw [h3 f hf]; cases f <;> first | rfl | exact absurd (by decide) hf
  rw [← e]
  exact C31_accept hd hroom ht g1

/-- 2024-02-29, and the digits it is written with. -/
theorem Demo.leap_day : Padded 4 (cs "2024") 2024 ∧ Padded 2 (cs "02") 2 ∧ Padded 2 (cs "29") 29 := by
  refine ⟨⟨2024, rfl, (numeral_iff _ _).2 ⟨?_, ?_, ?_⟩, rfl⟩, ⟨2, rfl, (numeral_iff _ _).2 ⟨?_, ?_, ?_⟩, rfl⟩,
    ⟨29, rfl, (numeral_iff _ _).2 ⟨?_, ?_, ?_⟩, rfl⟩⟩ <;> decide +kernel

/-- The second date of an `arg_date` with the format `%Y-%m-%d`, over one that was stored earlier. -/
example : ∃ h : Hdr (Obj Unit), DateEntry Demo.lc (cs "%Y-%m-%d") h ⟨1, [{ mday := 7 }, { year := 80, hour := 3 }]⟩ ∧
    give h (some (cs "2024-02-29")) =
      .ok (.date ⟨2, [{ mday := 7 }, { year := 124, mon := 1, mday := 29, hour := 3 }]⟩, 0) := by
  have hd : DateEntry Demo.lc (cs "%Y-%m-%d") { Demo.made (argDaten Demo.lc (some (cs "d")) none (some (cs "%Y-%m-%d")) none 0 2 none)
      with parent := .date ⟨1, [{ mday := 7 }, { year := 80, hour := 3 }]⟩ } ⟨1, [{ mday := 7 }, { year := 80, hour := 3 }]⟩ :=
    .mk (some (cs "d")) none (some (cs "%Y-%m-%d")) none 0 2 none _ false _ rfl (by decide) rfl
  obtain ⟨p1, p2, p3⟩ := Demo.leap_day
  have hs : cs "2024-02-29" = cs "2024" ++ '-' :: (cs "02" ++ '-' :: cs "29") := by decide
  rw [hs]
  exact ⟨_, hd, C29_ymd hd (by decide) rfl p1 p2 p3 (by decide) (by decide) (by decide) (by decide) (by decide) (by decide)⟩

/-! ## C30: two-digit years -/

/-- C30.  Two digits read by `%y` stand for a year from 1969 to 2068. -/
theorem C30_pivot_partial {w : CStr} {n : Nat} (hw : Padded 2 w n) (t : Tm) :
    ∃ y : Int, 1969 ≤ y ∧ y ≤ 2068 ∧ y % 100 = n ∧ Matches (cs "%y") w t { t with year := y - 1900 } := by
  obtain ⟨m, h1, h2, h3⟩ := id hw
  have hmn : m = n := by omega
  subst hmn
  have hlt : m ≤ 99 := by
    obtain ⟨_, hd, hv⟩ := (numeral_iff w m).1 h2
    match w, h3 with
    | [a, b], _ =>
      have ha := hd a (by simp)
      have hb := hd b (by simp)
      unfold isDigit at ha hb
      rw [Bool.and_eq_true, decide_eq_true_iff, decide_eq_true_iff] at ha hb
      have : a.toNat ≤ 57 := ha.2
      have : b.toNat ≤ 57 := hb.2
      rw [valFrom_cons, valFrom_cons] at hv
      change m = (0 * 10 + (a.toNat - 48)) * 10 + (b.toNat - 48) at hv
      omega
  have hnum : Number 0 99 (w ++ []) m [] := padded_number hw rfl (by omega) hlt (by decide +kernel)
  rw [List.append_nil] at hnum
  by_cases h69 : 69 ≤ m
  · refine ⟨m + 1900, by omega, by omega, by omega, true, ?_⟩
    have e : ((m : Int) + 1900 - 1900) = m := by omega
    rw [e]
    exact .item _ [] none 'y' _ _ _ _ _ _ _ _ _ (.plain 'y' _ (by decide) (by decide))
      (.number _ _ _ _ m _ _ _ _ _ _ (Or.inl rfl) hnum (.old m t h69)) (.done _ _ _)
  · refine ⟨m + 2000, by omega, by omega, by omega, true, ?_⟩
    have e : ((m : Int) + 2000 - 1900) = m + 100 := by omega
    rw [e]
    exact .item _ [] none 'y' _ _ _ _ _ _ _ _ _ (.plain 'y' _ (by decide) (by decide))
      (.number _ _ _ _ m _ _ _ _ _ _ (Or.inl rfl) hnum (.new m t (by omega))) (.done _ _ _)

example (t : Tm) : Matches (cs "%y") (cs "29") t { t with year := 129 } := by
  obtain ⟨y, h1, h2, h3, h4⟩ := C30_pivot_partial (n := 29) Demo.leap_day.2.2 t
  obtain rfl : y = 2029 := by omega
  exact h4

/-- C30, the other half is false: with `%C%y`, the century `c` and the year `n` give the member `tm_year`
the value `100 c + n`, not `100 c + n - 1900`. -/
theorem C30_century_off {wc wy : CStr} {c n : Nat} (hc : Padded 2 wc c) (hy : Padded 2 wy n) (hc9 : c ≤ 99) (hn9 : n ≤ 99)
    (t : Tm) : Matches (cs "%C%y") (wc ++ wy) t { t with year := 100 * c + n } ∧
    ¬ Matches (cs "%C%y") (wc ++ wy) t { t with year := 100 * c + n - 1900 } := by
  have h : Matches (cs "%C%y") (wc ++ wy) t { t with year := 100 * c + n } := by
    have n1 : Number 0 99 (wc ++ wy) c wy := padded_number hc rfl (by omega) hc9 (by decide +kernel)
    have n2 : Number 0 99 (wy ++ []) n [] := padded_number hy rfl (by omega) hn9 (by decide +kernel)
    rw [List.append_nil] at n2
    have hr := Reads.item (cs "%C%y") (cs "%y") none 'C' _ _ _ _ _ _ _ _ _ (.plain 'C' _ (by decide) (by decide))
      (.number _ _ _ _ c _ _ _ _ _ _ (Or.inl rfl) n1 (.century c t))
      (.item _ [] none 'y' _ _ _ _ _ _ _ _ _ (.plain 'y' _ (by decide) (by decide))
      (.number _ _ _ _ n _ _ _ _ _ _ (Or.inl rfl) n2 (.yearAfter n _)) (.done _ _ _))
    have e : ((c : Int) * 100).tdiv 100 * 100 + n = 100 * c + n := by
      rw [Int.mul_tdiv_cancel _ (by decide)]; omega
    dsimp only at hr
    rw [e] at hr
    exact ⟨true, hr⟩
  refine ⟨h, fun h2 => ?_⟩
  have := congrArg Tm.year (C31_unique h h2)
  dsimp only at this
  omega

/-- With `%C%y`, `0229` is stored as 229 years after 1900. -/
example (t : Tm) : Matches (cs "%C%y") (cs "0229") t { t with year := 229 } :=
  (C30_century_off (c := 2) (n := 29) Demo.leap_day.2.1 Demo.leap_day.2.2 (by decide) (by decide) t).1

end Argtable
