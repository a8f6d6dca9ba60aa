import Verif.Spec.Sample
import Verif.Proofs.DateRange
/-!
# The sample date in messages (C72)
-/

namespace Argtable

open Spec

theorem convLoop_stop (ulim r : Nat) (s : CStr) : convLoop ulim r 0 s = (r, s) := by
  cases s <;> simp [convLoop]

/-- What one conversion does: it prints `a :: w`, and reading that leaves the text after it. -/
def ReadsBack (e o : Bool) (c : Char) : Prop :=
  ∃ a w, printConv {} c = some (a :: w) ∧ isSpace a = false ∧ ∀ S tm k, ∃ tm' k',
    convSpec (subN 2) e o c ⟨a :: (w ++ S), tm, k⟩ = some ⟨S, tm', k'⟩ ∧ (tm.hour ≤ 11 → tm'.hour ≤ 11)

theorem num_H (s : CStr) : convNum ('0' :: '0' :: s) 0 23 = some (0, s) := by
  simp [convNum, convLoop, isDigit, convLoop_stop]

theorem readsBack_H (o : Bool) : ReadsBack false o 'H' :=
  ⟨'0', ['0'], by decide +kernel, by decide, fun S tm k => ⟨{ tm with hour := 0 }, k, by
    cases o <;> simp [convSpec, num_H], fun h => by simpa using h⟩⟩

theorem num_I (s : CStr) : convNum ('1' :: '2' :: s) 1 12 = some (12, s) := by
  simp [convNum, convLoop, isDigit, convLoop_stop]

theorem readsBack_I (o : Bool) : ReadsBack false o 'I' :=
  ⟨'1', ['2'], by decide +kernel, by decide, fun S tm k => ⟨{ tm with hour := 0 }, k, by
    cases o <;> simp [convSpec, num_I], fun h => by simpa using h⟩⟩

theorem num_j (s : CStr) : convNum ('0' :: '0' :: '1' :: s) 1 366 = some (1, s) := by
  simp [convNum, convLoop, isDigit, convLoop_stop]

theorem readsBack_j  : ReadsBack false false 'j' :=
  ⟨'0', ['0', '1'], by decide +kernel, by decide, fun S tm k => ⟨{ tm with yday := 0 }, k, by
    simp [convSpec, num_j], fun h => by simpa using h⟩⟩

theorem num_m (s : CStr) : convNum ('0' :: '1' :: s) 1 12 = some (1, s) := by
  simp [convNum, convLoop, isDigit, convLoop_stop]

theorem readsBack_m (o : Bool) : ReadsBack false o 'm' :=
  ⟨'0', ['1'], by decide +kernel, by decide, fun S tm k => ⟨{ tm with mon := 0 }, k, by
    cases o <;> simp [convSpec, num_m], fun h => by simpa using h⟩⟩

theorem num_M (s : CStr) : convNum ('0' :: '0' :: s) 0 59 = some (0, s) := by
  simp [convNum, convLoop, isDigit, convLoop_stop]

theorem readsBack_M (o : Bool) : ReadsBack false o 'M' :=
  ⟨'0', ['0'], by decide +kernel, by decide, fun S tm k => ⟨{ tm with min := 0 }, k, by
    cases o <;> simp [convSpec, num_M], fun h => by simpa using h⟩⟩

theorem num_S (s : CStr) : convNum ('0' :: '0' :: s) 0 61 = some (0, s) := by
  simp [convNum, convLoop, isDigit, convLoop_stop]

theorem readsBack_S (o : Bool) : ReadsBack false o 'S' :=
  ⟨'0', ['0'], by decide +kernel, by decide, fun S tm k => ⟨{ tm with sec := 0 }, k, by
    cases o <;> simp [convSpec, num_S], fun h => by simpa using h⟩⟩

theorem num_U (s : CStr) : convNum ('0' :: '1' :: s) 0 53 = some (1, s) := by
  simp [convNum, convLoop, isDigit, convLoop_stop]

theorem readsBack_U (o : Bool) : ReadsBack false o 'U' :=
  ⟨'0', ['1'], by decide +kernel, by decide, fun S tm k => ⟨tm, k, by
    cases o <;> simp [convSpec, num_U], fun h => by simpa using h⟩⟩

theorem num_W (s : CStr) : convNum ('0' :: '0' :: s) 0 53 = some (0, s) := by
  simp [convNum, convLoop, isDigit, convLoop_stop]

theorem readsBack_W (o : Bool) : ReadsBack false o 'W' :=
  ⟨'0', ['0'], by decide +kernel, by decide, fun S tm k => ⟨tm, k, by
    cases o <;> simp [convSpec, num_W], fun h => by simpa using h⟩⟩

theorem num_w (s : CStr) : convNum ('0' :: s) 0 6 = some (0, s) := by
  simp [convNum, isDigit, convLoop_stop]

theorem readsBack_w (o : Bool) : ReadsBack false o 'w' :=
  ⟨'0', [], by decide +kernel, by decide, fun S tm k => ⟨{ tm with wday := 0 }, k, by
    cases o <;> simp [convSpec, num_w], fun h => by simpa using h⟩⟩

theorem num_Y (s : CStr) : convNum ('1' :: '9' :: '0' :: '0' :: s) 0 9999 = some (1900, s) := by
  simp [convNum, convLoop, isDigit, convLoop_stop]

theorem readsBack_Y (e : Bool) : ReadsBack e false 'Y' :=
  ⟨'1', ['9', '0', '0'], by decide +kernel, by decide, fun S tm k => ⟨{ tm with year := 0 }, k, by
    cases e <;> simp [convSpec, num_Y], fun h => by simpa using h⟩⟩

theorem num_C (s : CStr) : convNum ('1' :: '9' :: s) 0 99 = some (19, s) := by
  simp [convNum, convLoop, isDigit, convLoop_stop]

theorem readsBack_C (e : Bool) : ReadsBack e false 'C' :=
  ⟨'1', ['9'], by decide +kernel, by decide, fun S tm k => by
    cases k <;> cases e <;> simp [convSpec, num_C]⟩

theorem num_y (s : CStr) : convNum ('0' :: '0' :: s) 0 99 = some (0, s) := by
  simp [convNum, convLoop, isDigit, convLoop_stop]

theorem readsBack_y (e o : Bool) : ReadsBack e o 'y' :=
  ⟨'0', ['0'], by decide +kernel, by decide, fun S tm k => by
    cases k <;> cases e <;> cases o <;> simp [convSpec, num_y]⟩

theorem readsBack_percent : ReadsBack false false '%' :=
  ⟨'%', [], by decide +kernel, by decide, fun S tm k => ⟨tm, k, by simp [convSpec], id⟩⟩

/-! ### conversions that stand for a format -/

theorem loop_num {sub : Sub} {c : Char} (hE : c ≠ 'E') (hO : c ≠ 'O') {s s' : PState} (fmt : CStr)
    (h : convSpec sub false false c s = some s') : strptimeLoop sub ('%' :: c :: fmt) s = strptimeLoop sub fmt s' := by
  rw [loop_conv hE hO, h]; rfl

theorem loop_lit {sub : Sub} {a : Char} (h1 : isSpace a = false) (h2 : a ≠ '%') (fmt bp : CStr) (tm : Tm) (k : Bool) :
    strptimeLoop sub (a :: fmt) ⟨a :: bp, tm, k⟩ = strptimeLoop sub fmt ⟨bp, tm, k⟩ := by
  rw [strptimeLoop.eq_def]
  simp [h1, h2]

theorem hm_reads (S : CStr) (tm : Tm) : subN 2 (cs "00:00" ++ S) (cs "%H:%M") tm =
    some (S, { tm with hour := 0, min := 0 }) := by
  change strptimeWith (subN 1) ('0' :: '0' :: ':' :: '0' :: '0' :: S) ['%', 'H', ':', '%', 'M'] tm = _
  unfold strptimeWith
  rw [loop_num (by decide) (by decide) _ (s' := ⟨':' :: '0' :: '0' :: S, { tm with hour := 0 }, false⟩)
      (by simp [convSpec, num_H]), loop_lit (by decide) (by decide),
    loop_num (by decide) (by decide) _ (s' := ⟨S, { tm with hour := 0, min := 0 }, false⟩) (by simp [convSpec, num_M])]
  rfl

theorem hms_reads (S : CStr) (tm : Tm) : subN 2 (cs "00:00:00" ++ S) (cs "%H:%M:%S") tm =
    some (S, { tm with hour := 0, min := 0, sec := 0 }) := by
  change strptimeWith (subN 1) ('0' :: '0' :: ':' :: '0' :: '0' :: ':' :: '0' :: '0' :: S)
    ['%', 'H', ':', '%', 'M', ':', '%', 'S'] tm = _
  unfold strptimeWith
  rw [loop_num (by decide) (by decide) _ (s' := ⟨':' :: '0' :: '0' :: ':' :: '0' :: '0' :: S, { tm with hour := 0 }, false⟩)
      (by simp [convSpec, num_H]), loop_lit (by decide) (by decide),
    loop_num (by decide) (by decide) _ (s' := ⟨':' :: '0' :: '0' :: S, { tm with hour := 0, min := 0 }, false⟩)
      (by simp [convSpec, num_M]), loop_lit (by decide) (by decide),
    loop_num (by decide) (by decide) _ (s' := ⟨S, { tm with hour := 0, min := 0, sec := 0 }, false⟩)
      (by simp [convSpec, num_S])]
  rfl

theorem half_reads (tm : Tm) : subN 2 (cs "12:00:00 AM") (cs "%I:%M:%S %p") tm =
    some ([], { tm with hour := 0, min := 0, sec := 0 }) := by
  change strptimeWith (subN 1) ('1' :: '2' :: ':' :: '0' :: '0' :: ':' :: '0' :: '0' :: ' ' :: cs "AM")
    ['%', 'I', ':', '%', 'M', ':', '%', 'S', ' ', '%', 'p'] tm = _
  unfold strptimeWith
  rw [loop_num (by decide) (by decide) _
      (s' := ⟨':' :: '0' :: '0' :: ':' :: '0' :: '0' :: ' ' :: cs "AM", { tm with hour := 0 }, false⟩)
      (by simp [convSpec, num_I]), loop_lit (by decide) (by decide),
    loop_num (by decide) (by decide) _ (s' := ⟨':' :: '0' :: '0' :: ' ' :: cs "AM", { tm with hour := 0, min := 0 }, false⟩)
      (by simp [convSpec, num_M]), loop_lit (by decide) (by decide),
    loop_num (by decide) (by decide) _ (s' := ⟨' ' :: cs "AM", { tm with hour := 0, min := 0, sec := 0 }, false⟩)
      (by simp [convSpec, num_S])]
  have hs : ∀ s : PState, strptimeLoop (subN 1) [' ', '%', 'p'] s =
      strptimeLoop (subN 1) ['%', 'p'] { s with bp := s.bp.dropWhile isSpace } := fun s => by
    rw [strptimeLoop.eq_def]; simp [isSpace]
  rw [hs]
  dsimp only
  rw [show (' ' :: cs "AM").dropWhile isSpace = cs "AM" from by decide,
    loop_num (by decide) (by decide) _ (s' := ⟨[], { tm with hour := 0, min := 0, sec := 0 }, false⟩) (by
      simp [convSpec, show strcasecmpEq (cs "AM") (cs "AM") = true from by decide,
        show (cs "AM").drop 2 = [] from by decide])]
  rfl

theorem readsBack_R : ReadsBack false false 'R' :=
  ⟨'0', cs "0:00", by decide +kernel, by decide, fun S tm k => ⟨{ tm with hour := 0, min := 0 }, k, by
    have h : convSpec (subN 2) false false 'R' ⟨cs "00:00" ++ S, tm, k⟩ =
      (subN 2 (cs "00:00" ++ S) (cs "%H:%M") tm).map fun (bp, tm) => ⟨bp, tm, k⟩ := by simp [convSpec]
    exact h.trans (by rw [hm_reads]; rfl), fun _ => by simp⟩⟩

theorem readsBack_T : ReadsBack false false 'T' :=
  ⟨'0', cs "0:00:00", by decide +kernel, by decide, fun S tm k => ⟨{ tm with hour := 0, min := 0, sec := 0 }, k, by
    have h : convSpec (subN 2) false false 'T' ⟨cs "00:00:00" ++ S, tm, k⟩ =
      (subN 2 (cs "00:00:00" ++ S) (cs "%H:%M:%S") tm).map fun (bp, tm) => ⟨bp, tm, k⟩ := by simp [convSpec]
    exact h.trans (by rw [hms_reads]; rfl), fun _ => by simp⟩⟩

theorem readsBack_X (e : Bool) : ReadsBack e false 'X' :=
  ⟨'0', cs "0:00:00", by decide +kernel, by decide, fun S tm k => ⟨{ tm with hour := 0, min := 0, sec := 0 }, k, by
    have h : convSpec (subN 2) e false 'X' ⟨cs "00:00:00" ++ S, tm, k⟩ =
      (subN 2 (cs "00:00:00" ++ S) (cs "%H:%M:%S") tm).map fun (bp, tm) => ⟨bp, tm, k⟩ := by simp [convSpec]
    exact h.trans (by rw [hms_reads]; rfl), fun _ => by simp⟩⟩

/-- The conversions to numbers print a text that they read back. -/
theorem readsBack {m : Option Char} {e o : Bool} (hm : Mode m e o) {c : Char} (hok : ModOk m c)
    (hc : c ∈ cs "HIjmMSUwWyYC%RTX") : ReadsBack e o c := by
  have hcases : ∀ P : Char → Prop, (∀ c ∈ cs "HIjmMSUwWyYC%RTX", P c) → P c := fun P h => h c hc
  revert hok
  revert hc
  refine hcases (fun c => c ∈ cs "HIjmMSUwWyYC%RTX" → ModOk m c → ReadsBack e o c) ?_
  simp only [show cs "HIjmMSUwWyYC%RTX" = ['H', 'I', 'j', 'm', 'M', 'S', 'U', 'w', 'W', 'y', 'Y', 'C', '%', 'R', 'T', 'X']
    from by decide, List.forall_mem_cons]
  cases hm with
  | plain =>
    exact ⟨fun _ _ => readsBack_H _, fun _ _ => readsBack_I _, fun _ _ => readsBack_j, fun _ _ => readsBack_m _,
      fun _ _ => readsBack_M _, fun _ _ => readsBack_S _, fun _ _ => readsBack_U _, fun _ _ => readsBack_w _,
      fun _ _ => readsBack_W _, fun _ _ => readsBack_y _ _, fun _ _ => readsBack_Y _, fun _ _ => readsBack_C _,
      fun _ _ => readsBack_percent, fun _ _ => readsBack_R, fun _ _ => readsBack_T, fun _ _ => readsBack_X _,
      fun c hc => by cases hc⟩
  | E =>
    have no : ∀ c, c ∉ ['c', 'C', 'X', 'x', 'Y', 'y'] → ¬ ModOk (some 'E') c := by
      rintro c hc (h | h | h)
      · cases h
      · exact hc h.2
      · exact absurd h.1 (by decide)
    exact ⟨fun _ h => absurd h (no _ (by decide)), fun _ h => absurd h (no _ (by decide)),
      fun _ h => absurd h (no _ (by decide)), fun _ h => absurd h (no _ (by decide)),
      fun _ h => absurd h (no _ (by decide)), fun _ h => absurd h (no _ (by decide)),
      fun _ h => absurd h (no _ (by decide)), fun _ h => absurd h (no _ (by decide)),
      fun _ h => absurd h (no _ (by decide)), fun _ _ => readsBack_y _ _, fun _ _ => readsBack_Y _,
      fun _ _ => readsBack_C _, fun _ h => absurd h (no _ (by decide)), fun _ h => absurd h (no _ (by decide)),
      fun _ h => absurd h (no _ (by decide)), fun _ _ => readsBack_X _, fun c hc => by cases hc⟩
  | O =>
    have no : ∀ c, c ∉ ['d', 'e', 'H', 'I', 'M', 'm', 'S', 'U', 'W', 'w', 'y'] → ¬ ModOk (some 'O') c := by
      rintro c hc (h | h | h)
      · cases h
      · exact absurd h.1 (by decide)
      · exact hc h.2
    exact ⟨fun _ _ => readsBack_H _, fun _ _ => readsBack_I _, fun _ h => absurd h (no _ (by decide)),
      fun _ _ => readsBack_m _, fun _ _ => readsBack_M _, fun _ _ => readsBack_S _, fun _ _ => readsBack_U _,
      fun _ _ => readsBack_w _, fun _ _ => readsBack_W _, fun _ _ => readsBack_y _ _,
      fun _ h => absurd h (no _ (by decide)), fun _ h => absurd h (no _ (by decide)),
      fun _ h => absurd h (no _ (by decide)), fun _ h => absurd h (no _ (by decide)),
      fun _ h => absurd h (no _ (by decide)), fun _ h => absurd h (no _ (by decide)), fun c hc => by cases hc⟩

/-! ### formats -/

theorem printFmt_directive {conv : Char → Option CStr} {fmt fmt' : CStr} {m : Option Char} {c : Char}
    (h : Directive fmt m c fmt') : printFmt conv fmt = (conv c).bind fun w => (printFmt conv fmt').map (w ++ ·) := by
  cases h with
  | plain c f h1 h2 => rw [printFmt.eq_def]; simp [h1, h2]
  | modified m c f h1 _ _ => rw [printFmt.eq_def]; simp [h1]

theorem printFmt_char {conv : Char → Option CStr} {a : Char} (h : a ≠ '%') (fmt : CStr) :
    printFmt conv (a :: fmt) = (printFmt conv fmt).map (a :: ·) := by
  rw [printFmt.eq_def]; simp [h]

/-- What is printed for a format that is set apart starts with no letter or digit. -/
theorem apart_prints {conv : Char → Option CStr} {fmt S : CStr} (h : SetApart fmt) (hS : printFmt conv fmt = some S) :
    S = [] ∨ ∃ a S', S = a :: S' ∧ isAlnum a = false := by
  rcases h with rfl | ⟨a, f, rfl, h1, h2⟩
  · left; rw [printFmt] at hS; cases hS; rfl
  · right
    rw [printFmt_char h2] at hS
    obtain ⟨S', _, rfl⟩ := map_some_inv hS
    exact ⟨a, S', rfl, h1⟩

theorem toLower_alnum {a : Char} (h : isAlnum a = false) (d : Char) (hd : isAlnum (toLower d) = true) :
    toLower d ≠ toLower a := by
  intro he
  rw [he] at hd
  unfold toLower at hd
  split at hd
  · rename_i hu
    have : isAlnum a = true := by
      unfold isAlnum isAlpha
      simp only [hu, Bool.or_true, Bool.true_or]
    rw [h] at this; cases this
  · rw [h] at hd; cases hd

/-- A name in full, or abbreviated and set apart. -/
theorem findName_sunday (S : CStr) : findName (cs "Sunday" ++ S) dayNames abdayNames 0 = some (0, 6) := by
  change findName ('S' :: 'u' :: 'n' :: 'd' :: 'a' :: 'y' :: S) _ _ 0 = _
  simp [dayNames, abdayNames, findName, cs, strncasecmpEq]

theorem findName_january (S : CStr) : findName (cs "January" ++ S) monNames abmonNames 0 = some (0, 7) := by
  change findName ('J' :: 'a' :: 'n' :: 'u' :: 'a' :: 'r' :: 'y' :: S) _ _ 0 = _
  simp [monNames, abmonNames, findName, cs, strncasecmpEq]

theorem findName_sun {S : CStr} (h : S = [] ∨ ∃ a S', S = a :: S' ∧ isAlnum a = false) :
    findName (cs "Sun" ++ S) dayNames abdayNames 0 = some (0, 3) := by
  rcases h with rfl | ⟨a, S, rfl, ha⟩
  · decide +kernel
  · have : toLower 'd' ≠ toLower a := toLower_alnum ha _ (by decide)
    change findName ('S' :: 'u' :: 'n' :: a :: S) _ _ 0 = _
    simp [dayNames, abdayNames, findName, cs, strncasecmpEq, this]

theorem findName_jan {S : CStr} (h : S = [] ∨ ∃ a S', S = a :: S' ∧ isAlnum a = false) :
    findName (cs "Jan" ++ S) monNames abmonNames 0 = some (0, 3) := by
  rcases h with rfl | ⟨a, S, rfl, ha⟩
  · decide +kernel
  · have : toLower 'u' ≠ toLower a := toLower_alnum ha _ (by decide)
    change findName ('J' :: 'a' :: 'n' :: a :: S) _ _ 0 = _
    simp [monNames, abmonNames, findName, cs, strncasecmpEq, this]

/-- Names print a text that they read back. -/
theorem name_readsBack {c : Char} (hc : c ∈ cs "aAbBh") : ∃ a w, printConv {} c = some (a :: w) ∧ isSpace a = false ∧
    ∀ S tm k, (S = [] ∨ ∃ a S', S = a :: S' ∧ isAlnum a = false) → ∃ tm' k',
      convSpec (subN 2) false false c ⟨a :: (w ++ S), tm, k⟩ = some ⟨S, tm', k'⟩ ∧ (tm.hour ≤ 11 → tm'.hour ≤ 11) := by
  simp only [show cs "aAbBh" = ['a', 'A', 'b', 'B', 'h'] from by decide, List.mem_cons, List.not_mem_nil, or_false] at hc
  rcases hc with rfl | rfl | rfl | rfl | rfl
  · refine ⟨'S', cs "un", by decide +kernel, by decide, fun S tm k hS => ⟨{ tm with wday := 0 }, k, ?_, id⟩⟩
    have : convSpec (subN 2) false false 'a' ⟨cs "Sun" ++ S, tm, k⟩ = (findName (cs "Sun" ++ S) dayNames abdayNames 0).map
      fun (i, len) => ⟨(cs "Sun" ++ S).drop len, { tm with wday := i }, k⟩ := by simp [convSpec]
    exact this.trans (by rw [findName_sun hS]; rfl)
  · refine ⟨'S', cs "unday", by decide +kernel, by decide, fun S tm k hS => ⟨{ tm with wday := 0 }, k, ?_, id⟩⟩
    have : convSpec (subN 2) false false 'A' ⟨cs "Sunday" ++ S, tm, k⟩ =
      (findName (cs "Sunday" ++ S) dayNames abdayNames 0).map
      fun (i, len) => ⟨(cs "Sunday" ++ S).drop len, { tm with wday := i }, k⟩ := by simp [convSpec]
    exact this.trans (by rw [findName_sunday]; rfl)
  · refine ⟨'J', cs "an", by decide +kernel, by decide, fun S tm k hS => ⟨{ tm with mon := 0 }, k, ?_, id⟩⟩
    have : convSpec (subN 2) false false 'b' ⟨cs "Jan" ++ S, tm, k⟩ = (findName (cs "Jan" ++ S) monNames abmonNames 0).map
      fun (i, len) => ⟨(cs "Jan" ++ S).drop len, { tm with mon := i }, k⟩ := by simp [convSpec]
    exact this.trans (by rw [findName_jan hS]; rfl)
  · refine ⟨'J', cs "anuary", by decide +kernel, by decide, fun S tm k hS => ⟨{ tm with mon := 0 }, k, ?_, id⟩⟩
    have : convSpec (subN 2) false false 'B' ⟨cs "January" ++ S, tm, k⟩ =
      (findName (cs "January" ++ S) monNames abmonNames 0).map
      fun (i, len) => ⟨(cs "January" ++ S).drop len, { tm with mon := i }, k⟩ := by simp [convSpec]
    exact this.trans (by rw [findName_january]; rfl)
  · refine ⟨'J', cs "an", by decide +kernel, by decide, fun S tm k hS => ⟨{ tm with mon := 0 }, k, ?_, id⟩⟩
    have : convSpec (subN 2) false false 'h' ⟨cs "Jan" ++ S, tm, k⟩ = (findName (cs "Jan" ++ S) monNames abmonNames 0).map
      fun (i, len) => ⟨(cs "Jan" ++ S).drop len, { tm with mon := i }, k⟩ := by simp [convSpec]
    exact this.trans (by rw [findName_jan hS]; rfl)

/-! ### what is not read back -/

theorem num_d (s : CStr) : convNum ('0' :: '0' :: s) 1 31 = none := by
  simp [convNum, convLoop, isDigit, convLoop_stop]

theorem mdy_fails (S : CStr) (tm : Tm) : subN 2 (cs "01/00/00" ++ S) (cs "%m/%d/%y") tm = none := by
  change strptimeWith (subN 1) ('0' :: '1' :: '/' :: '0' :: '0' :: '/' :: '0' :: '0' :: S)
    ['%', 'm', '/', '%', 'd', '/', '%', 'y'] tm = _
  unfold strptimeWith
  rw [loop_num (by decide) (by decide) _ (s' := ⟨'/' :: '0' :: '0' :: '/' :: '0' :: '0' :: S, { tm with mon := 0 }, false⟩)
      (by simp [convSpec, num_m]), loop_lit (by decide) (by decide), loop_conv (by decide) (by decide)]
  have : convSpec (subN 1) false false 'd' ⟨'0' :: '0' :: '/' :: '0' :: '0' :: S, { tm with mon := 0 }, false⟩ = none := by
    simp [convSpec, num_d]
  rw [this]; rfl

theorem cx_fails (S : CStr) (tm : Tm) : subN 2 ('S' :: S) (cs "%x %X") tm = none := by
  change strptimeWith (subN 1) ('S' :: S) ['%', 'x', ' ', '%', 'X'] tm = _
  unfold strptimeWith
  rw [loop_conv (by decide) (by decide)]
  have h1 : subN 1 ('S' :: S) (cs "%m/%d/%y") tm = none := by
    change strptimeWith (subN 0) ('S' :: S) ['%', 'm', '/', '%', 'd', '/', '%', 'y'] tm = _
    unfold strptimeWith
    rw [loop_conv (by decide) (by decide)]
    have : convSpec (subN 0) false false 'm' ⟨'S' :: S, tm, false⟩ = none := by simp [convSpec, convNum, isDigit]
    rw [this]; rfl
  have : convSpec (subN 1) false false 'x' ⟨'S' :: S, tm, false⟩ = none := by simp [convSpec, h1]
  rw [this]; rfl

/-- The conversions that print a text that they do not read. -/
theorem day_fails {m : Option Char} {e o : Bool} (hm : Mode m e o) {c : Char} (hok : ModOk m c)
    (hc : c ∈ cs "dDxcFu") : ∃ a w, printConv {} c = some (a :: w) ∧ isSpace a = false ∧ ∀ S tm k,
    convSpec (subN 2) e o c ⟨a :: (w ++ S), tm, k⟩ = none := by
  simp only [show cs "dDxcFu" = ['d', 'D', 'x', 'c', 'F', 'u'] from by decide, List.mem_cons, List.not_mem_nil,
    or_false] at hc
  rcases hc with rfl | rfl | rfl | rfl | rfl | rfl
  · refine ⟨'0', ['0'], by decide +kernel, by decide, fun S tm k => ?_⟩
    simp [convSpec, num_d]
  · refine ⟨'0', cs "1/00/00", by decide +kernel, by decide, fun S tm k => ?_⟩
    have := mdy_fails S tm
    change subN 2 ('0' :: (cs "1/00/00" ++ S)) _ _ = _ at this
    simp [convSpec, this]
  · refine ⟨'0', cs "1/00/00", by decide +kernel, by decide, fun S tm k => ?_⟩
    have := mdy_fails S tm
    change subN 2 ('0' :: (cs "1/00/00" ++ S)) _ _ = _ at this
    simp [convSpec, this]
  · refine ⟨'S', cs "un Jan  0 00:00:00 1900", by decide +kernel, by decide, fun S tm k => ?_⟩
    simp [convSpec, cx_fails]
  · refine ⟨'1', cs "900-01-00", by decide +kernel, by decide, fun S tm k => ?_⟩
    simp [convSpec]
  · refine ⟨'7', [], by decide +kernel, by decide, fun S tm k => ?_⟩
    simp [convSpec]

/-! ### the induction over the format -/

theorem dropWhile_twice (p : Char → Bool) (s : CStr) : (s.dropWhile p).dropWhile p = s.dropWhile p := by
  induction s with
  | nil => rfl
  | cons a s ih =>
    by_cases h : p a = true
    · rw [List.dropWhile_cons_of_pos h, ih]
    · rw [List.dropWhile_cons_of_neg h, List.dropWhile_cons_of_neg h]

/-- What a format prints for the sample date, and how it reads that text back, with or without the white space at the
beginning. -/
def Back (fmt : CStr) (b : Bool) : Prop :=
  ∃ S, printFmt (printConv {}) fmt = some S ∧ ∀ bp tm k, bp = S ∨ bp = S.dropWhile isSpace →
    (b = true → strptimeLoop (subN 2) fmt ⟨bp, tm, k⟩ = none) ∧
    (b = false → tm.hour ≤ 11 → ∃ tm' k', strptimeLoop (subN 2) fmt ⟨bp, tm, k⟩ = some ⟨[], tm', k'⟩)

/-- A conversion that prints a text that it reads back, in front of a format. -/
theorem back_conv {fmt fmt' : CStr} {m : Option Char} {c : Char} {b e o : Bool} (hd : Directive fmt m c fmt')
    (hl : ∀ s, strptimeLoop (subN 2) fmt s = (convSpec (subN 2) e o c s).bind (strptimeLoop (subN 2) fmt'))
    {a : Char} {w : CStr} (hp : printConv {} c = some (a :: w)) (ha : isSpace a = false)
    {S : CStr} (hS : printFmt (printConv {}) fmt' = some S)
    (hr : ∀ tm k, ∃ tm' k', convSpec (subN 2) e o c ⟨a :: (w ++ S), tm, k⟩ = some ⟨S, tm', k'⟩ ∧
      (tm.hour ≤ 11 → tm'.hour ≤ 11))
    (hb : ∀ bp tm k, bp = S ∨ bp = S.dropWhile isSpace →
      (b = true → strptimeLoop (subN 2) fmt' ⟨bp, tm, k⟩ = none) ∧
      (b = false → tm.hour ≤ 11 → ∃ tm' k', strptimeLoop (subN 2) fmt' ⟨bp, tm, k⟩ = some ⟨[], tm', k'⟩)) :
    Back fmt b := by
  refine ⟨a :: (w ++ S), by rw [printFmt_directive hd, hp, hS]; rfl, fun bp tm k hbp => ?_⟩
  have hbp : bp = a :: (w ++ S) := by
    rcases hbp with h | h
    · exact h
    · rw [h, List.dropWhile_cons_of_neg (by simp [ha])]
  subst hbp
  obtain ⟨tm', k', h1, h2⟩ := hr tm k
  rw [hl, h1]
  obtain ⟨g1, g2⟩ := hb S tm' k' (Or.inl rfl)
  exact ⟨g1, fun h3 h4 => g2 h3 (h2 h4)⟩

theorem back_white {fmt fmt' : CStr} {b : Bool} {a : Char} (ha : isSpace a = true)
    (hp : printFmt (printConv {}) fmt = (printFmt (printConv {}) fmt').map (a :: ·))
    (hl : ∀ s, strptimeLoop (subN 2) fmt s = strptimeLoop (subN 2) fmt' { s with bp := s.bp.dropWhile isSpace })
    (hb : Back fmt' b) : Back fmt b := by
  obtain ⟨S, hS, hb⟩ := hb
  refine ⟨a :: S, by rw [hp, hS]; rfl, fun bp tm k hbp => ?_⟩
  have hbp : bp.dropWhile isSpace = S.dropWhile isSpace := by
    rcases hbp with h | h
    · rw [h, List.dropWhile_cons_of_pos ha]
    · rw [h, dropWhile_twice, List.dropWhile_cons_of_pos ha]
  rw [hl]
  dsimp only
  rw [hbp]
  exact hb _ tm k (Or.inr rfl)

theorem back_fails {fmt fmt' : CStr} {m : Option Char} {c : Char} {e o : Bool} (hd : Directive fmt m c fmt')
    (hl : ∀ s, strptimeLoop (subN 2) fmt s = (convSpec (subN 2) e o c s).bind (strptimeLoop (subN 2) fmt'))
    {w S : CStr} (hp : printConv {} c = some w) (hS : printFmt (printConv {}) fmt' = some S)
    (hr : ∀ bp tm k, bp = w ++ S ∨ bp = (w ++ S).dropWhile isSpace → convSpec (subN 2) e o c ⟨bp, tm, k⟩ = none) :
    Back fmt true := by
  refine ⟨w ++ S, by rw [printFmt_directive hd, hp, hS]; rfl, fun bp tm k hbp => ⟨fun _ => ?_, fun h => by cases h⟩⟩
  rw [hl, hr bp tm k hbp]; rfl

theorem isAlnum_digit {a : Char} (h : isAlnum a = false) : isDigit a = false := by
  unfold isAlnum at h
  rw [Bool.or_eq_false_iff] at h
  exact h.2

theorem tidy_back {fmt : CStr} {b : Bool} (h : TidyFmt fmt b) : Back fmt b := by
  induction h with
  | nil =>
    refine ⟨[], rfl, fun bp tm k hbp => ⟨fun h => (by cases h), fun _ _ => ⟨tm, k, ?_⟩⟩⟩
    rcases hbp with rfl | rfl <;> rfl
  | char a fmt b h1 _ ih =>
    by_cases ha : isSpace a = true
    · refine back_white ha (printFmt_char h1 _) (fun s => ?_) ih
      rw [strptimeLoop.eq_def]; simp [ha]
    · obtain ⟨S, hS, hb⟩ := ih
      have ha : isSpace a = false := by simpa using ha
      refine ⟨a :: S, by rw [printFmt_char h1, hS]; rfl, fun bp tm k hbp => ?_⟩
      have hbp : bp = a :: S := by
        rcases hbp with h | h
        · exact h
        · rw [h, List.dropWhile_cons_of_neg (by simp [ha])]
      subst hbp
      rw [loop_lit ha h1]
      exact hb S tm k (Or.inl rfl)
  | conv c m fmt fmt' b hd hok hc _ ih =>
    obtain ⟨e, o, hm, hl⟩ := loop_directive (sub := subN 2) hd
    by_cases hw : c = 'n' ∨ c = 't'
    · have hmn : m = none := by
        rcases hok with h | ⟨_, h⟩ | ⟨_, h⟩
        · exact h
        · rcases hw with rfl | rfl <;> exact absurd h (by decide)
        · rcases hw with rfl | rfl <;> exact absurd h (by decide)
      subst hmn
      cases hm
      rcases hw with rfl | rfl
      · refine back_white (a := '\n') (by decide) ?_ (fun s => ?_) ih
        · rw [printFmt_directive hd, show printConv {} 'n' = some ['\n'] from by decide +kernel]; rfl
        · rw [hl]; simp [convSpec]
      · refine back_white (a := '\t') (by decide) ?_ (fun s => ?_) ih
        · rw [printFmt_directive hd, show printConv {} 't' = some ['\t'] from by decide +kernel]; rfl
        · rw [hl]; simp [convSpec]
    · have hc : c ∈ cs "HIjmMSUwWyYC%RTX" := by
        revert hc hw
        simp only [show cs "HIjmMSUwWyYCnt%RTX" =
          ['H', 'I', 'j', 'm', 'M', 'S', 'U', 'w', 'W', 'y', 'Y', 'C', 'n', 't', '%', 'R', 'T', 'X'] from by decide,
          show cs "HIjmMSUwWyYC%RTX" =
          ['H', 'I', 'j', 'm', 'M', 'S', 'U', 'w', 'W', 'y', 'Y', 'C', '%', 'R', 'T', 'X'] from by decide,
          List.mem_cons, List.not_mem_nil, or_false]
        intro h1 h2
        simp only [not_or] at h2
        simp only [h2.1, h2.2, false_or] at h1
        exact h1
      obtain ⟨a, w, hp, ha, hr⟩ := readsBack hm hok hc
      obtain ⟨S, hS, hb⟩ := ih
      exact back_conv hd hl hp ha hS (hr S) hb
  | name c fmt b hc hap _ ih =>
    obtain ⟨S, hS, hb⟩ := ih
    obtain ⟨a, w, hp, ha, hr⟩ := name_readsBack hc
    have hcE : c ≠ 'E' ∧ c ≠ 'O' := by
      constructor <;> (rintro rfl; exact absurd hc (by decide))
    exact back_conv (.plain c fmt hcE.1 hcE.2) (loop_conv hcE.1 hcE.2 _) hp ha hS
      (fun tm k => hr S tm k (apart_prints hap hS)) hb
  | half c hc =>
    simp only [show cs "pr" = ['p', 'r'] from by decide, List.mem_cons, List.not_mem_nil, or_false] at hc
    rcases hc with rfl | rfl
    · refine ⟨cs "AM", by decide +kernel, fun bp tm k hbp => ⟨fun h => (by cases h), fun _ hh => ⟨tm, k, ?_⟩⟩⟩
      have hbp : bp = cs "AM" := by
        rcases hbp with h | h
        · exact h
        · rw [h]; decide
      subst hbp
      rw [loop_conv (by decide) (by decide)]
      have : convSpec (subN 2) false false 'p' ⟨cs "AM", tm, k⟩ = some ⟨[], tm, k⟩ := by
        simp [convSpec, show strcasecmpEq (cs "AM") (cs "AM") = true from by decide, Int.not_lt.2 hh,
          show (cs "AM").drop 2 = [] from by decide]
      rw [this]; rfl
    · refine ⟨cs "12:00:00 AM", by decide +kernel, fun bp tm k hbp => ⟨fun h => (by cases h), fun _ hh =>
        ⟨{ tm with hour := 0, min := 0, sec := 0 }, k, ?_⟩⟩⟩
      have hbp : bp = cs "12:00:00 AM" := by
        rcases hbp with h | h
        · exact h
        · rw [h]; decide
      subst hbp
      rw [loop_conv (by decide) (by decide)]
      have h2 : subN 2 (cs "12:00:00 AM") (cs "%I:%M:%S %p") tm = some ([], { tm with hour := 0, min := 0, sec := 0 }) :=
        half_reads tm
      have : convSpec (subN 2) false false 'r' ⟨cs "12:00:00 AM", tm, k⟩ =
          some ⟨[], { tm with hour := 0, min := 0, sec := 0 }, k⟩ := by
        simp [convSpec, h2]
      rw [this]; rfl
  | day c m fmt fmt' b hd hok hc _ ih =>
    obtain ⟨e, o, hm, hl⟩ := loop_directive (sub := subN 2) hd
    obtain ⟨S, hS, _⟩ := ih
    rcases hc with hc | ⟨rfl, hap⟩
    · obtain ⟨a, w, hp, ha, hr⟩ := day_fails hm hok hc
      refine back_fails hd hl hp hS (fun bp tm k hbp => ?_)
      have hbp : bp = a :: (w ++ S) := by
        rcases hbp with h | h
        · exact h
        · rw [h]; exact List.dropWhile_cons_of_neg (by simp [ha])
      rw [hbp, hr]
    · refine back_fails hd hl (w := [' ', '0']) (by decide +kernel) hS (fun bp tm k hbp => ?_)
      rcases hbp with rfl | rfl
      · simp [convSpec, convNum, isDigit]
      · have : ([' ', '0'] ++ S).dropWhile isSpace = '0' :: S := rfl
        rw [this]
        have hn : convNum ('0' :: S) 1 31 = none := by
          rcases apart_prints hap hS with rfl | ⟨a, S', rfl, ha⟩
          · decide
          · simp [convNum, convLoop, isAlnum_digit ha, show isDigit '0' = true from by decide]
        simp [convSpec, hn]

/-- What the format prints for the sample date. -/
theorem tidy_prints {fmt : CStr} {b : Bool} (h : TidyFmt fmt b) : ∃ S, printDate fmt {} = some S ∧
    ∀ t, (b = true → ¬ ∃ t', Matches fmt S t t') ∧ (b = false → t.hour ≤ 11 → ∃ t', Matches fmt S t t') := by
  obtain ⟨S, hS, hb⟩ := tidy_back h
  refine ⟨S, hS, fun t => ⟨fun h1 => ?_, fun h1 h2 => ?_⟩⟩
  · rintro ⟨t', hm⟩
    have h2 := (strptime_iff fmt S [] t t').2 hm
    change strptimeWith (subN 2) S fmt t = _ at h2
    unfold strptimeWith at h2
    rw [(hb S t false (Or.inl rfl)).1 h1] at h2
    cases h2
  · obtain ⟨t', k', h3⟩ := (hb S t false (Or.inl rfl)).2 h1 h2
    refine ⟨t', (strptime_iff fmt S [] t t').1 ?_⟩
    change strptimeWith (subN 2) S fmt t = _
    unfold strptimeWith
    rw [h3]; rfl

end Argtable
