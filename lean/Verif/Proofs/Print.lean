import Verif.Model.Print
import Verif.Spec.Print
import Verif.Proofs.Tables
import Mathlib.Data.List.TakeWhile
/-!
# The bounded string buffer: invariant and refinement (C44)
-/

namespace Argtable

open Spec

theorem pbind_ok {α β : Type} (a : α) (f : α → M β) : ((.ok a : M α) >>= f) = f a := rfl

/-- The buffer holds the C string `s`, `dest` is inside it, `dest + ndest` is 199. -/
structure BufHolds (b : CatBuf) (s : CStr) : Prop where
  nul : '\x00' ∉ s
  buf : ∃ rest, b.buf = s ++ '\x00' :: rest
  len : b.buf.length = 200
  dest : b.dest ≤ s.length
  dest198 : b.dest ≤ 198
  ends : b.dest + b.ndest = 199

theorem BufHolds.le {b s} (h : BufHolds b s) : s.length ≤ 199 := by
  obtain ⟨r, hr⟩ := h.buf
  have := h.len
  rw [hr] at this
  simp at this
  omega

theorem bufStr_holds {b s} (h : BufHolds b s) : bufStr b.buf = s := by
  obtain ⟨r, hr⟩ := h.buf
  rw [bufStr, hr, List.takeWhile_append_of_pos]
  · simp
  · intro a ha
    have := h.nul
    simp only [bne_iff_ne, ne_eq]
    rintro rfl
    exact this ha

theorem bufRead_lt {buf : List Char} {i : Nat} (h : i < buf.length) : bufRead buf i = .ok buf[i] := by
  rw [bufRead, List.getElem?_eq_getElem h]

theorem catSeek_holds {buf : List Char} {s rest : CStr} (hb : buf = s ++ '\x00' :: rest)
    (hs : '\x00' ∉ s) (k : Nat) (dest : Nat) (hd : dest ≤ s.length) :
    catSeek buf k dest = .ok (min s.length (dest + k)) := by
  induction k generalizing dest with
  | zero => simp only [catSeek, Nat.add_zero]; rw [Nat.min_eq_right hd]
  | succ k ih =>
    have hlt : dest < buf.length := by rw [hb]; simp; omega
    rw [catSeek, bufRead_lt hlt, pbind_ok]
    by_cases h : dest < s.length
    · have h1 : buf[dest] = s[dest] := by subst hb; rw [List.getElem_append_left h]
      have h2 : buf[dest] ≠ '\x00' := by
        rw [h1]; intro hc; exact hs (hc ▸ List.getElem_mem h)
      rw [if_pos h2, ih _ (by omega)]
      congr 2; omega
    · have h0 : dest = s.length := by omega
      have h1 : buf[dest] = '\x00' := by subst hb; subst h0; simp
      rw [if_neg (by simp [h1])]
      congr 1; omega

theorem set_append_len {α} (s : List α) (x y : α) (r : List α) :
    (s ++ x :: r).set s.length y = s ++ y :: r := by
  rw [List.set_append_right _ _ (Nat.le_refl _)]; simp

theorem catCopy_holds (last : Nat) (src pre suf : CStr) (hl : last ≤ pre.length + suf.length)
    (hp : pre.length ≤ last) :
    ∃ suf', catCopy last src (pre ++ suf) pre.length =
      .ok (pre ++ src.take (last - pre.length) ++ suf',
        pre.length + (src.take (last - pre.length)).length) ∧
      (src.take (last - pre.length)).length + suf'.length = suf.length := by
  induction src generalizing pre suf with
  | nil => exact ⟨suf, by simp [catCopy], by simp⟩
  | cons c src ih =>
    rw [catCopy]
    by_cases h : pre.length < last
    · rw [if_pos h]
      obtain ⟨x, suf, rfl⟩ : ∃ x t, suf = x :: t := by
        cases suf with
        | nil => simp at hl; omega
        | cons x t => exact ⟨x, t, rfl⟩
      rw [bufWrite, if_pos (by simp), pbind_ok, set_append_len]
      have := ih (pre ++ [c]) suf (by simp at hl ⊢; omega) (by simp; omega)
      simp only [List.append_assoc, List.length_append, List.length_cons, List.length_nil,
        List.cons_append, List.nil_append] at this
      obtain ⟨suf', e1, e2⟩ := this
      refine ⟨suf', ?_, ?_⟩
      · rw [Nat.zero_add] at e1
        rw [e1]
        have : last - pre.length = (last - (pre.length + 1)) + 1 := by omega
        rw [this, List.take_succ_cons]
        simp
        omega
      · have : last - pre.length = (last - (pre.length + 1)) + 1 := by omega
        rw [this, List.take_succ_cons]
        simp at e2 ⊢
        omega
    · rw [if_neg h]
      have : last - pre.length = 0 := by omega
      exact ⟨suf, by simp [this], by simp [this]⟩

/-- `arg_cat` appends, keeping at most 198 characters. -/
theorem argCat_holds {b : CatBuf} {s : CStr} (h : BufHolds b s) (src : CStr) (hn : '\x00' ∉ src) :
    ∃ b', argCat b src = .ok b' ∧ BufHolds b' ((s ++ src).take 198) ∧
      b'.dest = ((s ++ src).take 198).length := by
  obtain ⟨rest, hr⟩ := h.buf
  have hlen := h.len
  have hds := h.dest
  have hd8 := h.dest198
  have he := h.ends
  have hk : b.dest + b.ndest - 1 - b.dest = 198 - b.dest := by omega
  have hm : min s.length (b.dest + (198 - b.dest)) = min s.length 198 := by omega
  have hrl : s.length + (rest.length + 1) = 200 := by rw [hr] at hlen; simpa using hlen
  rw [argCat]
  dsimp only
  rw [hk, catSeek_holds hr h.nul _ _ hds, pbind_ok, hm, he]
  -- the string found
  have hsp : s ++ '\x00' :: rest = s.take 198 ++ (s.drop 198 ++ '\x00' :: rest) := by
    rw [← List.append_assoc, List.take_append_drop]
  have hpl : (s.take 198).length = min s.length 198 := by rw [List.length_take]; omega
  obtain ⟨suf', e1, e2⟩ := catCopy_holds 198 src (s.take 198) (s.drop 198 ++ '\x00' :: rest)
    (by simp; omega) (by rw [hpl]; omega)
  rw [← hsp, ← hr, hpl] at e1
  rw [hpl] at e2
  rw [show (199 - 1 : Nat) = 198 from rfl, e1, pbind_ok]
  dsimp only
  have htk : (s ++ src).take 198 = s.take 198 ++ src.take (198 - min s.length 198) := by
    rw [List.take_append]
    congr 2; omega
  have hlt : (src.take (198 - min s.length 198)).length ≤ 198 - min s.length 198 := by
    rw [List.length_take]; omega
  have hsl : ((s.drop 198) ++ '\x00' :: rest).length = 200 - min s.length 198 := by
    simp; omega
  rw [hsl] at e2
  obtain ⟨x, suf', rfl⟩ : ∃ x t, suf' = x :: t := by
    cases suf' with
    | nil => simp at e2; omega
    | cons x t => exact ⟨x, t, rfl⟩
  have hpre : min s.length 198 + (src.take (198 - min s.length 198)).length
      = (s.take 198 ++ src.take (198 - min s.length 198)).length := by
    rw [List.length_append, hpl]
  rw [hpre, bufWrite, if_pos (by
    rw [List.length_append (bs := x :: suf')]; simp only [List.length_cons]; omega), pbind_ok,
    set_append_len]
  refine ⟨_, rfl, ?_, by rw [htk]⟩
  rw [htk]
  refine ⟨?_, ⟨_, rfl⟩, ?_, Nat.le_refl _, ?_, ?_⟩
  · intro hc
    rcases List.mem_append.1 hc with hc | hc
    · exact h.nul (List.mem_of_mem_take hc)
    · exact hn (List.mem_of_mem_take hc)
  · simp only [List.length_append, List.length_cons, hpl] at e2 ⊢
    omega
  · dsimp only; rw [List.length_append, hpl]; omega
  · dsimp only; rw [List.length_append, hpl]; omega

theorem bufEnd_holds {buf : List Char} {s rest : CStr} (hb : buf = s ++ '\x00' :: rest)
    (hs : '\x00' ∉ s) (k : Nat) (i : Nat) (hi : i ≤ s.length) (hk : s.length < i + k) :
    bufEnd buf k i = .ok s.length := by
  induction k generalizing i with
  | zero => omega
  | succ k ih =>
    have hlt : i < buf.length := by rw [hb]; simp; omega
    rw [bufEnd, bufRead_lt hlt, pbind_ok]
    by_cases h : i < s.length
    · have h1 : buf[i] = s[i] := by subst hb; rw [List.getElem_append_left h]
      have h2 : buf[i] ≠ '\x00' := by
        rw [h1]; intro hc; exact hs (hc ▸ List.getElem_mem h)
      rw [if_neg h2, ih _ (by omega) (by omega)]
    · have h0 : i = s.length := by omega
      have h1 : buf[i] = '\x00' := by subst hb; subst h0; simp
      rw [if_pos h1, h0]

theorem bufPuts_holds (src pre suf : CStr) (hl : src.length < suf.length) :
    ∃ suf', bufPuts src (pre ++ suf) pre.length = .ok (pre ++ src ++ '\x00' :: suf') ∧
      src.length + suf'.length + 1 = suf.length := by
  induction src generalizing pre suf with
  | nil =>
    cases suf with
    | nil => simp at hl
    | cons x t =>
      refine ⟨t, ?_, by simp⟩
      rw [bufPuts, bufWrite, if_pos (by simp), set_append_len]; simp
  | cons c src ih =>
    cases suf with
    | nil => simp at hl
    | cons x t =>
      rw [bufPuts, bufWrite, if_pos (by simp), pbind_ok, set_append_len]
      have := ih (pre ++ [c]) t (by simpa using hl)
      simp only [List.append_assoc, List.length_append, List.length_cons, List.length_nil,
        List.cons_append, List.nil_append, Nat.zero_add] at this
      obtain ⟨s', e1, e2⟩ := this
      refine ⟨s', by rw [e1]; simp, by simp; omega⟩

/-- `strncat` with the limit `ndest` appends up to that many characters. -/
theorem strncat_holds {b : CatBuf} {s : CStr} (h : BufHolds b s) (hd : b.dest = s.length) (src : CStr)
    (hn : '\x00' ∉ src) (n : Nat) (hnd : n ≤ b.ndest) :
    ∃ b', strncat b src n = .ok b' ∧ BufHolds b' (s ++ src.take n) := by
  obtain ⟨rest, hr⟩ := h.buf
  have hlen := h.len
  have hd8 := h.dest198
  have he := h.ends
  have hrl : s.length + (rest.length + 1) = 200 := by rw [hr] at hlen; simpa using hlen
  rw [strncat, bufEnd_holds hr h.nul _ _ h.dest (by omega), pbind_ok, hr]
  have htl : (src.take n).length ≤ n := by rw [List.length_take]; omega
  obtain ⟨suf', e1, e2⟩ := bufPuts_holds (src.take n) s ('\x00' :: rest) (by simp at *; omega)
  rw [e1, pbind_ok]
  refine ⟨_, rfl, ?_, ⟨_, rfl⟩, ?_, ?_, hd8, he⟩
  · intro hc
    rcases List.mem_append.1 hc with hc | hc
    · exact h.nul hc
    · exact hn (List.mem_of_mem_take hc)
  · simp only [List.length_append, List.length_cons] at e2 ⊢; omega
  · dsimp only; rw [List.length_append]; omega

/-! ### What the buffer shows of the full text -/

theorem clipped_cat {T s : CStr} (src : CStr) (h : Clipped T s) :
    Clipped (T ++ src) ((s ++ src).take 198) := by
  obtain ⟨h1, h2, h3⟩ := h
  have ht : (s ++ src).take 198 = (T ++ src).take 198 := by
    by_cases hT : T.length ≤ 198
    · rw [h1 hT]
    · have hTl : (T.take 198).length = 198 := by rw [List.length_take]; omega
      have hsl : 198 ≤ s.length := by
        have := congrArg List.length h2
        rw [hTl, List.length_take] at this
        omega
      rw [List.take_append_of_le_length hsl, List.take_append_of_le_length (by omega), h2]
  refine ⟨fun hl => ?_, ?_, ?_⟩
  · rw [ht, List.take_of_length_le hl]
  · rw [List.take_take, Nat.min_self, ht]
  · rw [List.length_take]; omega

theorem clipped_strncat {T s : CStr} (src : CStr) (n d : Nat) (h : Clipped T s) (hs : s.length + d = 199)
    (hd : 1 ≤ d) (hn : n ≤ src.length) :
    Clipped (T ++ src.take n) (s ++ src.take (if n < d then n else d)) := by
  obtain ⟨h1, h2, h3⟩ := h
  have hm : (if n < d then n else d) = min n d := by split <;> omega
  rw [hm]
  have hlen : (src.take (min n d)).length = min n d := by rw [List.length_take]; omega
  have hlen' : (src.take n).length = n := by rw [List.length_take]; omega
  refine ⟨fun hl => ?_, ?_, ?_⟩
  · rw [List.length_append, hlen'] at hl
    have : s = T := h1 (by omega)
    subst this
    rw [show min n d = n by omega]
  · by_cases hT : T.length ≤ 198
    · have : s = T := h1 hT
      subst this
      rw [List.take_append, List.take_append, List.take_take, List.take_take]
      congr 2
      omega
    · have hTl : (T.take 198).length = 198 := by rw [List.length_take]; omega
      have hsl : 198 ≤ s.length := by
        have := congrArg List.length h2
        rw [hTl, List.length_take] at this
        omega
      rw [List.take_append_of_le_length hsl, List.take_append_of_le_length (by omega), h2]
  · rw [List.length_append, hlen]; omega

/-- The buffer shows `T`. -/
def Holds200 (b : CatBuf) (T : CStr) : Prop := ∃ s, BufHolds b s ∧ Clipped T s

/-- The buffer shows `T` and `dest` is at the end of its string. -/
def Holds200' (b : CatBuf) (T : CStr) : Prop := ∃ s, BufHolds b s ∧ Clipped T s ∧ b.dest = s.length

theorem holds_of {b T} (h : Holds200' b T) : Holds200 b T := by
  obtain ⟨s, a, b, _⟩ := h; exact ⟨s, a, b⟩

theorem argCat_ok {b : CatBuf} {T : CStr} (h : Holds200 b T) (src : CStr) (hn : '\x00' ∉ src) :
    ∃ b', argCat b src = .ok b' ∧ Holds200' b' (T ++ src) := by
  obtain ⟨s, hs, hc⟩ := h
  obtain ⟨b', e, hb, hd⟩ := argCat_holds hs src hn
  exact ⟨b', e, _, hb, clipped_cat src hc, hd⟩

theorem strncat_ok {b : CatBuf} {T : CStr} (h : Holds200' b T) (src : CStr) (hn : '\x00' ∉ src)
    (n : Nat) (hle : n ≤ src.length) :
    ∃ b', strncat b src (if n < b.ndest then n else b.ndest) = .ok b' ∧
      Holds200 b' (T ++ src.take n) := by
  obtain ⟨s, hs, hc, hd⟩ := h
  have he := hs.ends
  have hd8 := hs.dest198
  obtain ⟨b', e, hb⟩ := strncat_holds hs hd src hn (if n < b.ndest then n else b.ndest)
    (by split <;> omega)
  exact ⟨b', e, _, hb, clipped_strncat src n b.ndest hc (by omega) (by omega) hle⟩

theorem catDatatype_ok {b : CatBuf} {T : CStr} (h : Holds200 b T) (d : CStr) (hn : '\x00' ∉ d)
    (o : Bool) : ∃ b', catDatatype b d o = .ok b' ∧ Holds200 b' (T ++ valueText d o) := by
  cases o with
  | false =>
    obtain ⟨b', e, h'⟩ := argCat_ok h d hn
    exact ⟨b', by simpa [catDatatype] using e, holds_of h'⟩
  | true =>
    obtain ⟨b1, e1, h1⟩ := argCat_ok h (cs "[") (by decide)
    obtain ⟨b2, e2, h2⟩ := argCat_ok (holds_of h1) d hn
    obtain ⟨b3, e3, h3⟩ := argCat_ok (holds_of h2) (cs "]") (by decide)
    refine ⟨b3, ?_, ?_⟩
    · rw [catDatatype, if_pos rfl, e1, pbind_ok, e2, pbind_ok, e3]
    · have := holds_of h3
      simpa [valueText, List.append_assoc] using this

/-! ### Names -/

theorem namesOf_head (lo : CStr) : (namesOf lo).headD [] = lo.take (commaSpan lo) := by
  induction lo with
  | nil => rfl
  | cons c t ih =>
    by_cases hc : c = ','
    · subst hc; simp [namesOf, commaSpan]
    · rw [namesOf_cons hc, commaSpan, List.takeWhile_cons_of_pos (by simpa using hc), List.length_cons,
        List.take_succ_cons]
      rw [commaSpan] at ih
      rw [← ih]
      cases namesOf t <;> rfl

theorem commaSpan_le (s : CStr) : commaSpan s ≤ s.length := (List.takeWhile_sublist _).length_le

theorem drop_commaSpan (s : CStr) : s.drop (commaSpan s) = s.dropWhile (· != ',') := by
  have h := List.takeWhile_append_dropWhile (p := (· != ',')) (l := s)
  conv => lhs; rw [← h]
  rw [commaSpan, List.drop_append_of_le_length (by rw [h])]
  simp [h]

theorem take_commaSpan (s : CStr) : s.take (commaSpan s) = s.takeWhile (· != ',') := by
  exact (List.prefix_iff_eq_take.1 (List.takeWhile_prefix (p := (· != ',')) (l := s))).symm

/-! ### Options -/

theorem ctext {s : Option CStr} {t : CStr} (h : CText s) (e : s = some t) : '\x00' ∉ t := h t e

theorem mem_take1 {so : CStr} (h : '\x00' ∉ so) : '\x00' ∉ '-' :: so.take 1 := by
  intro hc
  rcases List.mem_cons.1 hc with hc | hc
  · exact absurd hc (by decide)
  · exact h (List.mem_of_mem_take hc)

theorem catOption_ok {b : CatBuf} {T : CStr} (h : Holds200 b T) {so lo dt : Option CStr}
    (hso : CText so) (hlo : CText lo) (hdt : CText dt) (o : Bool) :
    ∃ b', catOption b so lo dt o = .ok b' ∧ Holds200 b' (T ++ fullOption so lo dt o) := by
  cases so with
  | some so =>
    obtain ⟨b1, e1, h1⟩ := argCat_ok h _ (mem_take1 (ctext hso rfl))
    rw [catOption.eq_def]
    dsimp only
    rw [e1, pbind_ok]
    cases dt with
    | none => exact ⟨b1, rfl, holds_of h1⟩
    | some d =>
      obtain ⟨b2, e2, h2⟩ := argCat_ok (holds_of h1) (cs " ") (by decide)
      obtain ⟨b3, e3, h3⟩ := catDatatype_ok (holds_of h2) d (ctext hdt rfl) o
      dsimp only
      rw [e2, pbind_ok, e3]
      refine ⟨b3, rfl, ?_⟩
      have : T ++ fullOption (some so) lo (some d) o
          = T ++ '-' :: so.take 1 ++ cs " " ++ valueText d o := by
        simp [fullOption, cs, List.append_assoc]
      rw [this]; exact h3
  | none =>
    cases lo with
    | some lo =>
      obtain ⟨b1, e1, h1⟩ := argCat_ok h (cs "--") (by decide)
      obtain ⟨b2, e2, h2⟩ := strncat_ok h1 lo (ctext hlo rfl) (commaSpan lo) (commaSpan_le lo)
      rw [catOption.eq_def]
      dsimp only
      rw [e1, pbind_ok, e2, pbind_ok]
      cases dt with
      | none =>
        refine ⟨b2, rfl, ?_⟩
        rw [fullOption, namesOf_head, ← List.append_assoc]; exact h2
      | some d =>
        obtain ⟨b3, e3, h3⟩ := argCat_ok h2 (cs "=") (by decide)
        obtain ⟨b4, e4, h4⟩ := catDatatype_ok (holds_of h3) d (ctext hdt rfl) o
        dsimp only
        rw [e3, pbind_ok, e4]
        refine ⟨b4, rfl, ?_⟩
        rw [fullOption, namesOf_head]
        simpa only [List.append_assoc] using h4
    | none =>
      rw [catOption.eq_def]
      cases dt with
      | none => exact ⟨b, rfl, by simpa [fullOption] using h⟩
      | some d =>
        obtain ⟨b4, e4, h4⟩ := catDatatype_ok h d (ctext hdt rfl) o
        exact ⟨b4, e4, h4⟩

theorem intercalate_cons_cons' (sep a b : CStr) (l : List CStr) :
    sep.intercalate (a :: b :: l) = a ++ sep ++ sep.intercalate (b :: l) := by
  simp [List.intercalate]

theorem catShorts_ok (sep : CStr) (hsep : '\x00' ∉ sep) (so : CStr) (hso : '\x00' ∉ so) {b : CatBuf}
    {T : CStr} (h : Holds200 b T) :
    ∃ b', catShorts sep so b = .ok b' ∧ Holds200 b' (T ++ shortsText sep so) := by
  induction so generalizing b T with
  | nil => exact ⟨b, rfl, by simpa [shortsText, List.intercalate] using h⟩
  | cons c so ih =>
    have hc : '\x00' ∉ ['-', c] := by
      have : '\x00' ≠ c := fun e => hso (e ▸ List.mem_cons_self ..)
      simp [this]
    have hso' : '\x00' ∉ so := fun e => hso (List.mem_cons_of_mem _ e)
    obtain ⟨b1, e1, h1⟩ := argCat_ok h _ hc
    rw [catShorts, e1, pbind_ok]
    cases so with
    | nil =>
      obtain ⟨b2, e2, h2⟩ := ih hso' (holds_of h1)
      exact ⟨b2, by simpa [pbind_ok] using e2, by simpa [shortsText, List.intercalate] using h2⟩
    | cons d so =>
      obtain ⟨b2, e2, h2⟩ := argCat_ok (holds_of h1) sep hsep
      obtain ⟨b3, e3, h3⟩ := ih hso' (holds_of h2)
      refine ⟨b3, ?_, ?_⟩
      · rw [if_pos (by simp), e2, pbind_ok]; exact e3
      · rw [shortsText] at h3 ⊢
        rw [List.map_cons, List.map_cons, intercalate_cons_cons']
        simpa only [List.append_assoc, List.map_cons] using h3

theorem namesOf_split (s : CStr) (h : s ≠ []) :
    namesOf s = s.takeWhile (· != ',') :: namesOf ((s.dropWhile (· != ',')).tail) := by
  rw [← splitNames_eq, ← splitNames_eq]
  conv => lhs; rw [splitNames]
  rw [dif_neg h]

theorem namesOf_ne_nil {s : CStr} (h : s ≠ []) : namesOf s ≠ [] := by
  rw [namesOf_split s h]; simp

theorem longsText_last {sep s : CStr} (h : s ≠ []) (hd : s.dropWhile (· != ',') = []) :
    longsText sep s = cs "--" ++ s.takeWhile (· != ',') := by
  have hw : s.takeWhile (· != ',') = s := by
    have := List.takeWhile_append_dropWhile (p := (· != ',')) (l := s)
    rw [hd, List.append_nil] at this; exact this
  have hl : s.getLast? ≠ some ',' := by
    intro hc
    have := List.mem_of_getLast? hc
    rw [← hw] at this
    have := List.mem_takeWhile_imp this
    simp at this
  rw [longsText, namesOf_split s h, hd, if_neg hl]
  simp [namesOf, List.intercalate]

theorem longsText_more {sep s rest : CStr} (hd : s.dropWhile (· != ',') = ',' :: rest) :
    longsText sep s = cs "--" ++ s.takeWhile (· != ',') ++ sep ++ longsText sep rest := by
  have h : s ≠ [] := by rintro rfl; simp at hd
  have hs : s = s.takeWhile (· != ',') ++ ',' :: rest := by
    rw [← hd, List.takeWhile_append_dropWhile]
  have hl : s.getLast? = some ((',' :: rest).getLast (by simp)) := by
    rw [hs, List.getLast?_append_of_ne_nil _ (by simp), List.getLast?_eq_getLast_of_ne_nil (by simp)]
  rw [longsText, namesOf_split s h, hd, List.tail_cons, hl]
  cases rest with
  | nil => simp [namesOf, List.intercalate, longsText]
  | cons c r =>
    rw [longsText]
    have h1 : (c :: r).getLast? = some ((c :: r).getLast (by simp)) := List.getLast?_eq_getLast_of_ne_nil _
    have h2 : (',' :: c :: r).getLast (by simp) = (c :: r).getLast (by simp) := List.getLast_cons (by simp)
    rw [h1, h2]
    obtain ⟨n, ns, hn⟩ : ∃ n ns, namesOf (c :: r) = n :: ns := by
      cases h : namesOf (c :: r) with
      | nil => exact absurd h (namesOf_ne_nil (by simp))
      | cons n ns => exact ⟨n, ns, rfl⟩
    rw [hn, List.map_cons, List.map_cons, intercalate_cons_cons']
    simp only [List.append_assoc]

theorem catLongs_ok (sep : CStr) (hsep : '\x00' ∉ sep) (k : Nat) (lo : CStr) (hk : lo.length ≤ k)
    (hlo : '\x00' ∉ lo) {b : CatBuf} {T : CStr} (h : Holds200 b T) :
    ∃ b', catLongs sep lo b = .ok b' ∧ Holds200 b' (T ++ longsText sep lo) := by
  induction k generalizing lo b T with
  | zero =>
    have : lo = [] := List.length_eq_zero_iff.1 (by omega)
    subst this
    refine ⟨b, by rw [catLongs]; simp, by simpa [longsText, namesOf, List.intercalate] using h⟩
  | succ k ih =>
    by_cases hl : lo = []
    · subst hl
      refine ⟨b, by rw [catLongs]; simp, by simpa [longsText, namesOf, List.intercalate] using h⟩
    · obtain ⟨b1, e1, h1⟩ := argCat_ok h (cs "--") (by decide)
      obtain ⟨b2, e2, h2⟩ := strncat_ok h1 lo hlo (commaSpan lo) (commaSpan_le lo)
      rw [take_commaSpan] at h2
      rw [catLongs, dif_neg hl, e1, pbind_ok]
      dsimp only
      rw [e2, pbind_ok]
      have hdd := drop_commaSpan lo
      split
      · rename_i rest hc
        rw [hdd] at hc
        obtain ⟨b3, e3, h3⟩ := argCat_ok h2 sep hsep
        have hlen : (lo.dropWhile (· != ',')).length ≤ lo.length := (List.dropWhile_sublist _).length_le
        have hmem : '\x00' ∉ rest := fun e => hlo ((List.dropWhile_sublist (· != ',')).subset
          (by rw [hc]; exact List.mem_cons_of_mem _ e))
        rw [hc] at hlen
        obtain ⟨b4, e4, h4⟩ := ih rest (by simp at hlen; omega) hmem (holds_of h3)
        refine ⟨b4, by rw [e3, pbind_ok, e4], ?_⟩
        rw [longsText_more hc]
        simpa only [List.append_assoc] using h4
      · rename_i hc
        have hd : lo.dropWhile (· != ',') = [] := by
          cases hd : lo.dropWhile (· != ',') with
          | nil => rfl
          | cons c r =>
            have : ¬ ((c != ',') = true) := by
              have := List.head_dropWhile_not (p := (· != ',')) (l := lo) (by rw [hd]; simp)
              simpa [hd] using this
            simp at this
            subst this
            exact absurd (hdd.trans hd) (hc r)
        refine ⟨b2, rfl, ?_⟩
        rw [longsText_last hl hd]
        simpa only [List.append_assoc] using h2

def shortsPart (sep : CStr) : Option CStr → CStr
  | some so => shortsText sep so
  | none => []

def longsPart (sep : CStr) : Option CStr → CStr
  | some lo => longsText sep lo
  | none => []

def typePart (so lo : Option CStr) (o : Bool) : Option CStr → CStr
  | some d => (if lo.isSome then cs "=" else if so.isSome then cs " " else []) ++ valueText d o
  | none => []

def catShortsO (sep : CStr) (b : CatBuf) : Option CStr → M CatBuf
  | some so => catShorts sep so b
  | none => .ok b

def catLongsO (sep : CStr) (b : CatBuf) : Option CStr → M CatBuf
  | some so => catLongs sep so b
  | none => .ok b

def catSepO (sep : CStr) (so lo : Option CStr) (b : CatBuf) : M CatBuf :=
  if so.isSome ∧ lo.isSome then argCat b sep else .ok b

def catTypeO (so lo : Option CStr) (o : Bool) (b : CatBuf) : Option CStr → M CatBuf
  | some d => do
    let b ← if lo.isSome then argCat b (cs "=") else if so.isSome then argCat b (cs " ") else .ok b
    catDatatype b d o
  | none => .ok b

theorem fullOptionv_eq (so lo dt : Option CStr) (o : Bool) (sep : CStr) :
    fullOptionv so lo dt o sep = shortsPart sep so ++ (if so.isSome ∧ lo.isSome then sep else []) ++
      longsPart sep lo ++ typePart so lo o dt := by
  cases so <;> cases lo <;> cases dt <;> rfl

theorem catOptionv_eq (b : CatBuf) (so lo dt : Option CStr) (o : Bool) (sep : CStr) :
    catOptionv b so lo dt o sep = (catShortsO sep b so >>= fun b => catSepO sep so lo b >>= fun b =>
      catLongsO sep b lo >>= fun b => catTypeO so lo o b dt) := by
  rw [catOptionv.eq_def]
  cases so <;> cases lo <;> cases dt <;> rfl

theorem catOptionv_ok {b : CatBuf} {T : CStr} (h : Holds200 b T) {so lo dt : Option CStr}
    (hso : CText so) (hlo : CText lo) (hdt : CText dt) (o : Bool) {sep : CStr} (hsep : '\x00' ∉ sep) :
    ∃ b', catOptionv b so lo dt o sep = .ok b' ∧ Holds200 b' (T ++ fullOptionv so lo dt o sep) := by
  have p1 : ∃ b1, catShortsO sep b so = .ok b1 ∧ Holds200 b1 (T ++ shortsPart sep so) := by
    cases so with
    | none => exact ⟨b, rfl, by simpa [shortsPart] using h⟩
    | some so => exact catShorts_ok sep hsep so (ctext hso rfl) h
  obtain ⟨b1, e1, h1⟩ := p1
  have p2 : ∃ b2, catSepO sep so lo b1 = .ok b2 ∧
      Holds200 b2 (T ++ shortsPart sep so ++ (if so.isSome ∧ lo.isSome then sep else [])) := by
    rw [catSepO]
    split
    · obtain ⟨b2, e2, h2⟩ := argCat_ok h1 sep hsep
      exact ⟨b2, e2, holds_of h2⟩
    · exact ⟨b1, rfl, by simpa using h1⟩
  obtain ⟨b2, e2, h2⟩ := p2
  have p3 : ∃ b3, catLongsO sep b2 lo = .ok b3 ∧ Holds200 b3 (T ++ shortsPart sep so ++
        (if so.isSome ∧ lo.isSome then sep else []) ++ longsPart sep lo) := by
    cases lo with
    | none => exact ⟨b2, rfl, by simpa [longsPart] using h2⟩
    | some lo => exact catLongs_ok sep hsep _ lo (Nat.le_refl _) (ctext hlo rfl) h2
  obtain ⟨b3, e3, h3⟩ := p3
  have p4 : ∃ b4, catTypeO so lo o b3 dt = .ok b4 ∧ Holds200 b4 (T ++ shortsPart sep so ++
        (if so.isSome ∧ lo.isSome then sep else []) ++ longsPart sep lo ++ typePart so lo o dt) := by
    cases dt with
    | none => exact ⟨b3, rfl, by simpa [typePart] using h3⟩
    | some d =>
      rw [catTypeO, typePart]
      split
      · obtain ⟨b4, e4, h4⟩ := argCat_ok h3 (cs "=") (by decide)
        obtain ⟨b5, e5, h5⟩ := catDatatype_ok (holds_of h4) d (ctext hdt rfl) o
        exact ⟨b5, by rw [e4, pbind_ok]; exact e5, by simpa only [List.append_assoc] using h5⟩
      · split
        · obtain ⟨b4, e4, h4⟩ := argCat_ok h3 (cs " ") (by decide)
          obtain ⟨b5, e5, h5⟩ := catDatatype_ok (holds_of h4) d (ctext hdt rfl) o
          exact ⟨b5, by rw [e4, pbind_ok]; exact e5, by simpa only [List.append_assoc] using h5⟩
        · obtain ⟨b5, e5, h5⟩ := catDatatype_ok h3 d (ctext hdt rfl) o
          exact ⟨b5, by rw [pbind_ok]; exact e5, by simpa only [List.nil_append] using h5⟩
  obtain ⟨b4, e4, h4⟩ := p4
  refine ⟨b4, ?_, by rw [fullOptionv_eq]; simpa only [List.append_assoc] using h4⟩
  rw [catOptionv_eq, e1, pbind_ok, e2, pbind_ok, e3, pbind_ok, e4]

theorem syntaxBuf_ok (init : CStr) (hn : '\x00' ∉ init) (hl : init.length ≤ 198) :
    Holds200 (syntaxBuf init) init := by
  refine ⟨init, ⟨hn, ⟨List.replicate (199 - init.length) '\x00', ?_⟩, ?_, ?_, ?_, ?_⟩, ?_, rfl, by omega⟩
  · rw [syntaxBuf]
    dsimp only
    rw [show 200 - init.length = (199 - init.length) + 1 by omega, List.replicate_succ]
  · simp only [syntaxBuf, List.length_append, List.length_replicate]; omega
  · exact Nat.zero_le _
  · exact Nat.zero_le _
  · rfl
  · exact fun _ => rfl

theorem holds_str {b : CatBuf} {T : CStr} (h : Holds200 b T) : Clipped T (bufStr b.buf) := by
  obtain ⟨s, hs, hc⟩ := h
  rw [bufStr_holds hs]; exact hc

/-- `arg_cat_optionv` into a fresh buffer. -/
theorem renderv (so lo dt : Option CStr) (hso : CText so) (hlo : CText lo) (hdt : CText dt) (o : Bool)
    {sep : CStr} (hsep : '\x00' ∉ sep) (init : CStr) (hn : '\x00' ∉ init) (hl : init.length ≤ 198) :
    ∃ b, catOptionv (syntaxBuf init) so lo dt o sep = .ok b ∧
      Clipped (init ++ fullOptionv so lo dt o sep) (bufStr b.buf) := by
  obtain ⟨b, e, h⟩ := catOptionv_ok (syntaxBuf_ok init hn hl) hso hlo hdt o hsep
  exact ⟨b, e, holds_str h⟩

/-- `arg_cat_option` into a fresh buffer. -/
theorem render1 (so lo dt : Option CStr) (hso : CText so) (hlo : CText lo) (hdt : CText dt) (o : Bool) :
    ∃ b, catOption (syntaxBuf []) so lo dt o = .ok b ∧
      Clipped (fullOption so lo dt o) (bufStr b.buf) := by
  obtain ⟨b, e, h⟩ := catOption_ok (syntaxBuf_ok [] (by simp) (by simp)) hso hlo hdt o
  exact ⟨b, e, holds_str h⟩

end Argtable
