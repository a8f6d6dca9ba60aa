import Verif.Model.Print
import Verif.Spec.Print
import Verif.Proofs.Print
import Mathlib.Data.List.GetD
/-!
# Word wrapping (C46)
-/

namespace Argtable

open Spec

/-- The character at an index, NUL at the end. -/
def tc (text : CStr) (i : Nat) : Char := text.getD i '\x00'

theorem charAt_ok {text : CStr} {i : Nat} (h : i ≤ text.length) : charAt text i = .ok (tc text i) := by
  rw [charAt, tc]
  by_cases h1 : i < text.length
  · rw [if_pos h1]
  · have : i = text.length := by omega
    rw [if_neg h1, if_pos this, this]; simp

theorem isSpace_nul : isSpace '\x00' = false := by decide

theorem tc_space_lt {text : CStr} {i : Nat} (h : isSpace (tc text i) = true) : i < text.length := by
  by_contra hc
  rw [tc, List.getD_eq_default _ _ (by omega)] at h
  exact absurd h (by decide)

/-- A blank other than a newline. -/
def blank (c : Char) : Bool := isSpace c && c != '\n'

theorem blank_iff {c : Char} : blank c = true ↔ (isSpace c = true ∧ c ≠ '\n') := by simp [blank]

theorem drop_eq_tc {text : CStr} {i : Nat} (h : i < text.length) :
    text.drop i = tc text i :: text.drop (i + 1) := by
  rw [List.drop_eq_getElem_cons h, tc, List.getD_eq_getElem _ _ h]

theorem fmtSkip_ok (text : CStr) (k i : Nat) (hi : i ≤ text.length) (hk : text.length < i + k) :
    fmtSkip text k i = .ok (i + ((text.drop i).takeWhile blank).length) := by
  induction k generalizing i with
  | zero => omega
  | succ k ih =>
    rw [fmtSkip, charAt_ok hi, pbind_ok]
    by_cases hb : blank (tc text i) = true
    · have hlt := tc_space_lt (blank_iff.1 hb).1
      rw [if_pos (blank_iff.1 hb), ih _ (by omega) (by omega), drop_eq_tc hlt,
        List.takeWhile_cons_of_pos hb, List.length_cons]
      congr 1; omega
    · rw [if_neg (fun h => hb (blank_iff.2 h))]
      by_cases hlt : i < text.length
      · rw [drop_eq_tc hlt, List.takeWhile_cons_of_neg hb]; simp
      · rw [List.drop_eq_nil_of_le (by omega)]; simp

theorem fmtBack_ok (text : CStr) (s e : Nat) (hs : s ≤ e) (he : e ≤ text.length) :
    ∃ j, fmtBack text s e = .ok j ∧ s ≤ j ∧ j ≤ e ∧
      (∀ k, j < k → k ≤ e → isSpace (tc text k) = false) ∧ (s < j → isSpace (tc text j) = true) := by
  induction e with
  | zero => exact ⟨0, rfl, by omega, by omega, by omega, by omega⟩
  | succ e ih =>
    rw [fmtBack]
    by_cases h : e + 1 > s
    · rw [if_pos h, charAt_ok he, pbind_ok]
      cases hsp : isSpace (tc text (e + 1)) with
      | true =>
        rw [if_neg (by simp)]
        exact ⟨e + 1, rfl, by omega, by omega, by omega, fun _ => hsp⟩
      | false =>
        rw [if_pos (by simp)]
        obtain ⟨j, h1, h2, h3, h4, h5⟩ := ih (by omega) (by omega)
        refine ⟨j, h1, h2, by omega, ?_, h5⟩
        intro k hk1 hk2
        by_cases hk : k = e + 1
        · subst hk; exact hsp
        · exact h4 k hk1 (by omega)
    · rw [if_neg h]
      exact ⟨e + 1, rfl, hs, by omega, by omega, by omega⟩

theorem fmtTrail_nl (text : CStr) (s e : Nat) (hs : s ≤ e) (he : e ≤ text.length)
    (h : tc text s = '\n') : fmtTrail text s e = .ok e := by
  cases e with
  | zero => rfl
  | succ e =>
    rw [fmtTrail]
    by_cases h0 : e + 1 > s
    · rw [if_pos h0, charAt_ok he, pbind_ok, charAt_ok (by omega), pbind_ok, if_neg (by simp [h])]
    · rw [if_neg h0]

theorem fmtTrail_ok (text : CStr) (s e : Nat) (hs : s ≤ e) (he : e ≤ text.length)
    (h : tc text s ≠ '\n') :
    ∃ j, fmtTrail text s e = .ok j ∧ s ≤ j ∧ j ≤ e ∧
      (∀ k, j < k → k ≤ e → isSpace (tc text k) = true) ∧ (s < j → isSpace (tc text j) = false) := by
  induction e with
  | zero => exact ⟨0, rfl, by omega, by omega, by omega, by omega⟩
  | succ e ih =>
    rw [fmtTrail]
    by_cases h0 : e + 1 > s
    · rw [if_pos h0, charAt_ok he, pbind_ok, charAt_ok (by omega), pbind_ok]
      cases hsp : isSpace (tc text (e + 1)) with
      | false =>
        rw [if_neg (by simp)]
        exact ⟨e + 1, rfl, by omega, by omega, by omega, fun _ => hsp⟩
      | true =>
        rw [if_pos ⟨rfl, h⟩]
        obtain ⟨j, h1, h2, h3, h4, h5⟩ := ih (by omega) (by omega)
        refine ⟨j, h1, h2, by omega, ?_, h5⟩
        intro k hk1 hk2
        by_cases hk : k = e + 1
        · subst hk; exact hsp
        · exact h4 k hk1 (by omega)
    · rw [if_neg h0]
      exact ⟨e + 1, rfl, hs, by omega, by omega, by omega⟩

/-- The line printed: up to a newline, which is consumed, or to the end of the segment. -/
theorem fmtLine_ok (text : CStr) (k i : Nat) (h : i + k ≤ text.length) :
    (∃ body more, text.drop i = body ++ '\n' :: more ∧ '\n' ∉ body ∧ body.length < k ∧
      fmtLine text k i = .ok (body, i + body.length + 1)) ∨
    ('\n' ∉ (text.drop i).take k ∧ fmtLine text k i = .ok ((text.drop i).take k, i + k)) := by
  induction k generalizing i with
  | zero => right; simp [fmtLine]
  | succ k ih =>
    have hlt : i < text.length := by omega
    rw [fmtLine, charAt_ok (by omega), pbind_ok, drop_eq_tc hlt]
    by_cases hc : tc text i = '\n'
    · left
      rw [if_pos hc, hc]
      exact ⟨[], _, rfl, by simp, by simp, by simp⟩
    · rw [if_neg hc]
      rcases ih (i + 1) (by omega) with ⟨body, more, e1, e2, e3, e4⟩ | ⟨e1, e2⟩
      · left
        refine ⟨tc text i :: body, more, by rw [e1]; rfl, ?_, by simpa using e3, ?_⟩
        · intro hm
          rcases List.mem_cons.1 hm with hm | hm
          · exact hc hm.symm
          · exact e2 hm
        · rw [e4, pbind_ok]
          dsimp only
          rw [List.length_cons]
          congr 2; omega
      · right
        rw [List.take_succ_cons]
        refine ⟨?_, ?_⟩
        · intro hm
          rcases List.mem_cons.1 hm with hm | hm
          · exact hc hm.symm
          · exact e1 hm
        · rw [e2, pbind_ok]
          dsimp only
          congr 2; omega

theorem mem_take_tc {text : CStr} {i m : Nat} {c : Char} (h : c ∈ (text.drop i).take m) :
    ∃ k, k < m ∧ i + k < text.length ∧ c = tc text (i + k) := by
  obtain ⟨k, hk, e⟩ := List.mem_iff_getElem.1 h
  rw [List.length_take, List.length_drop] at hk
  refine ⟨k, by omega, by omega, ?_⟩
  rw [tc, List.getD_eq_getElem _ _ (by omega), ← e]
  simp

theorem takeWhile_ge {p : Char → Bool} (text : CStr) (i m : Nat)
    (h : ∀ k, i ≤ k → k < i + m → k < text.length ∧ p (tc text k) = true) :
    m ≤ ((text.drop i).takeWhile p).length := by
  induction m generalizing i with
  | zero => omega
  | succ m ih =>
    obtain ⟨h1, h2⟩ := h i (by omega) (by omega)
    rw [drop_eq_tc h1, List.takeWhile_cons_of_pos h2, List.length_cons]
    have := ih (i + 1) (fun k hk1 hk2 => h k (by omega) (by omega))
    omega

theorem takeWhile_lt {p : Char → Bool} (text : CStr) (i k : Nat)
    (h : k < ((text.drop i).takeWhile p).length) : p (tc text (i + k)) = true := by
  have h1 := List.getElem_mem h
  have h2 := List.mem_takeWhile_imp h1
  have h3 : ((text.drop i).takeWhile p)[k] = tc text (i + k) := by
    have hle : ((text.drop i).takeWhile p).length ≤ (text.drop i).length :=
      (List.takeWhile_sublist _).length_le
    have hp := List.takeWhile_prefix (p := p) (l := text.drop i)
    rw [List.length_drop] at hle
    rw [hp.getElem, tc, List.getD_eq_getElem _ _ (by omega)]
    simp
  rw [h3] at h2; exact h2

/-- The decision where a line ends, argtable3.c:891-911: the cases. -/
inductive EndAt (text : CStr) (w i : Nat) : Nat → Prop
  | rest : text.length - i ≤ w → EndAt text w i text.length
  | cut : i + w < text.length → (∀ k, i < k → k ≤ i + w → isSpace (tc text k) = false) →
      EndAt text w i (i + w)
  | newline {e : Nat} : i + w < text.length → tc text i = '\n' → i < e → e ≤ text.length → EndAt text w i e
  | wrap {e e1 : Nat} : i + w < text.length → tc text i ≠ '\n' → i < e → e ≤ e1 → e1 ≤ i + w →
      (i + 1 < e → isSpace (tc text (e - 1)) = false) →
      (∀ k, e ≤ k → k ≤ e1 → isSpace (tc text k) = true) →
      (∀ k, e1 < k → k ≤ i + w → isSpace (tc text k) = false) → EndAt text w i e

theorem fmtEnd_ok (text : CStr) (w i : Nat) (hi : i ≤ text.length) (hn : text.length < 4294967295) :
    ∃ e, fmtEnd text w i text.length = .ok e ∧ EndAt text w i e := by
  have hw : wrap32 (text.length + 4294967296 - i) = text.length - i := by
    rw [wrap32]; omega
  rw [fmtEnd, hw]
  by_cases h : text.length - i > w
  · rw [if_pos h]
    have h0 : wrap32 (i + w) = i + w := by rw [wrap32]; omega
    dsimp only
    rw [h0]
    obtain ⟨e1, a1, a2, a3, a4, a5⟩ := fmtBack_ok text i (i + w) (by omega) (by omega)
    rw [a1, pbind_ok]
    by_cases h1 : e1 = i
    · rw [if_pos h1]
      subst h1
      exact ⟨_, rfl, .cut (by omega) a4⟩
    · rw [if_neg h1]
      have hsp := a5 (by omega)
      by_cases hnl : tc text i = '\n'
      · rw [fmtTrail_nl text i e1 a2 (by omega) hnl, pbind_ok]
        exact ⟨_, rfl, .newline (by omega) hnl (by omega) (by omega)⟩
      · obtain ⟨j, b1, b2, b3, b4, b5⟩ := fmtTrail_ok text i e1 a2 (by omega) hnl
        rw [b1, pbind_ok]
        have hj : j < e1 := by
          by_contra hc
          have : j = e1 := by omega
          subst this
          have := b5 (by omega)
          rw [hsp] at this; exact absurd this (by simp)
        refine ⟨_, rfl, .wrap (e1 := e1) (by omega) hnl (by omega) (by omega) a3 ?_ ?_ a4⟩
        · intro hh
          exact b5 (by omega)
        · intro k hk1 hk2
          exact b4 k (by omega) hk2
  · rw [if_neg h]
    exact ⟨_, rfl, .rest (by omega)⟩

/-- One round of the loop: the lines and the layout from index `i` on. -/
structure FmtSpec (text : CStr) (w : Nat) (ind : CStr) (i : Nat) (out : CStr) : Prop where
  ok : ∃ lines, Wraps w (text.drop i) lines ∧ LaidOut ind lines out ∧ (i < text.length → lines ≠ []) ∧
    ('\n' ∉ text.drop i → out = indentedLines ind lines)

theorem fmtLoop_step (text : CStr) (lm w fuel i : Nat) (hi : i < text.length)
    (hn : text.length < 4294967295) {e : Nat}
    (he : fmtEnd text w (i + ((text.drop i).takeWhile blank).length) text.length = .ok e)
    {line : CStr} {j : Nat}
    (hl : fmtLine text (e - (i + ((text.drop i).takeWhile blank).length))
      (i + ((text.drop i).takeWhile blank).length) = .ok (line, j)) :
    fmtLoop text lm w (fuel + 1) i text.length =
      (fmtLoop text lm w fuel j (if e < text.length then text.length else e) >>= fun r =>
        .ok (line ++ '\n' :: ((if e < text.length then List.replicate lm ' ' else []) ++ r))) := by
  rw [fmtLoop, if_pos hi, fmtSkip_ok text _ i (by omega) (by omega), pbind_ok, he, pbind_ok, hl, pbind_ok]
  by_cases h : e < text.length
  · simp only [if_pos h]
  · simp only [if_neg h]

theorem fmtLoop_end (text : CStr) (lm w fuel i : Nat) (hi : text.length ≤ i) :
    fmtLoop text lm w (fuel + 1) i text.length = .ok [] := by
  rw [fmtLoop, if_neg (by omega)]

theorem indentedLines_cons {ind l : CStr} {ls : List CStr} {out : CStr} (hne : ls ≠ [])
    (h : out = indentedLines ind ls) : l ++ '\n' :: (ind ++ out) = indentedLines ind (l :: ls) := by
  cases ls with
  | nil => exact absurd rfl hne
  | cons m ls => subst h; simp [indentedLines]

theorem fmtLoop_ok (text : CStr) (lm w : Nat) (hw : 0 < w) (hn : text.length < 4294967295) (m i fuel : Nat)
    (hi : i ≤ text.length) (hm : text.length - i ≤ m) (hf : m < fuel) :
    ∃ out, fmtLoop text lm w fuel i text.length = .ok out ∧
      FmtSpec text w (List.replicate lm ' ') i out := by
  induction m generalizing i fuel with
  | zero =>
    obtain ⟨fuel, rfl⟩ : ∃ f, fuel = f + 1 := ⟨fuel - 1, by omega⟩
    refine ⟨[], fmtLoop_end _ _ _ _ _ (by omega), ⟨[], ?_, .nil, by omega, fun _ => rfl⟩⟩
    rw [List.drop_eq_nil_of_le (by omega)]; exact .nil
  | succ m ih =>
    obtain ⟨fuel, rfl⟩ : ∃ f, fuel = f + 1 := ⟨fuel - 1, by omega⟩
    by_cases hlt : i < text.length
    swap
    · refine ⟨[], fmtLoop_end _ _ _ _ _ (by omega), ⟨[], ?_, .nil, by omega, fun _ => rfl⟩⟩
      rw [List.drop_eq_nil_of_le (by omega)]; exact .nil
    -- the leading blanks
    generalize hlead : (text.drop i).takeWhile blank = lead
    have hleadB : ∀ c ∈ lead, isSpace c = true ∧ c ≠ '\n' := by
      intro c hc
      rw [← hlead] at hc
      exact blank_iff.1 (List.mem_takeWhile_imp hc)
    have hsplit : text.drop i = lead ++ text.drop (i + lead.length) := by
      have h1 := List.prefix_iff_eq_append.1 (List.takeWhile_prefix (p := blank) (l := text.drop i))
      rw [hlead, List.drop_drop] at h1
      exact h1.symm
    have hil : i + lead.length ≤ text.length := by
      have := congrArg List.length hsplit
      rw [List.length_append, List.length_drop, List.length_drop] at this
      have : lead.length ≤ text.length - i := by
        rw [← hlead, ← List.length_drop]
        exact (List.takeWhile_sublist _).length_le
      omega
    generalize hi' : i + lead.length = i' at *
    have hhead : i' < text.length → ¬ (isSpace (tc text i') = true ∧ tc text i' ≠ '\n') := by
      intro hlt' hc
      have : i + lead.length < text.length := by omega
      have h1 : lead.length + 1 ≤ ((text.drop i).takeWhile blank).length := by
        apply takeWhile_ge
        intro k hk1 hk2
        refine ⟨by omega, ?_⟩
        by_cases hk : k = i'
        · subst hk; exact blank_iff.2 hc
        · have := takeWhile_lt (p := blank) text i (k - i) (by rw [hlead]; omega)
          rwa [show i + (k - i) = k by omega] at this
      rw [hlead] at h1; omega
    have hbodyhead : ∀ body more, text.drop i' = body ++ more →
        ∀ c ∈ body.head?, ¬ (isSpace c = true ∧ c ≠ '\n') := by
      intro body more hb c hc
      cases body with
      | nil => simp at hc
      | cons d body =>
        have hlt' : i' < text.length := by
          by_contra hcc
          rw [List.drop_eq_nil_of_le (by omega)] at hb; simp at hb
        rw [drop_eq_tc hlt'] at hb
        simp only [List.head?_cons, Option.mem_def, Option.some.injEq] at hc
        simp only [List.cons_append, List.cons.injEq] at hb
        rw [← hc, ← hb.1]
        exact hhead hlt'
    obtain ⟨e, he, hE⟩ := fmtEnd_ok text w i' hil hn
    have hee : i' ≤ e ∧ e ≤ text.length := by
      cases hE <;> omega
    have hstep := fun (line : CStr) (j : Nat) => fmtLoop_step text lm w fuel i hlt hn (e := e)
      (by rw [hlead, hi']; exact he) (line := line) (j := j)
    rw [hlead, hi'] at hstep
    have hie : (if e < text.length then text.length else e) = text.length := by split <;> omega
    rw [hie] at hstep
    -- the recursive call, for any later start
    have hrec : ∀ j, i < j → j ≤ text.length → ∃ out, fmtLoop text lm w fuel j text.length = .ok out ∧
        FmtSpec text w (List.replicate lm ' ') j out := fun j h1 h2 => ih j fuel h2 (by omega) (by omega)
    rcases fmtLine_ok text (e - i') i' (by omega) with ⟨body, more, b1, b2, b3, b4⟩ | ⟨b1, b2⟩
    · -- a newline in the line
      have hbm : body.length + (more.length + 1) = text.length - i' := by
        have := congrArg List.length b1
        rw [List.length_drop] at this
        simp at this; omega
      obtain ⟨out, o1, ⟨lines, o2, o3, o4, o5⟩⟩ := hrec (i' + body.length + 1) (by omega) (by omega)
      have hmore : text.drop (i' + body.length + 1) = more := by
        rw [Nat.add_assoc, ← List.drop_drop, b1]; simp
      have hbw : body.length ≤ w := by
        cases hE with
        | rest h => omega
        | cut h1 h2 => omega
        | newline h1 h2 h3 h4 =>
          cases body with
          | nil => simp
          | cons c body =>
            rw [drop_eq_tc (by omega), h2] at b1
            simp only [List.cons_append, List.cons.injEq] at b1
            exact absurd (b1.1 ▸ List.mem_cons_self ..) b2
        | wrap h1 h2 h3 h4 h5 h6 h7 h8 => omega
      have hs := hstep _ _ b4
      rw [o1, pbind_ok] at hs
      refine ⟨_, hs, ⟨body :: lines, ?_, ?_, by simp, ?_⟩⟩
      · rw [hsplit, b1, ← List.append_assoc]
        exact .newline hleadB (hbodyhead _ _ b1) b2 hbw (hmore ▸ o2)
      · by_cases hlines : lines = []
        · subst hlines
          have hx : ¬ i' + body.length + 1 < text.length := fun h => o4 h rfl
          have : ¬ e < text.length := by omega
          rw [if_neg this]
          cases o3
          simpa using LaidOut.one body
        · split
          · simpa using LaidOut.indented body hlines o3
          · simpa using LaidOut.flush body hlines o3
      · intro hnl
        exfalso
        apply hnl
        rw [hsplit, b1]
        simp
    · -- no newline in the line
      by_cases hrest : e = text.length
      · -- it goes to the end of the text
        have hr : ∃ out, fmtLoop text lm w fuel (i' + (e - i')) text.length = .ok out ∧ out = [] := by
          obtain ⟨fuel, rfl⟩ : ∃ f, fuel = f + 1 := ⟨fuel - 1, by omega⟩
          exact ⟨[], fmtLoop_end _ _ _ _ _ (by omega), rfl⟩
        obtain ⟨out, o1, rfl⟩ := hr
        have htake : (text.drop i').take (e - i') = text.drop i' := by
          rw [List.take_of_length_le]; rw [List.length_drop]; omega
        rw [htake] at b1 b2
        have hbw : (text.drop i').length ≤ w := by
          rw [List.length_drop]
          cases hE with
          | rest h => omega
          | cut h1 h2 => omega
          | newline h1 h2 h3 h4 =>
            rw [drop_eq_tc (by omega), h2] at b1
            exact absurd (List.mem_cons_self ..) b1
          | wrap h1 h2 h3 h4 h5 h6 h7 h8 => omega
        have hs := hstep _ _ b2
        rw [o1, pbind_ok] at hs
        refine ⟨_, hs, ⟨[text.drop i'], ?_, ?_, by simp, ?_⟩⟩
        · have := Wraps.rest (w := w) (lead := lead) (body := text.drop i')
            (by rw [← hsplit]; intro hc; have := congrArg List.length hc; simp at this; omega) hleadB
            (hbodyhead _ [] (by simp)) b1 hbw
          rwa [← hsplit] at this
        · rw [if_neg (by omega)]
          simpa using LaidOut.one (text.drop i')
        · intro _
          rw [if_neg (by omega)]
          simp [indentedLines]
      · -- there is more text
        have helt : e < text.length := by omega
        have hie' : i' < e := by
          cases hE with
          | rest h => omega
          | cut h1 h2 => omega
          | newline h1 h2 h3 h4 => exact h3
          | wrap h1 h2 h3 h4 h5 h6 h7 h8 => exact h3
        obtain ⟨out, o1, ⟨lines, o2, o3, o4, o5⟩⟩ := hrec e (by omega) (by omega)
        have hje : i' + (e - i') = e := by omega
        rw [hje] at b2
        have hsp2 : text.drop i' = (text.drop i').take (e - i') ++ text.drop e := by
          conv => lhs; rw [← List.take_append_drop (e - i') (text.drop i')]
          rw [List.drop_drop, hje]
        have hlen : ((text.drop i').take (e - i')).length = e - i' := by
          rw [List.length_take, List.length_drop]; omega
        have hhd : tc text i' ≠ '\n' := by
          intro hc
          apply b1
          rw [drop_eq_tc (by omega), show e - i' = (e - i' - 1) + 1 by omega, List.take_succ_cons, hc]
          exact List.mem_cons_self ..
        have hhd2 : isSpace (tc text i') = false := by
          cases hs : isSpace (tc text i') with
          | false => rfl
          | true => exact absurd ⟨hs, hhd⟩ (hhead (by omega))
        have hlines := o4 helt
        have hs := hstep _ _ b2
        rw [o1, pbind_ok] at hs
        refine ⟨_, hs, ⟨(text.drop i').take (e - i') :: lines, ?_, ?_, by simp, ?_⟩⟩
        · have hd : text.drop i = lead ++ (text.drop i').take (e - i') ++ text.drop e := by
            rw [List.append_assoc, ← hsp2]; exact hsplit
          rw [hd]
          cases hE with
          | rest h => omega
          | cut h1 h2 =>
            refine .cut hleadB ?_ (by rw [hlen]; omega) ?_ o2
            · intro c hc
              obtain ⟨k, k1, k2, rfl⟩ := mem_take_tc hc
              by_cases hk : k = 0
              · subst hk; exact hhd2
              · exact h2 _ (by omega) (by omega)
            · intro hc
              have := takeWhile_ge (p := fun c => !isSpace c) text (i' + w) 1 (by
                intro k hk1 hk2
                have : k = i' + w := by omega
                subst this
                exact ⟨h1, by simp [h2 (i' + w) (by omega) (by omega)]⟩)
              rw [frontWord] at hc
              rw [hc] at this
              simp at this
          | newline h1 h2 h3 h4 => exact absurd h2 hhd
          | wrap h1 h2 h3 h4 h5 h6 h7 h8 =>
            rename_i e1
            have hgap : e1 + 1 - e ≤ (frontGap (text.drop e)).length := by
              apply takeWhile_ge
              intro k hk1 hk2
              exact ⟨by omega, h7 k hk1 (by omega)⟩
            refine .wrap hleadB ?_ ?_ ?_ b1 (by rw [hlen]; omega) ?_ ?_ o2
            · intro c hc
              rw [drop_eq_tc (by omega), show e - i' = (e - i' - 1) + 1 by omega, List.take_succ_cons] at hc
              simp only [List.head?_cons, Option.mem_def, Option.some.injEq] at hc
              rw [← hc]; exact hhd2
            · intro c hc
              rw [List.getLast?_eq_getElem?, hlen] at hc
              have hc' : c = tc text (e - 1) := by
                rw [List.getElem?_take_of_lt (by omega), List.getElem?_drop,
                  List.getElem?_eq_getElem (by omega)] at hc
                simp only [Option.mem_def, Option.some.injEq] at hc
                rw [tc, List.getD_eq_getElem _ _ (by omega), ← hc]
                congr 1; omega
              rw [hc']
              by_cases hh : i' + 1 < e
              · exact h6 hh
              · rw [show e - 1 = i' by omega]; exact hhd2
            · intro hc
              rw [hc] at hlen; simp at hlen; omega
            · intro hc
              rw [hc] at hgap; simp at hgap; omega
            · rw [hlen]
              by_cases hg : (frontGap (text.drop e)).length = e1 + 1 - e
              · rw [hg, List.drop_drop, show e + (e1 + 1 - e) = e1 + 1 by omega]
                have := takeWhile_ge (p := fun c => !isSpace c) text (e1 + 1) (i' + w - e1) (by
                  intro k hk1 hk2
                  exact ⟨by omega, by simp [h8 k (by omega) (by omega)]⟩)
                rw [frontWord]; omega
              · have h9 : isSpace (tc text (e + (e1 + 1 - e))) = true :=
                  takeWhile_lt (p := isSpace) text e (e1 + 1 - e) (by rw [frontGap] at hgap hg; omega)
                rw [show e + (e1 + 1 - e) = e1 + 1 by omega] at h9
                have : ¬ e1 + 1 ≤ i' + w := fun hc => by
                  rw [h8 (e1 + 1) (by omega) hc] at h9; exact absurd h9 (by simp)
                omega
        · rw [if_pos helt]
          simpa using LaidOut.indented _ hlines o3
        · intro hnl
          rw [if_pos helt]
          apply indentedLines_cons hlines
          apply o5
          intro hc
          apply hnl
          rw [hsplit, hsp2]
          simp [hc]

/-! ### Consequences of the layout relation -/

theorem wraps_width {w : Nat} {text : CStr} {lines : List CStr} (h : Wraps w text lines) :
    ∀ l ∈ lines, l.length ≤ w := by
  induction h with
  | nil => simp
  | rest _ _ _ _ hb => intro l hl; simp at hl; subst hl; exact hb
  | newline _ _ _ hb _ ih =>
    intro l hl
    rcases List.mem_cons.1 hl with rfl | hl
    · exact hb
    · exact ih l hl
  | wrap _ _ _ _ _ hb _ _ _ ih =>
    intro l hl
    rcases List.mem_cons.1 hl with rfl | hl
    · exact hb
    · exact ih l hl
  | cut _ _ hb _ _ ih =>
    intro l hl
    rcases List.mem_cons.1 hl with rfl | hl
    · exact hb.le
    · exact ih l hl

theorem filter_blank {l : CStr} (h : ∀ c ∈ l, isSpace c = true ∧ c ≠ '\n') :
    l.filter (fun c => !isSpace c) = [] := by
  rw [List.filter_eq_nil_iff]
  intro c hc
  simp [(h c hc).1]

theorem wraps_chars {w : Nat} {text : CStr} {lines : List CStr} (h : Wraps w text lines) :
    lines.flatten.filter (fun c => !isSpace c) = text.filter (fun c => !isSpace c) := by
  induction h with
  | nil => rfl
  | rest _ hl _ _ _ => simp [filter_blank hl]
  | newline hl _ _ _ _ ih =>
    simp only [List.flatten_cons, List.filter_append, ih, filter_blank hl, List.nil_append]
    rw [List.filter_cons_of_neg (by decide)]
  | wrap hl _ _ _ _ _ _ _ _ ih =>
    simp only [List.flatten_cons, List.filter_append, ih, filter_blank hl, List.nil_append]
  | cut hl _ _ _ _ ih =>
    simp only [List.flatten_cons, List.filter_append, ih, filter_blank hl, List.nil_append]

theorem wordsOf_append (a b : CStr) {c : Char} (h : isSpace c = true) :
    wordsOf (a ++ c :: b) = wordsOf a ++ wordsOf b := by
  rw [wordsOf, List.splitOnP_append_cons _ _ h, List.filter_append]; rfl

theorem wordsOf_cons {c : Char} (b : CStr) (h : isSpace c = true) : wordsOf (c :: b) = wordsOf b := by
  have := wordsOf_append [] b h
  simpa [wordsOf] using this

theorem wordsOf_lead {l : CStr} (h : ∀ c ∈ l, isSpace c = true ∧ c ≠ '\n') (b : CStr) :
    wordsOf (l ++ b) = wordsOf b := by
  induction l with
  | nil => rfl
  | cons c l ih =>
    rw [List.cons_append, wordsOf_cons _ (h c (List.mem_cons_self ..)).1,
      ih (fun d hd => h d (List.mem_cons_of_mem _ hd))]

/-- A run of non-white characters is part of a word. -/
theorem wordsOf_run {r : CStr} (hr : ∀ c ∈ r, isSpace c = false) (hne : r ≠ []) (b : CStr) :
    ∃ wd ∈ wordsOf (r ++ b), r <+: wd := by
  by_cases hb : ∀ c ∈ b, isSpace c = false
  · refine ⟨r ++ b, ?_, List.prefix_append _ _⟩
    rw [wordsOf, List.splitOnP_eq_singleton]
    · simp [hne]
    · intro c hc
      rcases List.mem_append.1 hc with hc | hc
      · exact hr c hc
      · exact hb c hc
  · push Not at hb
    have hdw : b.dropWhile (fun c => !isSpace c) ≠ [] := by
      obtain ⟨c, hc, hs⟩ := hb
      intro he
      rw [List.dropWhile_eq_nil_iff] at he
      have := he c hc
      simp at this
      exact hs this
    obtain ⟨d, t, hd⟩ : ∃ d t, b.dropWhile (fun c => !isSpace c) = d :: t := by
      cases h : b.dropWhile (fun c => !isSpace c) with
      | nil => exact absurd h hdw
      | cons d t => exact ⟨d, t, rfl⟩
    have hds : isSpace d = true := by
      have := List.head_dropWhile_not (p := fun c => !isSpace c) (l := b) hdw
      simpa [hd] using this
    have hb' : b = b.takeWhile (fun c => !isSpace c) ++ d :: t := by
      rw [← hd, List.takeWhile_append_dropWhile]
    rw [hb', ← List.append_assoc, wordsOf_append _ _ hds]
    refine ⟨r ++ b.takeWhile (fun c => !isSpace c), List.mem_append_left _ ?_, List.prefix_append _ _⟩
    rw [wordsOf, List.splitOnP_eq_singleton]
    · simp [hne]
    · intro c hc
      rcases List.mem_append.1 hc with hc | hc
      · exact hr c hc
      · have := List.mem_takeWhile_imp hc
        simpa using this

theorem wraps_words {w : Nat} {text : CStr} {lines : List CStr} (h : Wraps w text lines)
    (hw : ∀ wd ∈ wordsOf text, wd.length ≤ w) : lines.flatMap wordsOf = wordsOf text := by
  induction h with
  | nil => rfl
  | rest _ hl _ _ _ => rw [wordsOf_lead hl]; simp
  | newline hl _ _ _ _ ih =>
    rw [List.append_assoc, wordsOf_lead hl, wordsOf_append _ _ (by decide)] at hw ⊢
    rw [List.flatMap_cons, ih (fun x hx => hw x (List.mem_append_right _ hx))]
  | @wrap lead body more lines hl _ _ _ _ _ hg _ _ ih =>
    obtain ⟨d, t, rfl, hd⟩ : ∃ d t, more = d :: t ∧ isSpace d = true := by
      cases more with
      | nil => simp [frontGap] at hg
      | cons d t =>
        refine ⟨d, t, rfl, ?_⟩
        cases hd : isSpace d with
        | true => rfl
        | false => exact absurd (by rw [frontGap, List.takeWhile_cons_of_neg (by simp [hd])]) hg
    rw [List.append_assoc, wordsOf_lead hl, wordsOf_append _ _ hd] at hw ⊢
    rw [wordsOf_cons _ hd] at ih
    rw [List.flatMap_cons, ih (fun x hx => hw x (List.mem_append_right _ hx))]
  | @cut lead body more lines hl hb hlen hm _ ih =>
    exfalso
    obtain ⟨d, t, rfl, hd⟩ : ∃ d t, more = d :: t ∧ isSpace d = false := by
      cases more with
      | nil => simp [frontWord] at hm
      | cons d t =>
        refine ⟨d, t, rfl, ?_⟩
        cases hd : isSpace d with
        | false => rfl
        | true => exact absurd (by rw [frontWord, List.takeWhile_cons_of_neg (by simp [hd])]) hm
    rw [List.append_assoc, wordsOf_lead hl] at hw
    obtain ⟨wd, h1, h2⟩ := wordsOf_run (r := body ++ [d]) (by
      intro c hc
      rcases List.mem_append.1 hc with hc | hc
      · exact hb c hc
      · simp at hc; subst hc; exact hd) (by simp) t
    have h3 := hw wd (by simpa using h1)
    have h4 := h2.length_le
    simp at h4
    omega

/-! ### A column of width 0 -/

theorem fmtLoop_hang (text : CStr) (lm : Nat) (hn : text.length < 4294967295) (fuel i : Nat)
    (hi : i + ((text.drop i).takeWhile blank).length < text.length) :
    fmtLoop text lm 0 fuel i text.length = .error .fuel := by
  induction fuel generalizing i with
  | zero => rfl
  | succ fuel ih =>
    generalize hi' : i + ((text.drop i).takeWhile blank).length = i' at *
    have he : fmtEnd text 0 i' text.length = .ok i' := by
      have hw : wrap32 (text.length + 4294967296 - i') = text.length - i' := by rw [wrap32]; omega
      have h0 : wrap32 (i' + 0) = i' := by rw [wrap32]; omega
      rw [fmtEnd, hw, if_pos (by omega)]
      dsimp only
      rw [h0]
      obtain ⟨e1, a1, a2, a3, _⟩ := fmtBack_ok text i' i' (by omega) (by omega)
      rw [a1, pbind_ok, if_pos (by omega)]
    have hl : fmtLine text (i' - i') i' = .ok ([], i') := by
      rw [Nat.sub_self]; rfl
    have hstep := fmtLoop_step text lm 0 fuel i (by omega) hn (e := i') (by rw [hi']; exact he)
      (line := []) (j := i') (by rw [hi']; exact hl)
    rw [hstep, if_pos hi]
    have hnb : (text.drop i').takeWhile blank = [] := by
      have h1 := List.prefix_iff_eq_append.1 (List.takeWhile_prefix (p := blank) (l := text.drop i))
      rw [List.drop_drop, hi'] at h1
      rw [drop_eq_tc hi]
      apply List.takeWhile_cons_of_neg
      intro hb
      have h2 : ((text.drop i).takeWhile blank).length + 1 ≤ ((text.drop i).takeWhile blank).length := by
        apply takeWhile_ge
        intro k hk1 hk2
        refine ⟨by omega, ?_⟩
        by_cases hk : k = i'
        · subst hk; exact hb
        · have := takeWhile_lt (p := blank) text i (k - i) (by omega)
          rwa [show i + (k - i) = k by omega] at this
      omega
    rw [ih i' (by rw [hnb]; simpa using hi)]
    rfl

end Argtable
