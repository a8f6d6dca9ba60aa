import Verif.Proofs.Print
/-!
# Syntax lines and glossaries (C45, C47)
-/

namespace Argtable

open Spec

variable {σ : Type}

theorem instances_eq (s : CStr) (a b : Int) : instances s a b = spaced (mentions s a b) := by
  have h : ∀ n, (List.replicate n (' ' :: s)).flatten = spaced (List.replicate n s) := by
    intro n
    induction n with
    | zero => rfl
    | succ n ih =>
      rw [List.replicate_succ, List.replicate_succ, List.flatten_cons, ih]
      simp [spaced, cs]
  rw [instances, mentions, h]
  rw [spaced, spaced, List.flatMap_append]
  congr 1
  by_cases h0 : b = a
  · subst h0; simp
  · by_cases h1 : b = a + 1
    · subst h1
      rw [if_neg (by omega), if_pos (by omega), if_neg (by omega), if_pos rfl]
      simp [cs]
    · by_cases h2 : b = a + 2
      · subst h2
        rw [if_neg (by omega), if_neg (by omega), if_pos (by omega), if_neg (by omega),
          if_neg (by omega), if_pos rfl]
        simp [cs]
      · rw [if_neg (by omega), if_neg (by omega), if_neg (by omega), if_neg h0, if_neg h1, if_neg h2]
        simp [cs]

theorem gnuswitchLoop_eq (p : Hdr σ → Bool) (es : List (Hdr σ)) (first : CStr) :
    gnuswitchLoop p es first =
      ((if es.filter p = [] then [] else first) ++ (es.filter p).flatMap shortHead,
        decide (es.filter p ≠ [])) := by
  induction es generalizing first with
  | nil => rfl
  | cons h t ih =>
    rw [gnuswitchLoop]
    by_cases hp : p h = true
    · rw [if_pos hp, ih, List.filter_cons_of_pos hp]
      by_cases ht : t.filter p = [] <;> simp [ht]
    · rw [if_neg hp, ih, List.filter_cons_of_neg hp]

theorem printGnuswitch_eq (es : List (Hdr σ)) : printGnuswitch es = switchText es := by
  rw [printGnuswitch, gnuswitchLoop_eq]
  dsimp only
  rw [gnuswitchLoop_eq, switchText]
  have h1 : (fun h : Hdr σ => !decide (h.mincount < 1) && isSwitch h)
      = (fun h => Switch h && decide (1 ≤ h.mincount)) := by
    funext h
    rw [Bool.and_comm]
    congr 1
    by_cases hh : h.mincount < 1
    · simp [hh]
    · have : 1 ≤ h.mincount := by omega
      simp [this]
  have h2 : (fun h : Hdr σ => !decide (h.mincount > 0) && isSwitch h)
      = (fun h => Switch h && !decide (1 ≤ h.mincount)) := by
    funext h
    rw [Bool.and_comm]
    congr 1
  have h3 : (shortHead : Hdr σ → CStr) = fun h => (h.shortopts.getD []).take 1 := rfl
  rw [h1, h2, h3]
  dsimp only
  cases es.filter (fun h => Switch h && decide (1 ≤ h.mincount)) <;>
    cases es.filter (fun h => Switch h && !decide (1 ≤ h.mincount)) <;> simp

theorem isSwitch_eq (h : Hdr σ) : isSwitch h = Switch h := rfl

/-- An entry's text on the abbreviated syntax line. -/
def shown (h : Hdr σ) (s : CStr) : CStr := if s = [] then [] else entryText h s

theorem syntaxLoop_ok (es : List (Hdr σ)) (hc : ∀ h ∈ es, CHdr h) :
    ∃ ss, List.Forall₂ (fun h s => Clipped (fullOption h.shortopts h.longopts h.datatype h.hasOptValue) s)
      (es.filter (fun h => !Switch h)) ss ∧
      syntaxLoop es = .ok (((es.filter (fun h => !Switch h)).zip ss).flatMap (fun p => shown p.1 p.2)) := by
  induction es with
  | nil => exact ⟨[], .nil, rfl⟩
  | cons h t ih =>
    obtain ⟨ss, hf, e⟩ := ih (fun x hx => hc x (List.mem_cons_of_mem _ hx))
    rw [syntaxLoop]
    by_cases hs : isSwitch h = true
    · rw [if_pos hs, List.filter_cons_of_neg (by rw [← isSwitch_eq, hs]; simp)]
      exact ⟨ss, hf, e⟩
    · obtain ⟨h1, h2, h3⟩ := hc h (List.mem_cons_self ..)
      obtain ⟨b, eb, hb⟩ := render1 _ _ _ h1 h2 h3 h.hasOptValue
      rw [if_neg hs, List.filter_cons_of_pos (by rw [← isSwitch_eq]; simpa using hs)]
      refine ⟨bufStr b.buf :: ss, .cons hb hf, ?_⟩
      rw [eb, pbind_ok]
      dsimp only
      rw [e, pbind_ok, List.zip_cons_cons, List.flatMap_cons]
      dsimp only
      rw [shown, entryText, instances_eq]
      by_cases hn : bufStr b.buf = []
      · simp [hn]
      · rw [if_neg hn, if_pos (List.length_pos_iff.2 hn)]

theorem syntaxvLoop_ok (es : List (Hdr σ)) (hc : ∀ h ∈ es, CHdr h) :
    ∃ ss, List.Forall₂ (fun h s => Clipped (fullOptionv h.shortopts h.longopts h.datatype h.hasOptValue
      (cs "|")) s) es ss ∧
      syntaxvLoop es = .ok ((es.zip ss).flatMap (fun p => entryText p.1 p.2)) := by
  induction es with
  | nil => exact ⟨[], .nil, rfl⟩
  | cons h t ih =>
    obtain ⟨ss, hf, e⟩ := ih (fun x hx => hc x (List.mem_cons_of_mem _ hx))
    obtain ⟨h1, h2, h3⟩ := hc h (List.mem_cons_self ..)
    obtain ⟨b, eb, hb⟩ := renderv _ _ _ h1 h2 h3 h.hasOptValue (sep := cs "|") (by decide) []
      (by simp) (by simp)
    refine ⟨bufStr b.buf :: ss, .cons (by simpa using hb) hf, ?_⟩
    rw [syntaxvLoop, eb, pbind_ok, e, pbind_ok, List.zip_cons_cons, List.flatMap_cons]
    dsimp only
    rw [entryText, instances_eq]

theorem printGlossary_ok (fmt2 : CStr → CStr → CStr) (es : List (Hdr σ)) (hc : ∀ h ∈ es, CHdr h) :
    ∃ ss, List.Forall₂ (fun h s => Clipped (fullOptionv h.shortopts h.longopts h.datatype h.hasOptValue
      (cs ", ")) s) (es.filter (fun h => h.glossary.isSome)) ss ∧
      printGlossary fmt2 es = .ok (((es.filter (fun h => h.glossary.isSome)).zip ss).flatMap
        (fun p => fmt2 p.2 (p.1.glossary.getD []))) := by
  induction es with
  | nil => exact ⟨[], .nil, rfl⟩
  | cons h t ih =>
    obtain ⟨ss, hf, e⟩ := ih (fun x hx => hc x (List.mem_cons_of_mem _ hx))
    rw [printGlossary.eq_def]
    dsimp only
    cases hg : h.glossary with
    | none =>
      rw [List.filter_cons_of_neg (by rw [hg]; simp)]
      exact ⟨ss, hf, e⟩
    | some g =>
      obtain ⟨h1, h2, h3⟩ := hc h (List.mem_cons_self ..)
      obtain ⟨b, eb, hb⟩ := renderv _ _ _ h1 h2 h3 h.hasOptValue (sep := cs ", ") (by decide) []
        (by simp) (by simp)
      rw [List.filter_cons_of_pos (by rw [hg]; rfl)]
      refine ⟨bufStr b.buf :: ss, .cons (by simpa using hb) hf, ?_⟩
      dsimp only
      rw [eb, pbind_ok, e, pbind_ok, List.zip_cons_cons, List.flatMap_cons]
      dsimp only
      rw [hg]; rfl

end Argtable
