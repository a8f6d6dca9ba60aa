import Verif.Proofs.PrintTable
import Verif.Proofs.Wrap
/-!
# The GNU style glossary
-/

namespace Argtable

open Spec

variable {σ : Type}

theorem gnuHead_eq (s : CStr) :
    (if s.length > 25 then (cs "  " ++ padRight 25 s ++ cs " " ++ cs "\n") ++ cs "  " ++ padRight 25 [] ++ cs " "
      else [] ++ cs "  " ++ padRight 25 s ++ cs " ") = gnuColumn s := by
  rw [gnuColumn]
  by_cases h : s.length ≤ 25
  · rw [if_neg (by omega), if_pos h]
    simp [padRight]
  · rw [if_pos (by omega), if_neg h]
    have : 25 - s.length = 0 := by omega
    simp [padRight, this, cs, List.replicate]

theorem gnuEntry_ok (fuel : Nat) (h : Hdr σ) (g : CStr) (hg : h.glossary = some g) (hc : CHdr h)
    (hn : g.length < 4294967295) (hf : g.length < fuel) :
    ∃ text, gnuEntry fuel h g = .ok text ∧ GnuEntry h text := by
  obtain ⟨h1, h2, h3⟩ := hc
  have hin : (if h.shortopts.isNone ∧ h.longopts.isSome then cs "    " else [])
      = (if h.shortopts = none ∧ h.longopts ≠ none then cs "    " else []) := by
    cases h.shortopts <;> cases h.longopts <;> simp
  obtain ⟨b, eb, hb⟩ := renderv _ _ _ h1 h2 h3 h.hasOptValue (sep := cs ", ") (by decide)
    (if h.shortopts = none ∧ h.longopts ≠ none then cs "    " else [])
    (by split <;> decide) (by split <;> decide)
  obtain ⟨out, o1, ⟨lines, o2, o3, _, _⟩⟩ := fmtLoop_ok g 28 52 (by omega) hn g.length 0 fuel (by omega)
    (by omega) hf
  have hp : printFormatted fuel 28 79 g = .ok out := o1
  rw [gnuEntry]
  dsimp only
  rw [hin, eb, pbind_ok]
  refine ⟨gnuColumn (bufStr b.buf) ++ out, ?_, g, _, lines, out, hg, hb, o2, o3, rfl⟩
  rw [← gnuHead_eq]
  by_cases hl : (bufStr b.buf).length > 25
  · simp only [if_pos hl]
    rw [hp, pbind_ok]
  · simp only [if_neg hl]
    rw [hp, pbind_ok]

theorem gnuLoop_ok (fuel : Nat) (es : List (Hdr σ)) (hc : ∀ h ∈ es, CHdr h)
    (hg : ∀ h ∈ es, ∀ g, h.glossary = some g → g.length < 4294967295 ∧ g.length < fuel) :
    ∃ ts, List.Forall₂ GnuEntry (es.filter (fun h => h.glossary.isSome)) ts ∧
      gnuLoop fuel es = .ok ts.flatten := by
  induction es with
  | nil => exact ⟨[], .nil, rfl⟩
  | cons h t ih =>
    obtain ⟨ts, hf, e⟩ := ih (fun x hx => hc x (List.mem_cons_of_mem _ hx))
      (fun x hx => hg x (List.mem_cons_of_mem _ hx))
    rw [gnuLoop.eq_def]
    dsimp only
    cases hgl : h.glossary with
    | none =>
      rw [List.filter_cons_of_neg (by rw [hgl]; simp)]
      exact ⟨ts, hf, e⟩
    | some g =>
      obtain ⟨b1, b2⟩ := hg h (List.mem_cons_self ..) g hgl
      obtain ⟨text, e1, h1⟩ := gnuEntry_ok fuel h g hgl (hc h (List.mem_cons_self ..)) b1 b2
      rw [List.filter_cons_of_pos (by rw [hgl]; rfl)]
      refine ⟨text :: ts, .cons h1 hf, ?_⟩
      dsimp only
      rw [e1, pbind_ok, e, pbind_ok, List.flatten_cons]

end Argtable
