import Verif.Spec.Help
import Verif.Proofs.Stuck
import Verif.Props.Hash
import Verif.Props.Print
/-!
# Lemmas about help messages
-/

namespace Argtable

open Spec

variable {P C σ : Type}

/-! ### The module information -/

theorem foldl_name (evs : List ModEvent) :
    (evs.foldl runMod modInit).name = evs.reverse.findSome? (fun | .name n => some n | _ => none) := by
  induction evs using List.reverseRecOn with
  | nil => rfl
  | append_singleton evs e ih =>
    rw [List.foldl_append, List.reverse_append]
    cases e with
    | name n => rfl
    | version a b c t => exact ih

theorem decText_eq (n : Int) : decText n = decimal n := by
  unfold decText decimal
  cases n with
  | ofNat m =>
    rw [if_neg (by simp)]
    show Nat.toDigits 10 m = (Nat.repr m).toList
    simp [Nat.repr]
  | negSucc m =>
    rw [if_pos (Int.negSucc_lt_zero m)]
    show '-' :: Nat.toDigits 10 (m + 1) = ("-" ++ Nat.repr (m + 1)).toList
    simp [Nat.repr]

theorem foldl_ver (evs : List ModEvent) :
    (evs.foldl runMod modInit).ver = (evs.reverse.findSome? (fun | .version a b c tag => some (a, b, c, tag) | _ => none)).map
      (fun (a, b, c, tag) => decimal a ++ cs "." ++ decimal b ++ cs "." ++ decimal c ++ cs "." ++ tag) := by
  induction evs using List.reverseRecOn with
  | nil => rfl
  | append_singleton evs e ih =>
    rw [List.foldl_append, List.reverse_append]
    cases e with
    | name n => exact ih
    | version a b c t =>
      show (some _ : Option CStr) = some _
      simp [decText_eq]

theorem moduleName_eq (evs : List ModEvent) : moduleName (evs.foldl runMod modInit) = progName evs := by
  unfold moduleName progName
  rw [foldl_name]
  cases evs.reverse.findSome? (fun | .name n => some n | _ => none) with
  | none => rfl
  | some n => cases n <;> rfl

theorem moduleVersion_eq (evs : List ModEvent) : moduleVersion (evs.foldl runMod modInit) = progVersion evs := by
  unfold moduleVersion progVersion
  rw [foldl_ver]
  cases evs.reverse.findSome? (fun | .version a b c tag => some (a, b, c, tag) | _ => none) with
  | none => rfl
  | some n =>
    obtain ⟨a, b, c, t⟩ := n
    dsimp only [Option.map_some]
    rw [if_neg]
    simp [cs]

/-! ### Entries that differ in their values only -/

theorem same_flatMap {f : Hdr σ → CStr} (hf : ∀ h p, f { h with parent := p } = f h) {es es' : List (Hdr σ)}
    (h : Frame es es') : es'.flatMap f = es.flatMap f := by
  induction h with
  | nil => rfl
  | cons h _ ih =>
    rw [List.flatMap_cons, List.flatMap_cons, ih]
    congr 1
    rw [h]
    exact hf _ _

theorem same_all {p : Hdr σ → Prop} (hp : ∀ h q, p h → p { h with parent := q }) {es es' : List (Hdr σ)}
    (h : Frame es es') (ha : ∀ h ∈ es, p h) : ∀ h ∈ es', p h := by
  induction h with
  | nil => exact ha
  | cons h _ ih =>
    intro k hk
    rcases List.mem_cons.1 hk with rfl | hk
    · rw [h]
      exact hp _ _ (ha _ (by simp))
    · exact ih (fun x hx => ha x (by simp [hx])) k hk

/-! ### The messages -/

theorem printSyntaxv_line (es : List (Hdr σ)) (suffix : CStr) (hc : ∀ h ∈ es, CHdr h) (hl : FitsLine es) :
    printSyntaxv es (some suffix) = .ok (es.flatMap (fun h => entryText h (spellings (cs "|") h)) ++ suffix) := by
  rw [C45_syntaxv_exact es _ hc (fun h hh => (hl h hh).1)]
  rfl

theorem glossary_lines (es : List (Hdr σ)) (hc : ∀ h ∈ es, CHdr h) (hl : FitsLine es) :
    printGlossary helpGlossary es =
      .ok (es.flatMap (fun h => match h.glossary with | some g => optionLine h g | none => [])) := by
  rw [C47_glossary_exact _ es hc (fun h hh => (hl h hh).2)]
  congr 1
  clear hc hl
  induction es with
  | nil => rfl
  | cons h es ih =>
    rw [List.filter_cons, List.flatMap_cons, ← ih]
    cases hg : h.glossary with
    | none => rfl
    | some g =>
      rw [if_pos (by rfl), List.flatMap_cons]
      congr 1
      rw [hg]
      simp only [helpGlossary, padRight, optionLine, spellings, Option.getD_some, List.append_assoc]

end Argtable
