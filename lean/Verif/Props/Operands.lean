import Verif.Proofs.Operands
import Verif.Props.Parse
/-!
# Operands (C11)
-/

namespace Argtable

open Spec

variable {δ : Type} {lc : Libc δ} {env : Bool} {m : Nat}

/-- C11.  Let the command line read as the events `evs` followed by the operands `ops`, and let the
options alone leave the entries `es1` and the errors `errs1`.  Then the operands are handed out as
`Handout` says; each operand that is left over gives rise to one error, which carries it; and the number
of values stored is the number of operands that are not left over. -/
theorem C11_operands {t : Table (Obj δ)} (hend : EndOK m t.fin) (hwf : WF (t.entries.map declOf))
    (hl : ∀ h ∈ t.entries, Live lc AnyPat h) (argv : List CStr) (hargs : CArgs argv.tail)
    (g : GState) (r : Nat × Table (Obj δ) × GState) (hr : Returns env argv t g r) :
    ∃ evs ops es1 errs1 errs2 left,
      tokenize (t.entries.map declOf) env argv.tail = some (evs, ops) ∧
      afterOptions t.entries evs = .ok (es1, errs1) ∧
      Handout es1 ops r.2.1.entries left ∧
      errs2.map (·.argval) = left.map some ∧
      r.2.1.fin.slots.take r.1 = recorded m
        (if errs1 ++ errs2 = [] then missing r.2.1.entries 0 else errs1 ++ errs2) ∧
      (r.2.1.entries.map (·.parent.count)).sum + left.length
        = (es1.map (·.parent.count)).sum + ops.length := by
  obtain ⟨evs, ops, raised, htok, hsc, _, hrec⟩ := C16_missing hend hwf hl argv hargs g r hr
  obtain ⟨s, w, h1, h2, h3⟩ := scanned_split hsc
  have hf := afterOptions_frame h1
  have hlive : ∀ h ∈ s.1, ∀ f, h.scanfn = some f → ∃ h0, Live lc AnyPat h0 ∧ h0.scanfn = some f := by
    intro h hh f hs
    obtain ⟨k, hk, e⟩ := hf.mem_right hh
    refine ⟨k, hl k hk, ?_⟩
    rw [e] at hs; exact hs
  have e1 : r.2.1.entries = w.1 := congrArg Prod.fst h3
  have e2 : raised = s.2 ++ w.2 := congrArg Prod.snd h3
  obtain ⟨left, h4, h5⟩ := operands_handout s.1 0 none ops w (by
    intro h hh f hs p a q c hq hc
    obtain ⟨h0, hl0, hs0⟩ := hlive h hh f hs
    exact C24_rejected hl0 f hs0 p q a c hq hc) h2
  rw [← e1] at h4
  refine ⟨evs, ops, s.1, s.2, w.2, left, htok, h1, h4, h5, ?_, ?_⟩
  · rw [hrec, e2]
  · refine handout_count h4 ?_
    intro h hh f hs p a q hq
    obtain ⟨h0, hl0, hs0⟩ := hlive h hh f hs
    exact live_scan_count hl0 hs0 p a q hq

/-- With two integers and two strings as operands, `prog 1 x y z` leaves `z` over. -/
example : ∃ n s : Hdr (Obj Unit),
    argIntn none none none 0 2 none = .ok n ∧ argStrn none none none 0 2 none = .ok s ∧
    Handout [n, Demo.a, s] [cs "1", cs "x", cs "y", cs "z"]
      [{ n with parent := .int ⟨1, [some 1, none]⟩ }, Demo.a,
       { s with parent := .str ⟨2, [cs "x", cs "y"]⟩ }] [cs "z"] := by
  refine ⟨_, _, rfl, rfl, ?_⟩
  refine .take (seg := [cs "1"]) (rest := [cs "x", cs "y", cs "z"]) ⟨rfl, rfl, rfl⟩
    (.cons (by with_unfolding_all rfl) (.nil _)) ?_ ?_
  · intro a h
    cases h
    exact ⟨3, by decide, by with_unfolding_all rfl⟩
  refine .skip (fun f h => ?_) ?_
  · cases h.1
  refine .take (seg := [cs "x", cs "y"]) (rest := [cs "z"]) ⟨rfl, rfl, rfl⟩
    (.cons (by rfl) (.cons (by rfl) (.nil _))) ?_ (.done _)
  intro a h
  cases h
  exact ⟨2, by decide, by rfl⟩

end Argtable
