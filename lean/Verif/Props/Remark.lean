import Verif.Proofs.Remark
import Verif.Proofs.Outcome
import Verif.Props.Cmdline
/-!
# Remarks in the table (C17)
-/

namespace Argtable

open Spec

variable {δ : Type} {env : Bool} {m : Nat}

theorem rem_inert (dt gl : Option CStr) : Inert (argRem dt gl : Hdr (Obj δ)) := ⟨rfl, rfl, rfl, rfl, rfl⟩

/-- C17.  Let the table `t'` differ from `t` by one `arg_rem` entry, at any position.  If `arg_parse`
returns for one of them then it does so for the other, with the same return value, the same entries (and
the remark where it was), and the same error records, where the entries they refer to are numbered
according to the table.  Repeated use covers any number of remarks. -/
theorem C17_remark {t t' : Table (Obj δ)} (hend : EndOK m t.fin) (hend' : EndOK m t'.fin)
    (hwf : WF (t.entries.map declOf)) (xs ys : List (Hdr (Obj δ))) (dt gl : Option CStr)
    (ht : t.entries = xs ++ ys) (ht' : t'.entries = xs ++ argRem dt gl :: ys) (argv : List CStr)
    (hargs : CArgs argv.tail) (g g' : GState) :
    (∀ r, Returns env argv t g r → ∃ r', Returns env argv t' g' r' ∧ SameBut (argRem dt gl) xs.length r r') ∧
    (∀ r', Returns env argv t' g' r' → ∃ r, Returns env argv t g r ∧ SameBut (argRem dt gl) xs.length r r') := by
  have hk : xs.length ≤ t.entries.length := by rw [ht]; simp
  have hes : t'.entries = ins (argRem dt gl) xs.length t.entries := by rw [ht', ht, ins_append]
  have hds : t'.entries.map declOf
      = ins (declOf (argRem dt gl : Hdr (Obj δ))) xs.length (t.entries.map declOf) := by
    rw [hes, ins_map]
  have hwf' : WF (t'.entries.map declOf) := by
    intro d hd
    rw [ht'] at hd
    rw [ht] at hwf
    simp only [List.map_append, List.map_cons, List.mem_append, List.mem_cons] at hd
    rcases hd with hd | rfl | hd
    · exact hwf d (by simp only [List.map_append, List.mem_append]; exact Or.inl hd)
    · exact ⟨(by intro s h; cases h), (by intro s h; cases h)⟩
    · exact hwf d (by simp only [List.map_append, List.mem_append]; exact Or.inr hd)
  have htk : tokenize (t'.entries.map declOf) env argv.tail
      = (tokenize (t.entries.map declOf) env argv.tail).map fun p =>
        (p.1.map (shiftEv xs.length), p.2) := by
    rw [hds]
    exact tokenize_ins rfl rfl (by simpa using hk) env _ _ (Nat.le_refl _)
  have same : ∀ {es : List (Hdr (Obj δ))} {errs r r'}, es.length = t.entries.length → Shows m argv g es errs r →
      Shows m argv g' (ins (argRem dt gl) xs.length es) (errs.map (shiftRec xs.length)) r' →
      SameBut (argRem dt gl) xs.length r r' := by
    intro es errs r r' hlen hs hs'
    refine ⟨by rw [hs.ret, hs'.ret, List.length_map],
      ⟨es.take xs.length, es.drop xs.length, ?_, ?_, ?_⟩, ?_⟩
    · rw [List.length_take]; omega
    · rw [hs.entries, List.take_append_drop]
    · rw [hs'.entries]
      have := ins_append (argRem dt gl : Hdr (Obj δ)) (es.take xs.length) (es.drop xs.length)
      rw [List.take_append_drop, List.length_take, Nat.min_eq_left (by omega)] at this
      exact this
    · have e1 := hs.rel.slots
      have e2 := hs'.rel.slots
      rw [hs.rel.count, ← hs.ret] at e1
      rw [hs'.rel.count, ← hs'.ret] at e2
      rw [e1, e2, recorded_shift]
  constructor
  · intro r hr
    obtain ⟨evs, ops, es, errs, h1, h2, h3⟩ := C02_complete hend hwf hargs hr
    rw [h1] at htk
    have hread := readsAs_of_tokenize (env := env) hend' hwf' hargs htk g'
    rw [hes, meaning_ins (rem_inert dt gl) hk, h2] at hread
    obtain ⟨r', hr', hs'⟩ := hread
    exact ⟨r', hr', same (meaning_length h2) h3 hs'⟩
  · intro r' hr'
    obtain ⟨evs', ops, es', errs', h1, h2, h3⟩ := C02_complete hend' hwf' hargs hr'
    cases htok : tokenize (t.entries.map declOf) env argv.tail with
    | none => rw [htk, htok] at h1; cases h1
    | some q =>
      rw [htk, htok] at h1
      cases h1
      rw [hes, meaning_ins (rem_inert dt gl) hk] at h2
      have hread := readsAs_of_tokenize (env := env) hend hwf hargs htok g
      cases hm : meaning t.entries q.1 q.2 with
      | error e => rw [hm] at h2; cases h2
      | ok w =>
        rw [hm] at h2 hread
        obtain ⟨r, hr, hs⟩ := hread
        refine ⟨r, hr, same (meaning_length hm) hs ?_⟩
        have := Except.ok.inj h2
        have e1 : ins (argRem dt gl) xs.length w.1 = es' := congrArg Prod.fst this
        have e2 : w.2.map (shiftRec xs.length) = errs' := congrArg Prod.snd this
        rw [e1, e2]
        exact h3

/-- The demonstration table contains a remark at position 5; the entry `FILE` has number 6 with it and
number 5 without it. -/
example : Demo.table.entries = [Demo.a, Demo.v, Demo.n, Demo.o, Demo.p] ++ argRem none (some (cs "some remark")) :: [Demo.f] ∧
    shiftRec 5 ⟨ARG_ERR_MINCOUNT, .entry 5, none⟩ = ⟨ARG_ERR_MINCOUNT, .entry 6, none⟩ := ⟨rfl, rfl⟩

end Argtable
