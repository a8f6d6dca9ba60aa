import Verif.Proofs.Lawful
import Verif.Proofs.Outcome
/-!
# What the loop of `arg_parse_tagged` reads does not depend on the callbacks
-/

namespace Argtable
open Spec

variable {σ : Type}

/-- What the body of the loop asks for, given what getopt returned. -/
def decode (ds : List Decl) (copt : Int) (g : GState) : M (List Ev) :=
  if copt = 0 then
    match ds[g.getoptval]? with
    | none => .error (.ub "table index out of range")
    | some d =>
      if g.optarg = some [] ∧ d.hasValue then
        argvPrev g >>= fun a => .ok [.fail ARG_EMISSARG a, .deliver g.getoptval g.optarg]
      else .ok [.deliver g.getoptval g.optarg]
  else if copt = 63 then
    if g.optopt = 0 then argvPrev g >>= fun a => .ok [.fail ARG_ELONGOPT a]
    else .ok [.fail g.optopt none]
  else if copt = 58 then argvPrev g >>= fun a => .ok [.fail ARG_EMISSARG a]
  else
    match shortLookup (intChar copt) ds 0 with
    | none => .ok [.fail copt none]
    | some p => .ok [.deliver p.1 g.optarg]

/-- The loop, collecting what the bodies ask for. -/
def decodeLoop (env : Bool) (nargc : Nat) (sopts : CStr) (lopts : List LongOpt) (ds : List Decl) :
    Nat → GState → M (GState × List Ev)
  | 0, _ => .error .fuel
  | n + 1, g => do
    let (copt, g) ← getoptLong env nargc sopts lopts g
    if copt = -1 then .ok (g, [])
    else do
      let evs ← decode ds copt g
      let (g, evs') ← decodeLoop env nargc sopts lopts ds n g
      .ok (g, evs ++ evs')

theorem taggedBody_decode (copt : Int) (g : GState) (t : Table σ) :
    taggedBody copt g t = decode (t.entries.map declOf) copt g >>= fun evs => applyAll evs t := by
  unfold taggedBody decode
  by_cases h0 : copt = 0
  · rw [if_pos h0, if_pos h0, List.getElem?_map]
    dsimp only
    cases hi : t.entries[g.getoptval]? with
    | none => rfl
    | some h =>
      simp only [Option.map_some]
      by_cases hv : g.optarg = some [] ∧ h.hasValue
      · simp only [if_pos hv, if_pos (show g.optarg = some [] ∧ (declOf h).hasValue from hv), M_bind_assoc]
        refine bind_congr_ok fun a _ => ?_
        show _ = applyAll _ t
        simp only [applyAll, applyEv]
        refine bind_congr_ok fun t' _ => ?_
        exact (M_bind_ok _).symm
      · simp only [if_neg hv, if_neg (show ¬ (g.optarg = some [] ∧ (declOf h).hasValue) from hv)]
        show scanEntry t g.getoptval g.optarg = applyAll _ t
        rw [applyAll_single]; rfl
  · rw [if_neg h0, if_neg h0]
    by_cases h1 : copt = 63
    · rw [if_pos h1, if_pos h1]
      by_cases h2 : g.optopt = 0
      · rw [if_pos h2, if_pos h2, M_bind_assoc]
        refine bind_congr_ok fun a _ => ?_
        show _ = applyAll _ t
        rw [applyAll_single]; rfl
      · rw [if_neg h2, if_neg h2]
        show _ = applyAll _ t
        rw [applyAll_single]; rfl
    · rw [if_neg h1, if_neg h1]
      by_cases h3 : copt = 58
      · rw [if_pos h3, if_pos h3, M_bind_assoc]
        refine bind_congr_ok fun a _ => ?_
        show _ = applyAll _ t
        rw [applyAll_single]; rfl
      · rw [if_neg h3, if_neg h3, findShortoption_eq]
        cases shortLookup (intChar copt) (t.entries.map declOf) 0 with
        | none => show _ = applyAll _ t; rw [applyAll_single]; rfl
        | some p => show _ = applyAll _ t; rw [applyAll_single]; rfl

theorem mbind_ok_inv {α β : Type} {x : M α} {f : α → M β} {b : β} (h : (x >>= f) = .ok b) :
    ∃ a, x = .ok a ∧ f a = .ok b := by
  cases x with
  | error e => cases h
  | ok a => exact ⟨a, rfl, h⟩

theorem decode_evOK {ds : List Decl} {copt : Int} {g : GState} {evs : List Ev} (h : decode ds copt g = .ok evs) :
    EvOK ds evs := by
  unfold decode at h
  split at h
  · split at h
    · cases h
    · next d hd =>
      have hlt : g.getoptval < ds.length := (List.getElem?_eq_some_iff.1 hd).1
      split at h
      · obtain ⟨a, _, h⟩ := mbind_ok_inv h
        cases h
        exact EvOK.append (e1 := [.fail ARG_EMISSARG a]) (evOK_fail _ _) (evOK_deliver hlt _)
      · cases h; exact evOK_deliver hlt _
  · split at h
    · split at h
      · obtain ⟨a, _, h⟩ := mbind_ok_inv h
        cases h; exact evOK_fail _ _
      · cases h; exact evOK_fail _ _
    · split at h
      · obtain ⟨a, _, h⟩ := mbind_ok_inv h
        cases h; exact evOK_fail _ _
      · split at h
        · cases h; exact evOK_fail _ _
        · next p hp =>
          cases h
          have := shortLookup_lt hp
          exact evOK_deliver (by omega) _

variable {env : Bool} {nargc : Nat} {sopts : CStr} {lopts : List LongOpt}

theorem decodeLoop_evOK {ds : List Decl} : ∀ {n : Nat} {g gf : GState} {evs : List Ev},
    decodeLoop env nargc sopts lopts ds n g = .ok (gf, evs) → EvOK ds evs := by
  intro n
  induction n with
  | zero => intro g gf evs h; cases h
  | succ n ih =>
    intro g gf evs h
    simp only [decodeLoop] at h
    obtain ⟨⟨copt, g1⟩, hg, h⟩ := mbind_ok_inv h
    dsimp only at h
    split at h
    · cases h; exact evOK_nil
    · obtain ⟨e1, he1, h⟩ := mbind_ok_inv h
      obtain ⟨⟨g2, e2⟩, he2, h⟩ := mbind_ok_inv h
      cases h
      exact (decode_evOK he1).append (ih he2)

/-- The loop on a table does what was read. -/
theorem taggedLoop_decode {ds : List Decl} : ∀ {n : Nat} {g gf : GState} {evs : List Ev},
    decodeLoop env nargc sopts lopts ds n g = .ok (gf, evs) →
    ∀ t : Table σ, t.entries.map declOf = ds →
      taggedLoop env nargc sopts lopts n g t = applyAll evs t >>= fun t' => .ok (gf, t') := by
  intro n
  induction n with
  | zero => intro g gf evs h; cases h
  | succ n ih =>
    intro g gf evs h t ht
    simp only [decodeLoop] at h
    obtain ⟨⟨copt, g1⟩, hg, h⟩ := mbind_ok_inv h
    dsimp only at h
    simp only [taggedLoop, hg, bind_ok]
    split at h
    · next hc =>
      cases h
      rw [if_pos hc]; rfl
    · next hc =>
      obtain ⟨e1, he1, h⟩ := mbind_ok_inv h
      obtain ⟨⟨g2, e2⟩, he2, h⟩ := mbind_ok_inv h
      cases h
      rw [if_neg hc, taggedBody_decode, ht, he1, bind_ok, applyAll_append, M_bind_assoc]
      refine bind_congr_ok fun t' ht' => ?_
      exact ih he2 t' ((applyAll_decl ht').trans ht)

/-- If the loop on a table ends, then the reading does. -/
theorem decodeLoop_of_tagged {ds : List Decl} : ∀ {n : Nat} {g gf : GState} {t t' : Table σ},
    taggedLoop env nargc sopts lopts n g t = .ok (gf, t') → t.entries.map declOf = ds →
    ∃ evs, decodeLoop env nargc sopts lopts ds n g = .ok (gf, evs) ∧ applyAll evs t = .ok t' := by
  intro n
  induction n with
  | zero => intro g gf t t' h; cases h
  | succ n ih =>
    intro g gf t t' h ht
    simp only [taggedLoop] at h
    obtain ⟨⟨copt, g1⟩, hg, h⟩ := mbind_ok_inv h
    dsimp only at h
    simp only [decodeLoop, hg, bind_ok]
    split at h
    · next hc =>
      cases h
      rw [if_pos hc]; exact ⟨[], rfl, rfl⟩
    · next hc =>
      obtain ⟨t1, ht1, h⟩ := mbind_ok_inv h
      rw [taggedBody_decode, ht] at ht1
      obtain ⟨e1, he1, ht1⟩ := mbind_ok_inv ht1
      obtain ⟨e2, he2, h2⟩ := ih h ((applyAll_decl ht1).trans ht)
      refine ⟨e1 ++ e2, ?_, ?_⟩
      · rw [if_neg hc, he1, bind_ok, he2]; rfl
      · rw [applyAll_append, ht1]; exact h2

/-! ### a table that keeps a record of what was read -/

/-- An entry whose scan function does nothing but report. -/
def reporter (d : Decl) : Hdr Unit :=
  ⟨d.hasValue, d.hasOptValue, d.short, d.long, none, none, 0, 0, (), none, some fun _ _ => .ok ((), 1), none, none⟩

/-- What is reported. -/
def reportOf : Ev → ErrRec
  | .deliver i a => ⟨1, .entry i, a⟩
  | .fail c a => ⟨c, .endt, a⟩

theorem reportOf_inj : Function.Injective reportOf := by
  intro a b h
  cases a <;> cases b <;> simp_all [reportOf]

def reporters (ds : List Decl) (m : Nat) : Table Unit :=
  ⟨ds.map reporter, ⟨m, List.replicate m ⟨0, .endt, none⟩, 0⟩⟩

theorem reporters_decl (ds : List Decl) (m : Nat) : (reporters ds m).entries.map declOf = ds := by
  simp only [reporters, List.map_map]
  exact (List.map_congr_left (g := id) fun d _ => rfl).trans (by simp)

theorem deliverAll_report {ds : List Decl} : ∀ (evs : List Ev) (errs : List ErrRec), EvOK ds evs →
    deliverAll evs (ds.map reporter, errs) = .ok (ds.map reporter, errs ++ evs.map reportOf) := by
  intro evs
  induction evs with
  | nil => intro errs _; simp [deliverAll]
  | cons ev evs ih =>
    intro errs h
    have hev : deliver (ds.map reporter, errs) ev = .ok (ds.map reporter, errs ++ [reportOf ev]) := by
      cases ev with
      | fail c a => rfl
      | deliver i a =>
        have hlt := h i a (by simp)
        have hget : (ds.map reporter)[i]? = some (reporter ds[i]) := by
          rw [List.getElem?_map, List.getElem?_eq_getElem hlt]; rfl
        simp only [deliver, hget]
        simp only [reporter, bind_ok]
        rw [if_pos (by decide)]
        congr 2
        apply List.ext_getElem?
        intro j
        rw [List.getElem?_set]
        split
        · next hij =>
          subst hij
          rw [hget]
          simp [hlt, reporter]
        · rfl
    simp only [deliverAll, hev, bind_ok]
    rw [ih _ (fun i a hm => h i a (by simp [hm]))]
    simp

theorem reported {ds : List Decl} {m : Nat} {evs : List Ev} (h : EvOK ds evs) (hm : 1 ≤ m) :
    ∃ t', applyAll evs (reporters ds m) = .ok t' ∧ EndRel m (evs.map reportOf) t'.fin := by
  have hend : EndRel m [] (reporters ds m).fin :=
    endRel_nil (e := (reporters ds m).fin) ⟨hm, rfl, by simp [reporters]⟩
  have := applyAll_sim evs hend
  rw [show (reporters ds m).entries = ds.map reporter from rfl, deliverAll_report evs [] h] at this
  obtain ⟨t', h1, _, h3⟩ := this
  exact ⟨t', h1, by simpa using h3⟩

theorem Spec.EndRel.inj {m : Nat} {e1 e2 : List ErrRec} {e : EndTbl} (h1 : EndRel m e1 e) (h2 : EndRel m e2 e)
    (l1 : e1.length ≤ m) (l2 : e2.length ≤ m) : e1 = e2 := by
  have a := h1.slots
  have b := h2.slots
  rw [a] at b
  simpa [recorded, l1, l2] using b

/-- getopt reads the command line as the specification says. -/
theorem reading_spec (ds : List Decl) (hwf : WF ds) {so : CStr} (hso : SoptsOK so ds) (a0 : CStr) (args : List CStr)
    (hargs : CArgs args) (g : GState) {evs : List Ev} {ops : List CStr} (htok : tokenize ds env args = some (evs, ops)) :
    ∃ k gf, Final g.stderr (a0 :: args) gf ops ∧ ∀ n,
      decodeLoop env (a0 :: args).length (':' :: so) ((longTable ds 0).map toLongOpt) ds (n + (k + 1))
        (initState env (a0 :: args) g) = .ok (gf, evs) := by
  have hE : EvOK ds evs := tokenize_evOK ds env args.length args (Nat.le_refl _) evs ops htok
  have := loop_spec (env := env) hwf hso args.length args (Nat.le_refl _) hargs
    _ _ _ _ (initState_lay env a0 args g) rfl (Or.inl rfl)
  rw [htok] at this
  obtain ⟨k, gf, hf, hrun⟩ := this
  refine ⟨k, gf, by simpa using hf, fun n => ?_⟩
  have hrun' : ∀ m, 1 ≤ m → ∃ evs', decodeLoop env (a0 :: args).length (':' :: so) ((longTable ds 0).map toLongOpt) ds
      (n + (k + 1)) (initState env (a0 :: args) g) = .ok (gf, evs') ∧
      ∃ t', applyAll evs' (reporters ds m) = .ok t' ∧ applyAll evs (reporters ds m) = .ok t' := by
    intro m hm
    obtain ⟨t', ht', _⟩ := reported (m := m) hE hm
    have h1 := hrun (reporters ds m) n (reporters_decl ds m)
    rw [ht', bind_ok] at h1
    obtain ⟨evs', h2, h3⟩ := decodeLoop_of_tagged h1 (reporters_decl ds m)
    exact ⟨evs', h2, t', h3, ht'⟩
  obtain ⟨e1, he1, _⟩ := hrun' 1 (Nat.le_refl _)
  obtain ⟨e2, he2, t', ha, hb⟩ := hrun' (e1.length + evs.length + 1) (by omega)
  rw [he1] at he2
  cases he2
  obtain ⟨t1, h1, r1⟩ := reported (m := e1.length + evs.length + 1) (decodeLoop_evOK he1) (by omega)
  obtain ⟨t2, h2, r2⟩ := reported (m := e1.length + evs.length + 1) hE (by omega)
  rw [ha] at h1; cases h1
  rw [hb] at h2; cases h2
  have := r1.inj r2 (by simp; omega) (by simp; omega)
  rw [he1, List.map_injective_iff.2 reportOf_inj this]

/-- The reading of all other command lines does not end. -/
theorem reading_hung (ds : List Decl) (hwf : WF ds) (a0 : CStr) (args : List CStr) (hargs : CArgs args) (g : GState)
    (htok : tokenize ds env args = none) (n : Nat) (r : GState × List Ev) :
    decodeLoop env (a0 :: args).length (':' :: (ds.map reporter).flatMap shortChars) ((longTable ds 0).map toLongOpt) ds n
      (initState env (a0 :: args) g) ≠ .ok r := by
  intro h
  obtain ⟨gf, evs⟩ := r
  have hd := reporters_decl ds 1
  obtain ⟨t', h1, _⟩ := reported (m := 1) (decodeLoop_evOK h) (Nat.le_refl _)
  have h2 := taggedLoop_decode h (reporters ds 1) hd
  rw [h1, bind_ok] at h2
  refine parseTagged_hung env a0 args hargs g (reporters ds 1) (by rw [hd]; exact hwf) (by rw [hd]; exact htok) n (gf, t') ?_
  rw [parseTagged_eq env n a0 args g (reporters ds 1) (by rw [hd]; exact hwf), hd]
  exact h2

end Argtable
