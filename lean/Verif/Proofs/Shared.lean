import Verif.Proofs.Decode
import Verif.Spec.Shared
/-!
# The calls that `arg_parse` makes
-/

namespace Argtable
open Spec

variable {W : Type} {es : List (Entry W)}

/-- The headers of the entries. -/
abbrev hdrs (es : List (Entry W)) : List (SHdr W) := es.map Entry.hdr

/-- What the entries declare. -/
abbrev decls (es : List (Entry W)) : List Decl := es.map (·.decl)

theorem fixed_decl (es : List (Entry W)) : ((hdrs es).map SHdr.fixed).map declOf = decls es := by
  simp only [List.map_map]
  rfl

theorem fixed_chars (es : List (Entry W)) :
    ((hdrs es).map SHdr.fixed).flatMap shortChars = ((decls es).map reporter).flatMap shortChars := by
  simp only [List.map_map, List.flatMap_map]
  rfl

theorem leftBy_self (g : GState) : leftBy g g = g := rfl

theorem hdrs_get (es : List (Entry W)) (i : Nat) : (hdrs es)[i]? = es[i]?.map Entry.hdr := by
  simp

/-! ### one event -/

/-- An event applied to the memory and the `arg_end`. -/
def eApply (es : List (Entry W)) (s : W × EndTbl) : Ev → M (W × EndTbl)
  | .fail c a => registerError s.2 .endt c a >>= fun e => .ok (s.1, e)
  | .deliver i a =>
    match es[i]? with
    | none => .error (.ub "table index out of range")
    | some e =>
      match e.scan with
      | none => .ok s
      | some f => f s.1 a >>= fun p =>
          if p.2 ≠ 0 then registerError s.2 (.entry i) p.2 a >>= fun e => .ok (p.1, e) else .ok (p.1, s.2)

def eApplyAll (es : List (Entry W)) : List Ev → W × EndTbl → M (W × EndTbl)
  | [], s => .ok s
  | ev :: evs, s => eApply es s ev >>= fun s => eApplyAll es evs s

theorem eApplyAll_append (e1 e2 : List Ev) (s : W × EndTbl) :
    eApplyAll es (e1 ++ e2) s = eApplyAll es e1 s >>= fun s => eApplyAll es e2 s := by
  induction e1 generalizing s with
  | nil => rfl
  | cons ev e1 ih =>
    simp only [List.cons_append, eApplyAll, M_bind_assoc, ih]

theorem sRegister_eq (s : SState W) (p : Parent) (n : Int) (a : Option CStr) :
    sRegister s p n a = registerError s.fin p n a >>= fun e => .ok ⟨s.world, e, s.g⟩ := rfl

theorem sScan_eq (i : Nat) (s : SState W) :
    sScan (hdrs es) i s = eApply es (s.world, s.fin) (.deliver i s.g.optarg) >>= fun p => .ok ⟨p.1, p.2, s.g⟩ := by
  unfold sScan
  rw [hdrs_get]
  simp only [eApply]
  cases es[i]? with
  | none => rfl
  | some e =>
    simp only [Option.map_some, Entry.hdr]
    cases e.scan with
    | none => rfl
    | some f =>
      simp only [Option.map_some]
      cases f s.world s.g.optarg with
      | error x => rfl
      | ok p =>
        obtain ⟨w, n⟩ := p
        simp only [Except.map, bind_ok, leftBy_self]
        by_cases hn : n ≠ 0
        · simp only [if_pos hn, sRegister_eq, M_bind_assoc, bind_ok]
        · simp only [if_neg hn, bind_ok]

theorem sBody_eq (copt : Int) (s : SState W) :
    sBody (hdrs es) copt s = decode (decls es) copt s.g >>= fun evs =>
      eApplyAll es evs (s.world, s.fin) >>= fun p => .ok ⟨p.1, p.2, s.g⟩ := by
  have single : ∀ ev, eApplyAll es [ev] (s.world, s.fin) = eApply es (s.world, s.fin) ev := by
    intro ev; simp only [eApplyAll]; exact M_bind_ok _
  have hreg : ∀ c a, sRegister s .endt c a = eApplyAll es [.fail c a] (s.world, s.fin) >>= fun p => .ok ⟨p.1, p.2, s.g⟩ := by
    intro c a
    rw [single]; simp only [eApply, M_bind_assoc, bind_ok]; rfl
  unfold sBody decode
  by_cases h0 : copt = 0
  · rw [if_pos h0, if_pos h0]
    dsimp only
    rw [hdrs_get, List.getElem?_map]
    cases hi : es[s.g.getoptval]? with
    | none => rfl
    | some e =>
      simp only [Option.map_some]
      by_cases hv : s.g.optarg = some [] ∧ e.decl.hasValue
      · simp only [if_pos hv, if_pos (show s.g.optarg = some [] ∧ e.hdr.hasValue from hv), M_bind_assoc]
        refine bind_congr_ok fun a _ => ?_
        simp only [bind_ok, eApplyAll, eApply, M_bind_assoc, sRegister_eq]
        refine bind_congr_ok fun e' _ => ?_
        have := sScan_eq (es := es) s.g.getoptval ⟨s.world, e', s.g⟩
        simp only [eApply] at this
        exact this
      · simp only [if_neg hv, if_neg (show ¬ (s.g.optarg = some [] ∧ e.hdr.hasValue) from hv), bind_ok]
        rw [single, sScan_eq]
  · rw [if_neg h0, if_neg h0]
    by_cases h1 : copt = 63
    · rw [if_pos h1, if_pos h1]
      by_cases h2 : s.g.optopt = 0
      · rw [if_pos h2, if_pos h2, M_bind_assoc]
        exact bind_congr_ok fun a _ => hreg _ _
      · rw [if_neg h2, if_neg h2]
        exact hreg _ _
    · rw [if_neg h1, if_neg h1]
      by_cases h3 : copt = 58
      · rw [if_pos h3, if_pos h3, M_bind_assoc]
        exact bind_congr_ok fun a _ => hreg _ _
      · rw [if_neg h3, if_neg h3, findShortoption_eq, fixed_decl]
        cases shortLookup (intChar copt) (decls es) 0 with
        | none => exact hreg _ _
        | some p =>
          show sScan (hdrs es) p.1 s = eApplyAll es [.deliver p.1 s.g.optarg] _ >>= _
          rw [single, sScan_eq]

/-! ### the options -/

variable {env : Bool} {nargc : Nat} {sopts : CStr} {lopts : List LongOpt}

theorem sLoop_decode : ∀ {n : Nat} {s : SState W} {gf : GState} {evs : List Ev},
    decodeLoop env nargc sopts lopts (decls es) n s.g = .ok (gf, evs) →
    sLoop (hdrs es) env nargc sopts lopts n s = eApplyAll es evs (s.world, s.fin) >>= fun p => .ok ⟨p.1, p.2, gf⟩ := by
  intro n
  induction n with
  | zero => intro s gf evs h; cases h
  | succ n ih =>
    intro s gf evs h
    simp only [decodeLoop] at h
    obtain ⟨⟨copt, g1⟩, hg, h⟩ := mbind_ok_inv h
    dsimp only at h
    simp only [sLoop, hg, bind_ok]
    split at h
    · next hc =>
      cases h
      rw [if_pos hc]; rfl
    · next hc =>
      obtain ⟨e1, he1, h⟩ := mbind_ok_inv h
      obtain ⟨⟨g2, e2⟩, he2, h⟩ := mbind_ok_inv h
      cases h
      rw [if_neg hc, sBody_eq, he1, bind_ok, eApplyAll_append, M_bind_assoc, M_bind_assoc]
      refine bind_congr_ok fun p _ => ?_
      exact ih (s := ⟨p.1, p.2, g1⟩) he2

theorem decodeLoop_of_sLoop : ∀ {n : Nat} {s s' : SState W},
    sLoop (hdrs es) env nargc sopts lopts n s = .ok s' →
    ∃ evs, decodeLoop env nargc sopts lopts (decls es) n s.g = .ok (s'.g, evs) := by
  intro n
  induction n with
  | zero => intro s s' h; cases h
  | succ n ih =>
    intro s s' h
    simp only [sLoop] at h
    obtain ⟨⟨copt, g1⟩, hg, h⟩ := mbind_ok_inv h
    dsimp only at h
    simp only [decodeLoop, hg, bind_ok]
    split at h
    · next hc =>
      cases h
      rw [if_pos hc]; exact ⟨[], rfl⟩
    · next hc =>
      obtain ⟨s1, hs1, h⟩ := mbind_ok_inv h
      rw [sBody_eq] at hs1
      obtain ⟨e1, he1, hs1⟩ := mbind_ok_inv hs1
      obtain ⟨p, _, hs1⟩ := mbind_ok_inv hs1
      cases hs1
      obtain ⟨e2, he2⟩ := ih h
      refine ⟨e1 ++ e2, ?_⟩
      rw [if_neg hc, he1, bind_ok]
      dsimp only at he2 ⊢
      rw [he2]; rfl

theorem sLoop_congr {g g1 : GState} (h : getoptLong env nargc sopts lopts g = getoptLong env nargc sopts lopts g1)
    (n : Nat) (hs : List (SHdr W)) (w : W) (e : EndTbl) :
    sLoop hs env nargc sopts lopts n ⟨w, e, g⟩ = sLoop hs env nargc sopts lopts n ⟨w, e, g1⟩ := by
  cases n with
  | zero => rfl
  | succ n => simp only [sLoop, h]

theorem sTagged_eq (fuel : Nat) (a0 : CStr) (args : List CStr) (w : W) (e : EndTbl) (g : GState) (hwf : WF (decls es)) :
    sTagged (hdrs es) env fuel (a0 :: args).length ⟨w, e, { g with nargv := a0 :: args }⟩ =
      sLoop (hdrs es) env (a0 :: args).length (':' :: ((decls es).map reporter).flatMap shortChars)
        ((longTable (decls es) 0).map toLongOpt) fuel ⟨w, e, initState env (a0 :: args) g⟩ := by
  unfold sTagged
  rw [allocLongoptions_ok _ (by rw [fixed_decl]; exact hwf), allocShortoptions_ok, fixed_decl, fixed_chars]
  simp only [bind_ok]
  exact sLoop_congr (getoptLong_init _ _ _ _ { g with nargv := a0 :: args, opterr := false }) _ _ _ _

theorem reporters_sopts (ds : List Decl) (hwf : WF ds) : SoptsOK ((ds.map reporter).flatMap shortChars) ds := by
  have := sopts_ok (ds.map reporter) (by rw [show (ds.map reporter).map declOf = ds from reporters_decl ds 0]; exact hwf)
  rwa [show (ds.map reporter).map declOf = ds from reporters_decl ds 0] at this

theorem sTagged_spec (a0 : CStr) (args : List CStr) (hargs : CArgs args) (g : GState) (hwf : WF (decls es))
    {evs : List Ev} {ops : List CStr} (htok : tokenize (decls es) env args = some (evs, ops)) :
    ∃ k gf, Final g.stderr (a0 :: args) gf ops ∧ ∀ n w e,
      sTagged (hdrs es) env (n + (k + 1)) (a0 :: args).length ⟨w, e, { g with nargv := a0 :: args }⟩ =
        eApplyAll es evs (w, e) >>= fun p => .ok ⟨p.1, p.2, gf⟩ := by
  obtain ⟨k, gf, hf, hrun⟩ := reading_spec (env := env) (decls es) hwf (reporters_sopts _ hwf) a0 args hargs g htok
  refine ⟨k, gf, hf, fun n w e => ?_⟩
  rw [sTagged_eq _ _ _ _ _ _ hwf]
  exact sLoop_decode (s := ⟨w, e, initState env (a0 :: args) g⟩) (hrun n)

theorem sTagged_hung (a0 : CStr) (args : List CStr) (hargs : CArgs args) (g : GState) (hwf : WF (decls es))
    (htok : tokenize (decls es) env args = none) (n : Nat) (w : W) (e : EndTbl) (s' : SState W) :
    sTagged (hdrs es) env n (a0 :: args).length ⟨w, e, { g with nargv := a0 :: args }⟩ ≠ .ok s' := by
  intro h
  rw [sTagged_eq _ _ _ _ _ _ hwf] at h
  obtain ⟨evs, h⟩ := decodeLoop_of_sLoop h
  exact reading_hung (env := env) (decls es) hwf a0 args hargs g htok n _ h

theorem eApplyAll_calls {m : Nat} : ∀ {evs : List Ev} {w w' : W} {e e' : EndTbl} {errs : List ErrRec},
    EndRel m errs e → eApplyAll es evs (w, e) = .ok (w', e') →
    ∃ l errs', OptionCalls es evs l errs' ∧ Performs es w l w' ∧ EndRel m (errs ++ errs') e' := by
  intro evs
  induction evs with
  | nil => intro w w' e e' errs hr h; cases h; exact ⟨[], [], .nil, .nil, by simpa using hr⟩
  | cons ev evs ih =>
    intro w w' e e' errs hr h
    obtain ⟨⟨w1, e1⟩, h1, hrest⟩ := mbind_ok_inv h
    cases ev with
    | fail c a =>
      obtain ⟨e2, he2, hr2⟩ := registerError_step hr .endt c a
      simp only [eApply, he2, bind_ok] at h1
      cases h1
      obtain ⟨l, errs', ho, hp, hr'⟩ := ih hr2 hrest
      exact ⟨l, _, .fail ho, hp, by simpa using hr'⟩
    | deliver i a =>
      simp only [eApply] at h1
      cases hi : es[i]? with
      | none => rw [hi] at h1; cases h1
      | some x =>
        rw [hi] at h1
        dsimp only at h1
        cases hx : x.scan with
        | none =>
          rw [hx] at h1
          cases h1
          obtain ⟨l, errs', ho, hp, hr'⟩ := ih hr hrest
          exact ⟨l, _, .skip hi hx ho, hp, hr'⟩
        | some f =>
          rw [hx] at h1
          obtain ⟨⟨w2, n⟩, hf, h1⟩ := mbind_ok_inv h1
          have hcall : called es w (.scan i a) = some (.ok (w2, n)) := by
            simp only [called, hi, Option.bind_some, hx, Option.map_some, hf]
          dsimp only at h1
          split at h1
          · next hn =>
            obtain ⟨e2, he2, hr2⟩ := registerError_step hr (.entry i) n a
            rw [he2] at h1
            cases h1
            obtain ⟨l, errs', ho, hp, hr'⟩ := ih hr2 hrest
            exact ⟨_, _, .reject hn ho, .cons hcall hp, by simpa using hr'⟩
          · next hn =>
            cases h1
            simp only [ne_eq, Decidable.not_not] at hn
            subst hn
            obtain ⟨l, errs', ho, hp, hr'⟩ := ih hr hrest
            exact ⟨_, _, .accept ho, .cons hcall hp, hr'⟩

theorem called_scan {w : W} {i : Nat} {a : Option CStr} {r : M (W × Int)} (h : called es w (.scan i a) = some r) :
    ∃ e f, es[i]? = some e ∧ e.scan = some f ∧ f w a = r := by
  simp only [called] at h
  cases hi : es[i]? with
  | none => rw [hi] at h; cases h
  | some e =>
    rw [hi] at h
    simp only [Option.bind_some] at h
    cases hs : e.scan with
    | none => rw [hs] at h; cases h
    | some f =>
      rw [hs] at h
      exact ⟨e, f, rfl, hs, Option.some.inj h⟩

theorem calls_eApplyAll {m : Nat} {evs : List Ev} {l : List (Call × Int)} {errs' : List ErrRec}
    (ho : OptionCalls es evs l errs') : ∀ {w w' : W} {e : EndTbl} {errs : List ErrRec},
    EndRel m errs e → Performs es w l w' →
    ∃ e', eApplyAll es evs (w, e) = .ok (w', e') ∧ EndRel m (errs ++ errs') e' := by
  induction ho with
  | nil => intro w w' e errs hr hp; cases hp; exact ⟨e, rfl, by simpa using hr⟩
  | @fail c a evs l errs' ho ih =>
    intro w w' e errs hr hp
    obtain ⟨e2, he2, hr2⟩ := registerError_step hr .endt c a
    obtain ⟨e', h1, h2⟩ := ih hr2 hp
    refine ⟨e', ?_, by simpa using h2⟩
    simp only [eApplyAll, eApply, he2, bind_ok]; exact h1
  | @skip i x a evs l errs' hi hx ho ih =>
    intro w w' e errs hr hp
    obtain ⟨e', h1, h2⟩ := ih hr hp
    refine ⟨e', ?_, h2⟩
    simp only [eApplyAll, eApply, hi, hx, bind_ok]; exact h1
  | @accept i a evs l errs' ho ih =>
    intro w w' e errs hr hp
    cases hp with
    | cons hc hp =>
      obtain ⟨x, f, hi, hx, hf⟩ := called_scan hc
      obtain ⟨e', h1, h2⟩ := ih hr hp
      refine ⟨e', ?_, h2⟩
      simp only [eApplyAll, eApply, hi, hx, hf, bind_ok, ne_eq, not_true_eq_false, if_false]; exact h1
  | @reject i a n evs l errs' hn ho ih =>
    intro w w' e errs hr hp
    cases hp with
    | cons hc hp =>
      obtain ⟨x, f, hi, hx, hf⟩ := called_scan hc
      obtain ⟨e2, he2, hr2⟩ := registerError_step hr (.entry i) n a
      obtain ⟨e', h1, h2⟩ := ih hr2 hp
      refine ⟨e', ?_, by simpa using h2⟩
      simp only [eApplyAll, eApply, hi, hx, hf, bind_ok, ne_eq, hn, not_false_eq_true, if_true, he2]; exact h1

/-! ### the operands -/

/-- `optind` is the position of the first of the operands `ops`, which are the rest of the command line. -/
structure AtOps (nargc : Nat) (ops : List CStr) (g : GState) : Prop where
  pos : ∃ X, g.nargv = X ++ ops ∧ g.optind = X.length
  len : g.nargv.length = nargc

theorem AtOps.cons {a : CStr} {ops : List CStr} {g : GState} (h : AtOps nargc (a :: ops) g) :
    g.optind < nargc ∧ argvAt g.nargv g.optind = .ok (some a) ∧ AtOps nargc ops { g with optind := g.optind + 1 } := by
  obtain ⟨⟨X, hX, ho⟩, hl⟩ := h
  have hlt : g.optind < g.nargv.length := by rw [hX, ho]; simp
  refine ⟨by omega, ?_, ⟨X ++ [a], by simp [hX], by simp [ho]⟩, hl⟩
  unfold argvAt
  rw [if_pos hlt, hX, ho]
  simp

theorem AtOps.nil {g : GState} (h : AtOps nargc [] g) : g.optind = nargc := by
  obtain ⟨⟨X, hX, ho⟩, hl⟩ := h
  rw [← hl, hX, ho]; simp

theorem sRest_spec {m : Nat} : ∀ (k : Nat) (ops : List CStr) (s : SState W) (errs : List ErrRec), ops.length ≤ k →
    AtOps nargc ops s.g → EndRel m errs s.fin →
    ∃ s', sRest nargc k s = .ok s' ∧ s'.world = s.world ∧ s'.g.nargv = s.g.nargv ∧ s'.g.stderr = s.g.stderr ∧
      EndRel m (errs ++ ops.map fun b => ⟨ARG_ENOMATCH, .endt, some b⟩) s'.fin := by
  intro k
  induction k with
  | zero =>
    intro ops s errs hk hat hr
    cases ops with
    | nil => exact ⟨s, rfl, rfl, rfl, rfl, by simpa using hr⟩
    | cons a ops => simp at hk
  | succ k ih =>
    intro ops s errs hk hat hr
    cases ops with
    | nil =>
      refine ⟨s, ?_, rfl, rfl, rfl, by simpa using hr⟩
      have := hat.nil
      rw [sRest, if_neg (by omega)]
    | cons a ops =>
      obtain ⟨h1, h2, h3⟩ := hat.cons
      obtain ⟨e', he', hr'⟩ := registerError_step hr .endt ARG_ENOMATCH (some a)
      obtain ⟨s', hs, hw, hn, hs2, hr2⟩ := ih ops ⟨s.world, e', { s.g with optind := s.g.optind + 1 }⟩ _
        (by simpa using hk) h3 hr'
      refine ⟨s', ?_, hw, hn, hs2, by simpa using hr2⟩
      rw [sRest, if_pos h1, h2]
      simp only [bind_ok, sRegister_eq, he']
      exact hs

/-- The tentative error and the last rejection. -/
def LastOf (ops : List CStr) (ml : Option (Int × Option CStr × Nat)) (last : Option (Int × Nat)) : Prop :=
  (ml = none ∧ last = none) ∨ ∃ n a j, ml = some (n, some a, j) ∧ last = some (n, j) ∧ ops.head? = some a

theorem sUntagged_rest {m : Nat} {ops : List CStr} {s : SState W} {errs : List ErrRec}
    {ml : Option (Int × Option CStr × Nat)} {last : Option (Int × Nat)} (hat : AtOps nargc ops s.g)
    (hr : EndRel m errs s.fin) (hl : LastOf ops ml last) {i : Nat} (hi : es[i]? = none) :
    ∃ s', (∀ n, sUntagged (hdrs es) nargc (n + 1) i ml s = .ok s') ∧ s'.world = s.world ∧ s'.g.nargv = s.g.nargv ∧
      s'.g.stderr = s.g.stderr ∧ EndRel m (errs ++ leftover last ops) s'.fin := by
  have hlen : ops.length ≤ nargc := by
    obtain ⟨⟨X, hX, _⟩, hl⟩ := hat
    rw [← hl, hX]; simp
  rcases hl with ⟨rfl, rfl⟩ | ⟨n, a, j, rfl, rfl, ha⟩
  · obtain ⟨s', h1, h2, h3, h4, h5⟩ := sRest_spec nargc ops s errs hlen hat hr
    refine ⟨s', fun n => ?_, h2, h3, h4, ?_⟩
    · simp only [sUntagged, hdrs_get, hi, Option.map_none]; exact h1
    · cases ops with
      | nil => simpa [leftover] using h5
      | cons b ops => exact h5
  · cases ops with
    | nil => cases ha
    | cons b ops =>
      cases ha
      obtain ⟨h1, h2, h3⟩ := hat.cons
      obtain ⟨e', he', hr'⟩ := registerError_step hr (.entry j) n (some a)
      obtain ⟨s', hs, hw, hn, hs2, hr2⟩ := sRest_spec nargc ops ⟨s.world, e', { s.g with optind := s.g.optind + 1 }⟩ _
        (by simp at hlen; omega) h3 hr'
      refine ⟨s', fun n => ?_, hw, hn, hs2, ?_⟩
      · simp only [sUntagged, hdrs_get, hi, Option.map_none, sRegister_eq, he', bind_ok]; exact hs
      · simpa [leftover] using hr2

theorem not_plain {e : Entry W} (h : ¬ e.plain) :
    (e.hdr.longopts.isSome ∨ e.hdr.shortopts.isSome) ∨ e.hdr.scanfn = none := by
  unfold Entry.plain at h
  simp only [Entry.hdr]
  cases hl : e.decl.long with
  | some s => exact Or.inl (Or.inl rfl)
  | none =>
    cases hs : e.decl.short with
    | some s => exact Or.inl (Or.inr rfl)
    | none =>
      cases hc : e.scan with
      | none => exact Or.inr rfl
      | some f => exact absurd ⟨hl, hs, by rw [hc]; simp⟩ h

theorem sUntagged_skip {i : Nat} {e : Entry W} (hi : es[i]? = some e) (hp : ¬ e.plain) {s : SState W}
    (hlt : s.g.optind < nargc) (ml : Option (Int × Option CStr × Nat)) (n : Nat) :
    sUntagged (hdrs es) nargc (n + 1) i ml s = sUntagged (hdrs es) nargc n (i + 1) ml s := by
  simp only [sUntagged, hdrs_get, hi, Option.map_some]
  rw [if_neg (by omega)]
  by_cases h1 : e.hdr.longopts.isSome ∨ e.hdr.shortopts.isSome
  · rw [if_pos h1]
  · rw [if_neg h1]
    rcases not_plain hp with h | h
    · exact absurd h h1
    · rw [h]

theorem sUntagged_scan {i : Nat} {e : Entry W} (hi : es[i]? = some e) (hp : e.plain) {f : W → Option CStr → M (W × Int)}
    (hf : e.scan = some f) {a : CStr} {ops : List CStr} {s : SState W} (hat : AtOps nargc (a :: ops) s.g)
    (ml : Option (Int × Option CStr × Nat)) (n : Nat) :
    sUntagged (hdrs es) nargc (n + 1) i ml s = f s.world (some a) >>= fun p =>
      if p.2 = 0 then
        sUntagged (hdrs es) nargc n i none ⟨p.1, s.fin, { s.g with optind := s.g.optind + 1 }⟩
      else sUntagged (hdrs es) nargc n (i + 1) (some (p.2, some a, i)) ⟨p.1, s.fin, s.g⟩ := by
  obtain ⟨h1, h2, h3⟩ := hat.cons
  obtain ⟨hl, hs, _⟩ := hp
  simp only [sUntagged, hdrs_get, hi, Option.map_some]
  rw [if_neg (by omega), if_neg (by simp [Entry.hdr, hl, hs])]
  simp only [Entry.hdr, hf, Option.map_some, h2, bind_ok]
  cases f s.world (some a) with
  | error x => rfl
  | ok p =>
    obtain ⟨w, k⟩ := p
    simp only [Except.map, bind_ok, leftBy_self, h2]

theorem sUntagged_calls {m : Nat} : ∀ (n i : Nat) (ml : Option (Int × Option CStr × Nat)) (last : Option (Int × Nat))
    (ops : List CStr) (s s' : SState W) (errs : List ErrRec), i ≤ es.length → AtOps nargc ops s.g → EndRel m errs s.fin →
    LastOf ops ml last → sUntagged (hdrs es) nargc n i ml s = .ok s' →
    ∃ l errs', OperandCalls es i last ops l errs' ∧ Performs es s.world l s'.world ∧ EndRel m (errs ++ errs') s'.fin ∧
      s'.g.nargv = s.g.nargv ∧ s'.g.stderr = s.g.stderr := by
  intro n
  induction n with
  | zero => intro i ml last ops s s' errs _ _ _ _ h; cases h
  | succ n ih =>
    intro i ml last ops s s' errs hile hat hr hl h
    by_cases hlt : i < es.length
    · have hi : es[i]? = some es[i] := List.getElem?_eq_getElem hlt
      cases ops with
      | nil =>
        simp only [sUntagged, hdrs_get, hi, Option.map_some] at h
        rw [if_pos (Nat.le_of_eq hat.nil.symm)] at h
        cases h
        exact ⟨[], [], .done hlt, .nil, by simpa using hr, rfl, rfl⟩
      | cons a ops =>
        by_cases hp : es[i].plain
        · cases hf : es[i].scan with
          | none => exact absurd hf hp.2.2
          | some f =>
            rw [sUntagged_scan hi hp hf hat] at h
            obtain ⟨⟨w1, k⟩, hfk, h⟩ := mbind_ok_inv h
            have hcall : called es s.world (.scan i (some a)) = some (.ok (w1, k)) := by
              simp only [called, hi, Option.bind_some, hf, Option.map_some, hfk]
            dsimp only at h
            split at h
            · next hk =>
              subst hk
              obtain ⟨l, errs', h1, h2, h3, h4, h5⟩ := ih i none none ops
                ⟨w1, s.fin, { s.g with optind := s.g.optind + 1 }⟩ s' errs hile hat.cons.2.2 hr (Or.inl ⟨rfl, rfl⟩) h
              exact ⟨_, _, .accept hi hp h1, .cons hcall h2, h3, h4, h5⟩
            · next hk =>
              obtain ⟨l, errs', h1, h2, h3, h4, h5⟩ := ih (i + 1) _ (some (k, i)) (a :: ops)
                ⟨w1, s.fin, s.g⟩ s' errs hlt hat hr
                (Or.inr ⟨k, a, i, rfl, rfl, rfl⟩) h
              exact ⟨_, _, .reject hi hp hk h1, .cons hcall h2, h3, h4, h5⟩
        · rw [sUntagged_skip hi hp hat.cons.1] at h
          obtain ⟨l, errs', h1, h2, h3, h4, h5⟩ := ih _ _ last (a :: ops) _ _ errs hlt hat hr hl h
          exact ⟨_, _, .skip hi hp (by simp) h1, h2, h3, h4, h5⟩
    · have hn : es[i]? = none := List.getElem?_eq_none (by omega)
      obtain ⟨s1, h1, hw, hnv, hse, hr'⟩ := sUntagged_rest hat hr hl hn
      rw [h1 n] at h
      cases h
      exact ⟨[], _, .exhausted (by omega), by rw [hw]; exact .nil, hr', hnv, hse⟩

theorem calls_sUntagged {m : Nat} {i : Nat} {last : Option (Int × Nat)} {ops : List CStr} {l : List (Call × Int)}
    {errs' : List ErrRec} (hc : OperandCalls es i last ops l errs') : ∀ {ml : Option (Int × Option CStr × Nat)}
    {s : SState W} {w' : W} {errs : List ErrRec}, AtOps nargc ops s.g → EndRel m errs s.fin → LastOf ops ml last →
    Performs es s.world l w' →
    ∃ s' N, (∀ n, N ≤ n → sUntagged (hdrs es) nargc n i ml s = .ok s') ∧ s'.world = w' := by
  induction hc with
  | @exhausted i last ops hi =>
    intro ml s w' errs hat hr hl hp
    cases hp
    obtain ⟨s1, h1, hw, _⟩ := sUntagged_rest hat hr hl (es := es) (i := i) (List.getElem?_eq_none (by omega))
    refine ⟨s1, 1, fun n hn => ?_, hw⟩
    obtain ⟨k, rfl⟩ : ∃ k, n = k + 1 := ⟨n - 1, by omega⟩
    exact h1 k
  | @done i last hlt =>
    intro ml s w' errs hat hr hl hp
    cases hp
    refine ⟨s, 1, fun n hn => ?_, rfl⟩
    obtain ⟨k, rfl⟩ : ∃ k, n = k + 1 := ⟨n - 1, by omega⟩
    simp only [sUntagged, hdrs_get, List.getElem?_eq_getElem hlt, Option.map_some]
    rw [if_pos (Nat.le_of_eq hat.nil.symm)]
  | @skip i e last ops l errs' hi hpl hne hc ih =>
    intro ml s w' errs hat hr hl hp
    obtain ⟨s', N, h1, h2⟩ := ih hat hr hl hp
    refine ⟨s', N + 1, fun n hn => ?_, h2⟩
    obtain ⟨k, rfl⟩ : ∃ k, n = k + 1 := ⟨n - 1, by omega⟩
    cases ops with
    | nil => exact absurd rfl hne
    | cons a ops =>
      rw [sUntagged_skip hi hpl hat.cons.1]
      exact h1 k (by omega)
  | @accept i e last a ops l errs' hi hpl hc ih =>
    intro ml s w' errs hat hr hl hp
    cases hp with
    | @cons _ w1 _ _ _ _ hcall hp =>
      obtain ⟨x, f, hx, hf, hfa⟩ := called_scan hcall
      rw [hi] at hx; cases hx
      obtain ⟨s', N, h1, h2⟩ := ih (ml := none) (s := ⟨w1, s.fin, { s.g with optind := s.g.optind + 1 }⟩)
        hat.cons.2.2 hr (Or.inl ⟨rfl, rfl⟩) hp
      refine ⟨s', N + 1, fun n hn => ?_, h2⟩
      obtain ⟨k, rfl⟩ : ∃ k, n = k + 1 := ⟨n - 1, by omega⟩
      rw [sUntagged_scan hi hpl hf hat, hfa, bind_ok, if_pos rfl]
      exact h1 k (by omega)
  | @reject i e last a ops n l errs' hi hpl hn hc ih =>
    intro ml s w' errs hat hr hl hp
    cases hp with
    | @cons _ w1 _ _ _ _ hcall hp =>
      obtain ⟨x, f, hx, hf, hfa⟩ := called_scan hcall
      rw [hi] at hx; cases hx
      obtain ⟨s', N, h1, h2⟩ := ih (ml := some (n, some a, i)) (s := ⟨w1, s.fin, s.g⟩) hat hr
        (Or.inr ⟨n, a, i, rfl, rfl, rfl⟩) hp
      refine ⟨s', N + 1, fun k hk => ?_, h2⟩
      obtain ⟨k, rfl⟩ : ∃ j, k = j + 1 := ⟨k - 1, by omega⟩
      rw [sUntagged_scan hi hpl hf hat, hfa, bind_ok, if_neg hn]
      exact h1 k (by omega)

/-! ### reset functions and checks -/

theorem sReset_calls : ∀ (rest pre : List (Entry W)) (s s' : SState W), es = pre ++ rest →
    sReset (hdrs rest) s = .ok s' →
    Performs es s.world (resetCalls rest pre.length) s'.world ∧ s'.fin = s.fin := by
  intro rest
  induction rest with
  | nil => intro pre s s' _ h; cases h; exact ⟨.nil, rfl⟩
  | cons e rest ih =>
    intro pre s s' hes h
    have hi : es[pre.length]? = some e := by rw [hes]; simp
    simp only [hdrs, List.map_cons, sReset, Entry.hdr] at h
    cases hr : e.reset with
    | none =>
      rw [hr] at h
      have := ih (pre ++ [e]) s s' (by simp [hes]) h
      simpa [resetCalls, hr] using this
    | some f =>
      rw [hr] at h
      simp only [Option.map_some] at h
      cases hf : f s.world with
      | error x => rw [hf] at h; cases h
      | ok w =>
        rw [hf] at h
        simp only [Except.map, bind_ok] at h
        obtain ⟨h1, h2⟩ := ih (pre ++ [e]) _ s' (by simp [hes]) h
        refine ⟨?_, h2⟩
        simp only [resetCalls, hr, Option.isSome_some, if_true]
        refine .cons (w1 := w) ?_ (by simpa using h1)
        simp only [called, hi, Option.bind_some, hr, Option.map_some, hf, Except.map]

theorem calls_sReset : ∀ (rest pre : List (Entry W)) (s : SState W) (w' : W), es = pre ++ rest →
    Performs es s.world (resetCalls rest pre.length) w' → ∃ g', sReset (hdrs rest) s = .ok ⟨w', s.fin, g'⟩ := by
  intro rest
  induction rest with
  | nil => intro pre s w' _ h; cases h; exact ⟨s.g, rfl⟩
  | cons e rest ih =>
    intro pre s w' hes h
    have hi : es[pre.length]? = some e := by rw [hes]; simp
    simp only [hdrs, List.map_cons, sReset, Entry.hdr]
    cases hr : e.reset with
    | none =>
      simp only [resetCalls, hr, Option.isSome_none, Bool.false_eq_true, if_false, List.nil_append] at h
      exact ih (pre ++ [e]) s w' (by simp [hes]) (by simpa using h)
    | some f =>
      simp only [resetCalls, hr, Option.isSome_some, if_true, List.cons_append, List.nil_append] at h
      cases h with
      | @cons _ w1 _ _ _ _ hcall hp =>
        simp only [called, hi, Option.bind_some, hr, Option.map_some, Option.some.injEq] at hcall
        cases hf : f s.world with
        | error x => rw [hf] at hcall; cases hcall
        | ok w =>
          rw [hf] at hcall
          cases hcall
          simp only [Option.map_some, Except.map, bind_ok, hf]
          exact ih (pre ++ [e]) ⟨w1, s.fin, leftBy s.g (e.resetG s.world s.g)⟩ w' (by simp [hes]) (by simpa using hp)

theorem sCheck_calls {m : Nat} : ∀ (rest pre : List (Entry W)) (s s' : SState W) (errs : List ErrRec), es = pre ++ rest →
    EndRel m errs s.fin → sCheck (hdrs rest) pre.length s = .ok s' →
    ∃ l errs', CheckCalls rest pre.length l errs' ∧ Performs es s.world l s'.world ∧ EndRel m (errs ++ errs') s'.fin ∧
      s'.g.nargv = s.g.nargv := by
  intro rest
  induction rest with
  | nil => intro pre s s' errs _ hr h; cases h; exact ⟨[], [], .nil, .nil, by simpa using hr, rfl⟩
  | cons e rest ih =>
    intro pre s s' errs hes hr h
    have hi : es[pre.length]? = some e := by rw [hes]; simp
    simp only [hdrs, List.map_cons, sCheck, Entry.hdr] at h
    have ih' : ∀ s s' errs, EndRel m errs s.fin → sCheck (hdrs rest) (pre.length + 1) s = .ok s' → _ :=
      fun s s' errs hr h => ih (pre ++ [e]) s s' errs (by simp [hes]) hr (by simpa using h)
    simp only [List.length_append, List.length_cons, List.length_nil, Nat.zero_add] at ih'
    cases hc : e.check with
    | none =>
      rw [hc] at h
      obtain ⟨l, errs', h1, h2, h3, h4⟩ := ih' _ _ _ hr h
      exact ⟨l, errs', .skip hc h1, h2, h3, h4⟩
    | some f =>
      rw [hc] at h
      simp only [Option.map_some] at h
      cases hf : f s.world with
      | error x => rw [hf] at h; cases h
      | ok p =>
        obtain ⟨w, n⟩ := p
        rw [hf] at h
        simp only [Except.map, bind_ok] at h
        have hcall : called es s.world (.check pre.length) = some (.ok (w, n)) := by
          simp only [called, hi, Option.bind_some, hc, Option.map_some, hf]
        by_cases hn : n = 0
        · subst hn
          simp only [ne_eq, not_true_eq_false, if_false] at h
          obtain ⟨l, errs', h1, h2, h3, h4⟩ := ih' ⟨w, s.fin, leftBy s.g (e.checkG s.world s.g)⟩ _ _ hr h
          exact ⟨_, _, .accept (by rw [hc]; simp) h1, .cons hcall h2, h3, h4⟩
        · obtain ⟨e', he', hr'⟩ := registerError_step hr (.entry pre.length) n none
          simp only [ne_eq, hn, not_false_eq_true, if_true, sRegister_eq, he', bind_ok] at h
          obtain ⟨l, errs', h1, h2, h3, h4⟩ := ih' ⟨w, e', leftBy s.g (e.checkG s.world s.g)⟩ _ _ hr' h
          exact ⟨_, _, .reject (by rw [hc]; simp) hn h1, .cons hcall h2, by simpa using h3, h4⟩

theorem called_check {w : W} {i : Nat} {e : Entry W} {r : M (W × Int)} (hi : es[i]? = some e)
    (h : called es w (.check i) = some r) : ∃ f, e.check = some f ∧ f w = r := by
  simp only [called, hi, Option.bind_some] at h
  cases hs : e.check with
  | none => rw [hs] at h; cases h
  | some f => rw [hs] at h; exact ⟨f, rfl, Option.some.inj h⟩

theorem calls_sCheck {m : Nat} {rest : List (Entry W)} {i : Nat} {l : List (Call × Int)} {errs' : List ErrRec}
    (hc : CheckCalls rest i l errs') : ∀ {pre : List (Entry W)} {s : SState W} {w' : W} {errs : List ErrRec},
    es = pre ++ rest → i = pre.length → EndRel m errs s.fin → Performs es s.world l w' →
    ∃ s', sCheck (hdrs rest) i s = .ok s' ∧ s'.world = w' := by
  induction hc with
  | nil => intro pre s w' errs _ _ _ hp; cases hp; exact ⟨s, rfl, rfl⟩
  | @skip i e rest l errs' hn hc ih =>
    intro pre s w' errs hes hi hr hp
    obtain ⟨s', h1, h2⟩ := ih (pre := pre ++ [e]) (by simp [hes]) (by simp [hi]) hr hp
    refine ⟨s', ?_, h2⟩
    simp only [hdrs, List.map_cons, sCheck, Entry.hdr, hn, Option.map_none]
    exact h1
  | @accept i e rest l errs' hn hc ih =>
    intro pre s w' errs hes hi hr hp
    have hget : es[i]? = some e := by rw [hes, hi]; simp
    cases hp with
    | @cons _ w1 _ _ _ _ hcall hp =>
      obtain ⟨f, hf, hfw⟩ := called_check hget hcall
      obtain ⟨s', h1, h2⟩ := ih (pre := pre ++ [e]) (s := ⟨w1, s.fin, leftBy s.g (e.checkG s.world s.g)⟩) (by simp [hes]) (by simp [hi]) hr hp
      refine ⟨s', ?_, h2⟩
      simp only [hdrs, List.map_cons, sCheck, Entry.hdr, hf, Option.map_some, hfw, Except.map, bind_ok,
        ne_eq, not_true_eq_false, if_false]
      exact h1
  | @reject i e rest n l errs' hn h0 hc ih =>
    intro pre s w' errs hes hi hr hp
    have hget : es[i]? = some e := by rw [hes, hi]; simp
    cases hp with
    | @cons _ w1 _ _ _ _ hcall hp =>
      obtain ⟨f, hf, hfw⟩ := called_check hget hcall
      obtain ⟨e', he', hr'⟩ := registerError_step hr (.entry i) n none
      obtain ⟨s', h1, h2⟩ := ih (pre := pre ++ [e]) (s := ⟨w1, e', leftBy s.g (e.checkG s.world s.g)⟩) (by simp [hes]) (by simp [hi]) hr' hp
      refine ⟨s', ?_, h2⟩
      simp only [hdrs, List.map_cons, sCheck, Entry.hdr, hf, Option.map_some, hfw, Except.map, bind_ok,
        ne_eq, h0, not_false_eq_true, if_true, sRegister_eq, he']
      exact h1

/-! ### sequences of calls -/

theorem Spec.Performs.append {w w1 w2 : W} {l l' : List (Call × Int)} (h : Performs es w l w1) (h' : Performs es w1 l' w2) :
    Performs es w (l ++ l') w2 := by
  induction h with
  | nil => exact h'
  | cons hc _ ih => exact .cons hc (ih h')

theorem Spec.Performs.split {w w2 : W} {l l' : List (Call × Int)} (h : Performs es w (l ++ l') w2) :
    ∃ w1, Performs es w l w1 ∧ Performs es w1 l' w2 := by
  induction l generalizing w with
  | nil => exact ⟨w, .nil, h⟩
  | cons c l ih =>
    cases h with
    | cons hc h =>
      obtain ⟨w1, h1, h2⟩ := ih h
      exact ⟨w1, .cons hc h1, h2⟩

theorem sLoop_mono (hs : List (SHdr W)) : ∀ (n k : Nat) {s s' : SState W},
    sLoop hs env nargc sopts lopts n s = .ok s' → sLoop hs env nargc sopts lopts (n + k) s = .ok s' := by
  intro n
  induction n with
  | zero => intro k s s' h; cases h
  | succ n ih =>
    intro k s s' h
    rw [show n + 1 + k = (n + k) + 1 by omega]
    simp only [sLoop] at h ⊢
    obtain ⟨⟨copt, g1⟩, hg, h⟩ := mbind_ok_inv h
    rw [hg, bind_ok]
    dsimp only at h ⊢
    split at h
    · next hc => rw [if_pos hc]; exact h
    · next hc =>
      rw [if_neg hc]
      obtain ⟨s1, hs1, h⟩ := mbind_ok_inv h
      rw [hs1, bind_ok]
      exact ih k h

theorem sTagged_mono {hs : List (SHdr W)} (n k : Nat) {s s' : SState W} (h : sTagged hs env n nargc s = .ok s') :
    sTagged hs env (n + k) nargc s = .ok s' := by
  unfold sTagged at h ⊢
  obtain ⟨lo, h1, h⟩ := mbind_ok_inv h
  obtain ⟨so, h2, h⟩ := mbind_ok_inv h
  rw [h1, bind_ok, h2, bind_ok]
  exact sLoop_mono hs n k h

theorem OperandCalls.unique {i : Nat} {last : Option (Int × Nat)} {ops : List CStr} {l l' : List (Call × Int)}
    {e e' : List ErrRec} {w w1 w2 : W} (h : OperandCalls es i last ops l e) :
    OperandCalls es i last ops l' e' → Performs es w l w1 → Performs es w l' w2 → l = l' ∧ e = e' := by
  induction h generalizing l' e' w with
  | exhausted hi =>
    intro h' _ _
    cases h' with
    | exhausted _ => exact ⟨rfl, rfl⟩
    | done hlt => omega
    | skip hg _ _ _ => rw [List.getElem?_eq_none (by omega)] at hg; cases hg
    | accept hg _ _ => rw [List.getElem?_eq_none (by omega)] at hg; cases hg
    | reject hg _ _ _ => rw [List.getElem?_eq_none (by omega)] at hg; cases hg
  | done hlt =>
    intro h' _ _
    cases h' with
    | exhausted _ => omega
    | done _ => exact ⟨rfl, rfl⟩
    | skip _ _ hne _ => exact absurd rfl hne
  | skip hg hp hne hc ih =>
    intro h' hp1 hp2
    have hlt := (List.getElem?_eq_some_iff.1 hg).1
    cases h' with
    | exhausted _ => omega
    | done _ => exact absurd rfl hne
    | skip _ _ _ hc' => exact ih hc' hp1 hp2
    | accept hg' hp' _ => rw [hg] at hg'; cases hg'; exact absurd hp' hp
    | reject hg' hp' _ _ => rw [hg] at hg'; cases hg'; exact absurd hp' hp
  | accept hg hp hc ih =>
    intro h' hp1 hp2
    have hlt := (List.getElem?_eq_some_iff.1 hg).1
    cases hp1 with
    | cons hc1 hp1 =>
      cases h' with
      | exhausted _ => omega
      | skip hg' hp' _ _ => rw [hg] at hg'; cases hg'; exact absurd hp hp'
      | accept _ _ hc' =>
        cases hp2 with
        | cons hc2 hp2 =>
          rw [hc1] at hc2; cases hc2
          obtain ⟨h1, h2⟩ := ih hc' hp1 hp2
          exact ⟨by rw [h1], h2⟩
      | reject _ _ hn _ =>
        cases hp2 with
        | cons hc2 hp2 =>
          rw [hc1] at hc2; cases hc2; exact absurd rfl hn
  | reject hg hp hn hc ih =>
    intro h' hp1 hp2
    have hlt := (List.getElem?_eq_some_iff.1 hg).1
    cases hp1 with
    | cons hc1 hp1 =>
      cases h' with
      | exhausted _ => omega
      | skip hg' hp' _ _ => rw [hg] at hg'; cases hg'; exact absurd hp hp'
      | accept _ _ hc' =>
        cases hp2 with
        | cons hc2 hp2 =>
          rw [hc1] at hc2; cases hc2; exact absurd rfl hn
      | reject _ _ _ hc' =>
        cases hp2 with
        | cons hc2 hp2 =>
          rw [hc1] at hc2; cases hc2
          obtain ⟨h1, h2⟩ := ih hc' hp1 hp2
          exact ⟨by rw [h1], h2⟩

/-! ### the whole call -/

theorem sParse_calls {m : Nat} {w : W} {e : EndTbl} {g : GState} {argv : List CStr} {r : Nat × SState W}
    (hend : EndOK m e) (hwf : WF (decls es)) (hargs : CArgs argv.tail)
    (h : ReturnsShared env argv (hdrs es) ⟨w, e, g⟩ r) :
    ∃ evs ops l errs, tokenize (decls es) env argv.tail = some (evs, ops) ∧ CallsFor es evs ops l errs ∧
      Performs es w l r.2.world ∧ r.1 = min errs.length m ∧ EndRel m errs r.2.fin ∧
      (argv ≠ [] → r.2.g.nargv.Perm argv) := by
  obtain ⟨fuel, h⟩ := h
  unfold sParse at h
  obtain ⟨s1, hs1, h⟩ := mbind_ok_inv h
  obtain ⟨hp1, hf1⟩ := sReset_calls (es := es) es [] ⟨w, e, g⟩ s1 rfl hs1
  simp only [List.length_nil] at hp1
  have hr0 : EndRel m [] { s1.fin with count := 0 } := by rw [hf1]; exact endRel_nil hend
  have finish : ∀ {evs : List Ev} {ops : List CStr} {opt opr : List (Call × Int)} {e1 e2 : List ErrRec} {s2 : SState W},
      OptionCalls es evs opt e1 → OperandCalls es 0 none ops opr e2 →
      Performs es w (resetCalls es 0 ++ opt ++ opr) s2.world → EndRel m (e1 ++ e2) s2.fin →
      (if s2.fin.count = 0 then (sCheck (hdrs es) 0 s2 >>= fun s => .ok (s.fin.count, s)) else .ok (s2.fin.count, s2)
        : M (Nat × SState W)) = .ok r →
      ∃ l errs, CallsFor es evs ops l errs ∧ Performs es w l r.2.world ∧ r.1 = min errs.length m ∧
        EndRel m errs r.2.fin ∧ r.2.g.nargv = s2.g.nargv := by
    intro evs ops opt opr e1 e2 s2 ho hop hp hr h
    by_cases hc : s2.fin.count = 0
    · have hnil : e1 ++ e2 = [] := by
        have h1 := hr.count
        have h2 := hr.ok.pos
        rw [hc] at h1
        exact List.length_eq_zero_iff.1 (by omega)
      rw [if_pos hc] at h
      obtain ⟨s3, hs3, h⟩ := mbind_ok_inv h
      cases h
      obtain ⟨chk, errs, hk, hpk, hrk, hgk⟩ := sCheck_calls (es := es) es [] s2 s3 _ rfl hr hs3
      rw [hnil, List.nil_append] at hrk
      obtain ⟨rfl, rfl⟩ := List.append_eq_nil_iff.1 hnil
      exact ⟨_, errs, .checked ho hop hk, hp.append hpk, hrk.count, hrk, hgk⟩
    · rw [if_neg hc] at h
      cases h
      refine ⟨_, _, .failed ho hop ?_, hp, hr.count, hr, rfl⟩
      intro hnil
      have h1 := hr.count
      rw [hnil] at h1
      simp at h1; omega
  cases argv with
  | nil =>
    simp only [List.length_nil, if_true] at h
    have h0 : OperandCalls es 0 none [] [] [] := by
      by_cases hl : 0 < es.length
      · exact .done hl
      · exact .exhausted (ops := []) (last := none) (by omega)
    obtain ⟨l, errs, h1, h2, h3, h4, h5⟩ := finish (s2 := ⟨s1.world, { s1.fin with count := 0 }, s1.g⟩)
      .nil h0 (by simpa using hp1) hr0 (by rw [if_pos rfl]; exact h)
    exact ⟨[], [], l, errs, rfl, h1, h2, h3, h4, fun hh => absurd rfl hh⟩
  | cons a0 args =>
    simp only [List.length_cons, Nat.add_eq_zero_iff, Nat.one_ne_zero, and_false, if_false] at h
    obtain ⟨s2, hs2, h⟩ := mbind_ok_inv h
    obtain ⟨s3, hs3, hlast⟩ := mbind_ok_inv h
    clear h
    cases htok : tokenize (decls es) env args with
    | none => exact absurd hs2 (sTagged_hung a0 args hargs s1.g hwf htok fuel s1.world _ s2)
    | some p =>
      obtain ⟨evs, ops⟩ := p
      obtain ⟨k, gf, hfin, hrun⟩ := sTagged_spec (env := env) a0 args hargs s1.g hwf htok
      have hloop : sTagged (hdrs es) env (fuel + (k + 1)) (a0 :: args).length
          ⟨s1.world, { s1.fin with count := 0 }, { s1.g with nargv := a0 :: args }⟩ = .ok s2 :=
        sTagged_mono fuel (k + 1) hs2
      rw [hrun] at hloop
      obtain ⟨⟨w2, e2⟩, hap, heq⟩ := mbind_ok_inv hloop
      cases heq
      obtain ⟨opt, errs1, ho, hpo, hro⟩ := eApplyAll_calls hr0 hap
      obtain ⟨X, hX1, hX2, hX3, hX4, hX5, hX6⟩ := hfin
      have hat : AtOps (args.length + 1) ops gf :=
        ⟨⟨X, hX1, hX2⟩, by rw [hX5.length_eq]; simp⟩
      obtain ⟨opr, errs2, hop, hpp, hrp, hn, hse⟩ := sUntagged_calls (es := es) fuel 0 none none ops ⟨w2, e2, gf⟩ s3 errs1
        (Nat.zero_le _) hat (by simpa using hro) (Or.inl ⟨rfl, rfl⟩) hs3
      obtain ⟨l, errs, h1, h2, h3, h4, h5⟩ := finish ho hop
        ((hp1.append hpo).append hpp) hrp hlast
      refine ⟨evs, ops, l, errs, htok, h1, h2, h3, h4, fun _ => ?_⟩
      rw [h5, hn]; exact hX5

theorem calls_sParse {m : Nat} {w w' : W} {e : EndTbl} (g : GState) {argv : List CStr} {evs : List Ev} {ops : List CStr}
    {l : List (Call × Int)} {errs : List ErrRec} (hend : EndOK m e) (hwf : WF (decls es)) (hargs : CArgs argv.tail)
    (htok : tokenize (decls es) env argv.tail = some (evs, ops)) (hc : CallsFor es evs ops l errs)
    (hp : Performs es w l w') : ∃ r, ReturnsShared env argv (hdrs es) ⟨w, e, g⟩ r ∧ r.2.world = w' := by
  have hr0 : EndRel m [] { e with count := 0 } := endRel_nil hend
  -- the part before the checks
  obtain ⟨opt, opr, e1, e2, rest, ho, hop, hl, hrest⟩ : ∃ opt opr e1 e2 rest, OptionCalls es evs opt e1 ∧
      OperandCalls es 0 none ops opr e2 ∧ l = resetCalls es 0 ++ opt ++ opr ++ rest ∧
      ((e1 ++ e2 = [] ∧ CheckCalls es 0 rest errs) ∨ (e1 ++ e2 ≠ [] ∧ rest = [])) := by
    cases hc with
    | checked a b c => exact ⟨_, _, [], [], _, a, b, rfl, Or.inl ⟨rfl, c⟩⟩
    | failed a b c => exact ⟨_, _, _, _, [], a, b, by simp, Or.inr ⟨c, rfl⟩⟩
  subst hl
  obtain ⟨w3, hp3, hpc⟩ := hp.split
  obtain ⟨w2, hp2, hpop⟩ := hp3.split
  obtain ⟨w1, hp1, hpo⟩ := hp2.split
  obtain ⟨g1, hreset⟩ := calls_sReset (es := es) es [] ⟨w, e, g⟩ w1 rfl (by simpa using hp1)
  obtain ⟨ef, hap, hro⟩ := calls_eApplyAll ho hr0 hpo
  have finish : ∀ s3 : SState W, s3.world = w3 → EndRel m (e1 ++ e2) s3.fin →
      ∃ r, (if s3.fin.count = 0 then (sCheck (hdrs es) 0 s3 >>= fun s => .ok (s.fin.count, s)) else .ok (s3.fin.count, s3)
        : M (Nat × SState W)) = .ok r ∧ r.2.world = w' := by
    intro s3 hw hr
    have hcnt := hr.count
    have hpos := hr.ok.pos
    rcases hrest with ⟨hnil, hk⟩ | ⟨hne, rfl⟩
    · rw [hnil] at hcnt
      simp only [List.length_nil, Nat.zero_min] at hcnt
      obtain ⟨s4, h4, hw4⟩ := calls_sCheck (es := es) (m := m) hk (pre := []) (s := s3) (w' := w') rfl rfl hr (by rw [hw]; exact hpc)
      exact ⟨_, by rw [if_pos hcnt, h4]; rfl, hw4⟩
    · cases hpc
      have := List.length_pos_iff.2 hne
      exact ⟨_, by rw [if_neg (by omega)], hw⟩
  cases argv with
  | nil =>
    simp only [List.tail_nil, tokenize, Option.some.injEq, Prod.mk.injEq] at htok
    obtain ⟨rfl, rfl⟩ := htok
    cases ho
    cases hpo
    have he2 : e2 = [] ∧ opr = [] := by
      cases hop with
      | exhausted _ => exact ⟨rfl, rfl⟩
      | done _ => exact ⟨rfl, rfl⟩
      | skip _ _ h => exact absurd rfl h
    obtain ⟨rfl, rfl⟩ := he2
    cases hpop
    obtain ⟨r, h1, h2⟩ := finish ⟨_, { e with count := 0 }, g1⟩ rfl (by simpa using hr0)
    refine ⟨r, ⟨0, ?_⟩, h2⟩
    unfold sParse
    rw [hreset]
    simp only [bind_ok, List.length_nil, if_true]
    rw [if_pos rfl] at h1
    exact h1
  | cons a0 args =>
    obtain ⟨k, gf, hfin, hrun⟩ := sTagged_spec (env := env) a0 args hargs g1 hwf htok
    obtain ⟨X, hX1, hX2, hX3, hX4, hX5, hX6⟩ := hfin
    have hat : AtOps (args.length + 1) ops gf := ⟨⟨X, hX1, hX2⟩, by rw [hX5.length_eq]; simp⟩
    obtain ⟨s3, N, h3, hw3⟩ := calls_sUntagged (nargc := args.length + 1) hop (ml := none) (s := ⟨w2, ef, gf⟩) hat
      (by simpa using hro) (Or.inl ⟨rfl, rfl⟩) hpop
    obtain ⟨opr', errs2, hop', hpp', hrp', _, _⟩ := sUntagged_calls (es := es) N 0 none none ops ⟨w2, ef, gf⟩ s3 e1
        (Nat.zero_le _) hat (by simpa using hro) (Or.inl ⟨rfl, rfl⟩) (h3 N (Nat.le_refl _))
    have heq := OperandCalls.unique hop hop' hpop hpp'
    rw [← heq.2] at hrp'
    obtain ⟨r, h1, h2⟩ := finish s3 hw3 hrp'
    refine ⟨r, ⟨N + (k + 1), ?_⟩, h2⟩
    unfold sParse
    rw [hreset]
    simp only [bind_ok, List.length_cons, Nat.add_eq_zero_iff, Nat.one_ne_zero, and_false, if_false]
    have := hrun N w1 { e with count := 0 }
    rw [hap, bind_ok] at this
    simp only [List.length_cons] at this
    rw [this]
    simp only [bind_ok]
    rw [h3 _ (by omega)]
    exact h1

theorem OptionCalls.unique {evs : List Ev} {l l' : List (Call × Int)} {e e' : List ErrRec} {w w1 w2 : W}
    (h : OptionCalls es evs l e) : OptionCalls es evs l' e' → Performs es w l w1 → Performs es w l' w2 →
      l = l' ∧ e = e' := by
  have scans : ∀ {i : Nat} {x : Entry W} {a : Option CStr} {n : Int} {w w1 : W}, es[i]? = some x → x.scan = none →
      called es w (.scan i a) = some (.ok (w1, n)) → False := by
    intro i x a n w w1 hi hn hc
    simp only [called, hi, Option.bind_some, hn, Option.map_none] at hc
    cases hc
  induction h generalizing l' e' w with
  | nil => intro h' _ _; cases h'; exact ⟨rfl, rfl⟩
  | fail _ ih =>
    intro h' hp1 hp2
    cases h' with
    | fail hc' => obtain ⟨h1, h2⟩ := ih hc' hp1 hp2; exact ⟨h1, by rw [h2]⟩
  | skip hi hn _ ih =>
    intro h' hp1 hp2
    cases h' with
    | skip _ _ hc' => exact ih hc' hp1 hp2
    | accept _ => cases hp2 with | cons hc _ => exact (scans hi hn hc).elim
    | reject _ _ => cases hp2 with | cons hc _ => exact (scans hi hn hc).elim
  | accept _ ih =>
    intro h' hp1 hp2
    cases hp1 with
    | cons hc1 hp1 =>
      cases h' with
      | skip hi hn _ => exact (scans hi hn hc1).elim
      | accept hc' =>
        cases hp2 with
        | cons hc2 hp2 =>
          rw [hc1] at hc2; cases hc2
          obtain ⟨h1, h2⟩ := ih hc' hp1 hp2
          exact ⟨by rw [h1], h2⟩
      | reject hn _ =>
        cases hp2 with
        | cons hc2 hp2 => rw [hc1] at hc2; cases hc2; exact absurd rfl hn
  | reject hn _ ih =>
    intro h' hp1 hp2
    cases hp1 with
    | cons hc1 hp1 =>
      cases h' with
      | skip hi hn _ => exact (scans hi hn hc1).elim
      | accept _ =>
        cases hp2 with
        | cons hc2 hp2 => rw [hc1] at hc2; cases hc2; exact absurd rfl hn
      | reject _ hc' =>
        cases hp2 with
        | cons hc2 hp2 =>
          rw [hc1] at hc2; cases hc2
          obtain ⟨h1, h2⟩ := ih hc' hp1 hp2
          exact ⟨by rw [h1], by rw [h2]⟩

theorem CheckCalls.unique {rest : List (Entry W)} {i : Nat} {l l' : List (Call × Int)} {e e' : List ErrRec} {w w1 w2 : W}
    (h : CheckCalls rest i l e) : CheckCalls rest i l' e' → Performs es w l w1 → Performs es w l' w2 →
      l = l' ∧ e = e' := by
  induction h generalizing l' e' w with
  | nil => intro h' _ _; cases h'; exact ⟨rfl, rfl⟩
  | skip hn _ ih =>
    intro h' hp1 hp2
    cases h' with
    | skip _ hc' => exact ih hc' hp1 hp2
    | accept hh _ => exact absurd hn hh
    | reject hh _ _ => exact absurd hn hh
  | accept hh _ ih =>
    intro h' hp1 hp2
    cases hp1 with
    | cons hc1 hp1 =>
      cases h' with
      | skip hn _ => exact absurd hn hh
      | accept _ hc' =>
        cases hp2 with
        | cons hc2 hp2 =>
          rw [hc1] at hc2; cases hc2
          obtain ⟨h1, h2⟩ := ih hc' hp1 hp2
          exact ⟨by rw [h1], h2⟩
      | reject _ hn _ =>
        cases hp2 with
        | cons hc2 hp2 => rw [hc1] at hc2; cases hc2; exact absurd rfl hn
  | reject hh hn _ ih =>
    intro h' hp1 hp2
    cases hp1 with
    | cons hc1 hp1 =>
      cases h' with
      | skip hn _ => exact absurd hn hh
      | accept _ _ =>
        cases hp2 with
        | cons hc2 hp2 => rw [hc1] at hc2; cases hc2; exact absurd rfl hn
      | reject _ _ hc' =>
        cases hp2 with
        | cons hc2 hp2 =>
          rw [hc1] at hc2; cases hc2
          obtain ⟨h1, h2⟩ := ih hc' hp1 hp2
          exact ⟨by rw [h1], by rw [h2]⟩

theorem Spec.Performs.unique {w w1 w2 : W} {l : List (Call × Int)} (h : Performs es w l w1) (h' : Performs es w l w2) :
    w1 = w2 := by
  induction h with
  | nil => cases h'; rfl
  | cons hc _ ih =>
    cases h' with
    | cons hc' h' => rw [hc] at hc'; cases hc'; exact ih h'

theorem Spec.CallsFor.unique {evs : List Ev} {ops : List CStr} {l l' : List (Call × Int)} {e e' : List ErrRec}
    {w w1 w2 : W} (h : CallsFor es evs ops l e) (h' : CallsFor es evs ops l' e') (hp : Performs es w l w1)
    (hp' : Performs es w l' w2) : l = l' ∧ e = e' ∧ w1 = w2 := by
  have key : ∀ {opt opr opt' opr' rest rest' : List (Call × Int)} {e1 e2 e1' e2' : List ErrRec},
      OptionCalls es evs opt e1 → OperandCalls es 0 none ops opr e2 →
      OptionCalls es evs opt' e1' → OperandCalls es 0 none ops opr' e2' →
      Performs es w (resetCalls es 0 ++ opt ++ opr ++ rest) w1 →
      Performs es w (resetCalls es 0 ++ opt' ++ opr' ++ rest') w2 →
      opt = opt' ∧ opr = opr' ∧ e1 = e1' ∧ e2 = e2' ∧ ∃ wm, Performs es wm rest w1 ∧ Performs es wm rest' w2 := by
    intro opt opr opt' opr' rest rest' e1 e2 e1' e2' a b a' b' p p'
    obtain ⟨x3, p, q3⟩ := p.split
    obtain ⟨x2, p, q2⟩ := p.split
    obtain ⟨x1, p, q1⟩ := p.split
    obtain ⟨y3, p', r3⟩ := p'.split
    obtain ⟨y2, p', r2⟩ := p'.split
    obtain ⟨y1, p', r1⟩ := p'.split
    cases p.unique p'
    obtain ⟨rfl, rfl⟩ := OptionCalls.unique a a' q1 r1
    cases q1.unique r1
    obtain ⟨rfl, rfl⟩ := OperandCalls.unique b b' q2 r2
    cases q2.unique r2
    exact ⟨rfl, rfl, rfl, rfl, _, q3, r3⟩
  cases h with
  | checked a b c =>
    cases h' with
    | checked a' b' c' =>
      obtain ⟨rfl, rfl, _, _, wm, q, r⟩ := key a b a' b' hp hp'
      obtain ⟨rfl, rfl⟩ := CheckCalls.unique c c' q r
      exact ⟨rfl, rfl, q.unique r⟩
    | failed a' b' hne =>
      obtain ⟨rfl, rfl, rfl, rfl, _⟩ := key (rest' := []) a b a' b' hp (by simpa using hp')
      exact absurd rfl hne
  | failed a b hne =>
    cases h' with
    | checked a' b' c' =>
      obtain ⟨rfl, rfl, rfl, rfl, _⟩ := key (rest := []) a b a' b' (by simpa using hp) hp'
      exact absurd rfl hne
    | failed a' b' _ =>
      obtain ⟨rfl, rfl, rfl, rfl, _⟩ := key (rest := []) (rest' := []) a b a' b' (by simpa using hp) (by simpa using hp')
      exact ⟨rfl, rfl, hp.unique hp'⟩

/-! ### callbacks that always return -/

theorem resetCalls_exist (ht : Spec.Total es) : ∀ (rest pre : List (Entry W)) (w : W), es = pre ++ rest →
    ∃ w', Performs es w (resetCalls rest pre.length) w' := by
  intro rest
  induction rest with
  | nil => intro pre w _; exact ⟨w, .nil⟩
  | cons e rest ih =>
    intro pre w hes
    have hi : es[pre.length]? = some e := by rw [hes]; simp
    have ih' := fun w => ih (pre ++ [e]) w (by simp [hes])
    simp only [List.length_append, List.length_cons, List.length_nil, Nat.zero_add] at ih'
    unfold resetCalls
    cases hr : e.reset with
    | none => simpa using ih' w
    | some f =>
      obtain ⟨w1, hw⟩ := ht.reset e (List.mem_of_getElem? hi) f hr w
      obtain ⟨w', h'⟩ := ih' w1
      exact ⟨w', .cons (by simp [called, hi, hr, hw, Except.map]) h'⟩

theorem checkCalls_exist (ht : Spec.Total es) : ∀ (rest pre : List (Entry W)) (w : W), es = pre ++ rest →
    ∃ l errs w', CheckCalls rest pre.length l errs ∧ Performs es w l w' := by
  intro rest
  induction rest with
  | nil => intro pre w _; exact ⟨[], [], w, .nil, .nil⟩
  | cons e rest ih =>
    intro pre w hes
    have hi : es[pre.length]? = some e := by rw [hes]; simp
    have ih' := fun w => ih (pre ++ [e]) w (by simp [hes])
    simp only [List.length_append, List.length_cons, List.length_nil, Nat.zero_add] at ih'
    cases hr : e.check with
    | none => obtain ⟨l, errs, w', h1, h2⟩ := ih' w; exact ⟨l, errs, w', .skip hr h1, h2⟩
    | some f =>
      obtain ⟨⟨w1, n⟩, hw⟩ := ht.check e (List.mem_of_getElem? hi) f hr w
      obtain ⟨l, errs, w', h1, h2⟩ := ih' w1
      have hc : called es w (.check pre.length) = some (.ok (w1, n)) := by simp [called, hi, hr, hw]
      by_cases hn : n = 0
      · subst hn; exact ⟨_, _, w', .accept (by simp [hr]) h1, .cons hc h2⟩
      · exact ⟨_, _, w', .reject (by simp [hr]) hn h1, .cons hc h2⟩

theorem optionCalls_exist (ht : Spec.Total es) : ∀ (evs : List Ev) (w : W), (∀ i a, .deliver i a ∈ evs → i < es.length) →
    ∃ l errs w', OptionCalls es evs l errs ∧ Performs es w l w' := by
  intro evs
  induction evs with
  | nil => intro w _; exact ⟨[], [], w, .nil, .nil⟩
  | cons ev evs ih =>
    intro w hv
    have ih' := fun w => ih w fun i a h => hv i a (List.mem_cons_of_mem _ h)
    cases ev with
    | fail c a => obtain ⟨l, errs, w', h1, h2⟩ := ih' w; exact ⟨l, _, w', .fail h1, h2⟩
    | deliver i a =>
      have hlt := hv i a (List.mem_cons_self ..)
      have hi := List.getElem?_eq_getElem hlt
      cases hr : es[i].scan with
      | none => obtain ⟨l, errs, w', h1, h2⟩ := ih' w; exact ⟨l, errs, w', .skip hi hr h1, h2⟩
      | some f =>
        obtain ⟨⟨w1, n⟩, hw⟩ := ht.scan _ (List.mem_of_getElem? hi) f hr w a
        obtain ⟨l, errs, w', h1, h2⟩ := ih' w1
        have hc : called es w (.scan i a) = some (.ok (w1, n)) := by simp [called, hi, hr, hw]
        by_cases hn : n = 0
        · subst hn; exact ⟨_, _, w', .accept h1, .cons hc h2⟩
        · exact ⟨_, _, w', .reject hn h1, .cons hc h2⟩

theorem operandCalls_exist (ht : Spec.Total es) : ∀ (k i : Nat) (last : Option (Int × Nat)) (ops : List CStr) (w : W),
    i ≤ es.length → ops.length + (es.length - i) ≤ k →
    ∃ l errs w', OperandCalls es i last ops l errs ∧ Performs es w l w' := by
  intro k
  induction k with
  | zero =>
    intro i last ops w hi hk
    exact ⟨[], _, w, .exhausted (by omega), .nil⟩
  | succ k ih =>
    intro i last ops w hile hk
    by_cases hlt : i < es.length
    · have hi := List.getElem?_eq_getElem hlt
      cases ops with
      | nil => exact ⟨[], [], w, .done hlt, .nil⟩
      | cons a ops =>
        simp only [List.length_cons] at hk
        by_cases hp : (es[i]).plain
        · cases hr : es[i].scan with
          | none => exact absurd hr hp.2.2
          | some f =>
            obtain ⟨⟨w1, n⟩, hw⟩ := ht.scan _ (List.mem_of_getElem? hi) f hr w (some a)
            have hc : called es w (.scan i (some a)) = some (.ok (w1, n)) := by simp [called, hi, hr, hw]
            by_cases hn : n = 0
            · subst hn
              obtain ⟨l, errs, w', h1, h2⟩ := ih i none ops w1 hile (by omega)
              exact ⟨_, _, w', .accept hi hp h1, .cons hc h2⟩
            · obtain ⟨l, errs, w', h1, h2⟩ := ih (i + 1) (some (n, i)) (a :: ops) w1 hlt (by simp only [List.length_cons]; omega)
              exact ⟨_, _, w', .reject hi hp hn h1, .cons hc h2⟩
        · obtain ⟨l, errs, w', h1, h2⟩ := ih (i + 1) last (a :: ops) w hlt (by simp only [List.length_cons]; omega)
          exact ⟨_, _, w', .skip hi hp (by simp) h1, h2⟩
    · exact ⟨[], _, w, .exhausted (by omega), .nil⟩

theorem callsFor_exist (ht : Spec.Total es) {evs : List Ev} (hv : ∀ i a, .deliver i a ∈ evs → i < es.length)
    (ops : List CStr) (w : W) : ∃ l errs w', CallsFor es evs ops l errs ∧ Performs es w l w' := by
  obtain ⟨w1, p1⟩ := resetCalls_exist ht es [] w rfl
  obtain ⟨l2, e2, w2, c2, p2⟩ := optionCalls_exist ht evs w1 hv
  obtain ⟨l3, e3, w3, c3, p3⟩ := operandCalls_exist ht _ 0 none ops w2 (Nat.zero_le _) (Nat.le_refl _)
  by_cases hn : e2 ++ e3 = []
  · obtain ⟨rfl, rfl⟩ := List.append_eq_nil_iff.1 hn
    obtain ⟨l4, e4, w4, c4, p4⟩ := checkCalls_exist ht es [] w3 rfl
    exact ⟨_, _, w4, .checked c2 c3 c4, ((p1.append p2).append p3).append p4⟩
  · exact ⟨_, _, w3, .failed c2 c3 hn, (p1.append p2).append p3⟩

/-! ### a call has one result -/

theorem sUntagged_mono (hs : List (SHdr W)) : ∀ (n k i : Nat) (last : Option (Int × Option CStr × Nat)) {s s' : SState W},
    sUntagged hs nargc n i last s = .ok s' → sUntagged hs nargc (n + k) i last s = .ok s' := by
  intro n
  induction n with
  | zero => intro k i last s s' h; cases h
  | succ n ih =>
    intro k i last s s' h
    rw [show n + 1 + k = (n + k) + 1 by omega]
    simp only [sUntagged] at h ⊢
    cases hi : hs[i]? with
    | none => rw [hi] at h; exact h
    | some e =>
      rw [hi] at h
      dsimp only at h ⊢
      split at h
      · next hc => rw [if_pos hc]; exact h
      · next hc =>
        rw [if_neg hc]
        split at h
        · next hd => rw [if_pos hd]; exact ih k _ _ h
        · next hd =>
          rw [if_neg hd]
          cases hf : e.scanfn with
          | none => rw [hf] at h; exact ih k _ _ h
          | some f =>
            rw [hf] at h
            dsimp only at h ⊢
            obtain ⟨a, ha, h⟩ := mbind_ok_inv h
            obtain ⟨⟨w, g, err⟩, hw, hrest⟩ := mbind_ok_inv h
            rw [ha, bind_ok, hw, bind_ok]
            dsimp only at hrest ⊢
            split at hrest
            · next he => rw [if_pos he]; exact ih k _ _ hrest
            · next he =>
              rw [if_neg he]
              obtain ⟨b, hb, hrest⟩ := mbind_ok_inv hrest
              rw [hb, bind_ok]
              exact ih k _ _ hrest

theorem sParse_mono {hs : List (SHdr W)} {argv : List CStr} {s : SState W} {r : Nat × SState W} (n k : Nat)
    (h : sParse hs env n argv s = .ok r) : sParse hs env (n + k) argv s = .ok r := by
  unfold sParse at h ⊢
  obtain ⟨s1, h1, h⟩ := mbind_ok_inv h
  rw [h1, bind_ok]
  dsimp only at h ⊢
  split at h
  · next hc => rw [if_pos hc]; exact h
  · next hc =>
    rw [if_neg hc]
    obtain ⟨s2, h2, h⟩ := mbind_ok_inv h
    obtain ⟨s3, h3, hrest⟩ := mbind_ok_inv h
    rw [sTagged_mono n k h2, bind_ok, sUntagged_mono hs n k _ _ h3, bind_ok]
    exact hrest

theorem Spec.ReturnsShared.unique {hs : List (SHdr W)} {argv : List CStr} {s : SState W} {r r' : Nat × SState W}
    (h : ReturnsShared env argv hs s r) (h' : ReturnsShared env argv hs s r') : r = r' := by
  obtain ⟨n, h⟩ := h
  obtain ⟨k, h'⟩ := h'
  have h1 := sParse_mono n k h
  have h2 := sParse_mono k n h'
  rw [Nat.add_comm k n, h1] at h2
  exact Except.ok.inj h2

end Argtable
