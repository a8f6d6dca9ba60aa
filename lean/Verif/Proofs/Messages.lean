import Verif.Spec.Messages
import Verif.Proofs.Print
import Verif.Proofs.Lawful
import Verif.Proofs.Live
/-!
# Proofs about error messages
-/

namespace Argtable

open Spec

variable {δ σ : Type}

/-- The sample date has all members 0: the format of the sample starts with the unsupported `%F`. -/
theorem sampleTm_eq : sampleTm = {} := by decide +kernel

theorem Libc.sample_eq {δ : Type} (lc : Libc δ) (format : CStr) : lc.sample format = lc.strftime format {} := by
  rw [Libc.sample, sampleTm_eq]

theorem printOption_text (so lo dt : Option CStr) (suffix : CStr) (hso : CText so) (hlo : CText lo)
    (hdt : CText dt) :
    ∃ s, printOption so lo dt suffix = .ok (s ++ suffix) ∧
      Clipped (fullOptionv so lo dt false (cs "|")) s := by
  obtain ⟨b, e, h⟩ := renderv so lo dt hso hlo hdt false (sep := cs "|") (by decide) [] (by simp) (by simp)
  exact ⟨_, by rw [printOption, e, pbind_ok], by simpa using h⟩

/-! ### the codes that scan functions return -/

theorem intScale_code {v k err : Int} {q : Int × Int} (h : intScale v k err = .ok q) :
    q.2 = err ∨ q.2 = ARG_ERR_OVERFLOW := by
  unfold intScale at h
  split at h
  · cases h; exact Or.inr rfl
  · cases hm : mulLong v k with
    | error e => rw [hm] at h; cases h
    | ok w => rw [hm, bind_ok] at h; cases h; exact Or.inl rfl

theorem intSuffix_code {v : Int} {e : CStr} {q : Int × Int} (h : intSuffix v e = .ok q) :
    q.2 = 0 ∨ q.2 = ARG_ERR_OVERFLOW ∨ q.2 = ARG_ERR_BADINT := by
  unfold intSuffix at h
  have hh : ∀ p : Prop, [Decidable p] → ∀ x : Int,
      (x = (if p then ARG_ERR_OVERFLOW else 0) ∨ x = ARG_ERR_OVERFLOW) →
      x = 0 ∨ x = ARG_ERR_OVERFLOW ∨ x = ARG_ERR_BADINT := by
    intro p _ x hx
    rcases hx with hx | hx
    · split at hx <;> simp [hx]
    · exact Or.inr (Or.inl hx)
  dsimp only at h
  split at h
  · exact hh _ _ (intScale_code h)
  · split at h
    · exact hh _ _ (intScale_code h)
    · split at h
      · exact hh _ _ (intScale_code h)
      · split at h
        · cases h; exact Or.inr (Or.inr rfl)
        · cases h
          exact hh _ _ (Or.inl rfl)

theorem intScan_code {mx : Int} {o : IntObj} {a : Option CStr} {q : IntObj × Int}
    (h : intScan mx o a = .ok q) (h0 : q.2 ≠ 0) : q.2 = ARG_ERR_MAXCOUNT ∨
      (∃ s, a = some s) ∧ (q.2 = ARG_ERR_BADINT ∨ q.2 = ARG_ERR_OVERFLOW) := by
  unfold intScan at h
  split at h
  · cases h; exact Or.inl rfl
  · cases a with
    | none => cases h; exact absurd rfl h0
    | some s =>
      dsimp only at h
      cases hc : intConvert s with
      | error e => rw [hc] at h; cases h
      | ok c =>
        rw [hc, bind_ok] at h
        cases c with
        | none => cases h; exact Or.inr ⟨⟨s, rfl⟩, Or.inl rfl⟩
        | some ve =>
          obtain ⟨v, e⟩ := ve
          dsimp only at h
          cases hx : intSuffix v e with
          | error e => rw [hx] at h; cases h
          | ok ve' =>
            rw [hx, bind_ok] at h
            obtain ⟨v', e'⟩ := ve'
            have hcode := intSuffix_code hx
            dsimp only at h hcode
            split at h
            · cases hs : storeAt o.ival o.count (some (intOfLong v')) with
              | error e => rw [hs] at h; cases h
              | ok l => rw [hs, bind_ok] at h; cases h; exact absurd rfl h0
            · cases h
              rcases hcode with hcode | hcode | hcode
              · exact absurd hcode h0
              · exact Or.inr ⟨⟨s, rfl⟩, Or.inr hcode⟩
              · exact Or.inr ⟨⟨s, rfl⟩, Or.inl hcode⟩

theorem dblScan_code {f : CStr → δ × CStr} {mx : Int} {o : DblObj δ} {a : Option CStr}
    {q : DblObj δ × Int} (h : dblScan f mx o a = .ok q) (h0 : q.2 ≠ 0) :
    q.2 = ARG_ERR_MAXCOUNT ∨ (∃ s, a = some s) ∧ q.2 = ARG_ERR_BADDOUBLE := by
  unfold dblScan at h
  split at h
  · cases h; exact Or.inl rfl
  · cases a with
    | none => cases h; exact absurd rfl h0
    | some s =>
      dsimp only at h
      split at h
      · cases hs : storeAt o.dval o.count (some (f s).1) with
        | error e => rw [hs] at h; cases h
        | ok l => rw [hs, bind_ok] at h; cases h; exact absurd rfl h0
      · cases h; exact Or.inr ⟨⟨s, rfl⟩, rfl⟩

theorem strScan_code {mx : Int} {o : StrObj} {a : Option CStr} {q : StrObj × Int}
    (h : strScan mx o a = .ok q) (h0 : q.2 ≠ 0) : q.2 = ARG_ERR_MAXCOUNT := by
  unfold strScan at h
  split at h
  · cases h; rfl
  · cases a with
    | none => cases h; exact absurd rfl h0
    | some s =>
      dsimp only at h
      cases hs : storeAt o.sval o.count s with
      | error e => rw [hs] at h; cases h
      | ok l => rw [hs, bind_ok] at h; cases h; exact absurd rfl h0

theorem fileScan_code {mx : Int} {o : FileObj} {a : Option CStr} {q : FileObj × Int}
    (h : fileScan mx o a = .ok q) (h0 : q.2 ≠ 0) : q.2 = ARG_ERR_MAXCOUNT := by
  unfold fileScan at h
  split at h
  · cases h; rfl
  · cases a with
    | none => cases h; exact absurd rfl h0
    | some s =>
      dsimp only at h
      cases h1 : storeAt o.filename o.count s with
      | error e => rw [h1] at h; cases h
      | ok l1 =>
        rw [h1, bind_ok] at h
        cases h2 : storeAt o.basename o.count (argBasename s) with
        | error e => rw [h2] at h; cases h
        | ok l2 =>
          rw [h2, bind_ok] at h
          cases h3 : storeAt o.extension o.count (argExtension (argBasename s)) with
          | error e => rw [h3] at h; cases h
          | ok l3 => rw [h3, bind_ok] at h; cases h; exact absurd rfl h0

theorem dateScan_code {fm : CStr} {mx : Int} {o : DateObj} {a : Option CStr} {q : DateObj × Int}
    (h : dateScan fm mx o a = .ok q) (h0 : q.2 ≠ 0) :
    q.2 = ARG_ERR_MAXCOUNT ∨ (∃ s, a = some s) ∧ q.2 = ARG_ERR_BADDATE := by
  unfold dateScan at h
  split at h
  · cases h; exact Or.inl rfl
  · cases a with
    | none => cases h; exact absurd rfl h0
    | some s =>
      dsimp only at h
      split at h
      · cases h
      · split at h
        · rename_i tm' _
          cases hs : storeAt o.tmval o.count tm' with
          | error e => rw [hs] at h; cases h
          | ok l => rw [hs, bind_ok] at h; cases h; exact absurd rfl h0
        · cases h; exact Or.inr ⟨⟨s, rfl⟩, rfl⟩

theorem rexScan_code {pat : CStr} {ic : Bool} {mx : Int} {o : StrObj} {a : Option CStr}
    {q : StrObj × Int} (h : rexScan pat ic mx o a = .ok q) (h0 : q.2 ≠ 0) :
    q.2 = ARG_ERR_MAXCOUNT ∨ (∃ s, a = some s) ∧ q.2 = ARG_ERR_REGNOMATCH := by
  unfold rexScan at h
  split at h
  · cases h; exact Or.inl rfl
  · cases a with
    | none => cases h; exact absurd rfl h0
    | some s =>
      dsimp only at h
      cases hc : rexCompile pat with
      | error e => rw [hc] at h; cases h
      | ok c =>
        rw [hc, bind_ok] at h
        cases c with
        | none => cases h
        | some nodes =>
          dsimp only at h
          cases hm : rexMatch nodes ic s with
          | error e => rw [hm] at h; cases h
          | ok b =>
            rw [hm, bind_ok] at h
            cases b with
            | false => cases h; exact Or.inr ⟨⟨s, rfl⟩, rfl⟩
            | true =>
              rw [if_pos rfl] at h
              cases hs : storeAt o.sval o.count s with
              | error e => rw [hs] at h; cases h
              | ok l => rw [hs, bind_ok] at h; cases h; exact absurd rfl h0

theorem litScan_code {mx : Int} {c : Nat} (h0 : (litScan mx c).2 ≠ 0) :
    (litScan mx c).2 = ARG_ERR_MAXCOUNT := by
  unfold litScan at h0 ⊢
  split at h0
  · exact absurd rfl h0
  · rename_i hn; rw [if_neg hn]

theorem countCheck_code {mn : Int} {c : Nat} (h0 : countCheck mn c ≠ 0) :
    countCheck mn c = ARG_ERR_MINCOUNT := by
  unfold countCheck at h0 ⊢
  split at h0
  · rename_i hn; rw [if_pos hn]
  · exact absurd rfl h0

/-! ### messages of entries -/

/-- The error function of `h` writes the message for `(code, a)`. -/
def Worded (h : Hdr (Obj δ)) (code : Int) (a : Option CStr) : Prop :=
  ∃ F : Int → Option CStr → CStr → M CStr, h.errorfn = some (fun _ => F) ∧
    ∀ prog : CStr, ∃ msg, F code a prog = .ok msg ∧ EntrySays h prog code a msg

theorem Worded.parent {h : Hdr (Obj δ)} {code : Int} {a : Option CStr} (hw : Worded h code a)
    (p : Obj δ) : Worded { h with parent := p } code a := by
  obtain ⟨F, h1, h2⟩ := hw
  refine ⟨F, h1, fun prog => ?_⟩
  obtain ⟨msg, e, hm⟩ := h2 prog
  refine ⟨msg, e, ?_⟩
  cases hm with
  | missing a b => exact .missing a b
  | missingSwitch a b => exact .missingSwitch a b
  | excess a b => exact .excess a b
  | extraneous a b => exact .extraneous a b
  | badInt a => exact .badInt a
  | overflow a => exact .overflow a
  | badDouble a => exact .badDouble a
  | badDate => exact .badDate
  | noMatch a => exact .noMatch a

/-- "missing option" and "excess option" from `stdError`. -/
theorem stdError_min (so lo dt : Option CStr) (hso : CText so) (hlo : CText lo) (hdt : CText dt)
    (other : CStr → M CStr) (a : Option CStr) (prog : CStr) :
    ∃ s, stdError so lo dt other ARG_ERR_MINCOUNT a prog
        = .ok (prog ++ cs ": missing option " ++ s ++ cs "\n") ∧
      Clipped (fullOptionv so lo dt false (cs "|")) s := by
  obtain ⟨s, e, hs⟩ := printOption_text so lo dt (cs "\n") hso hlo hdt
  refine ⟨s, ?_, hs⟩
  unfold stdError
  dsimp only
  rw [if_pos rfl, e, bind_ok, bind_ok]
  simp [cs]

theorem stdError_max (so lo dt : Option CStr) (hso : CText so) (hlo : CText lo)
    (other : CStr → M CStr) (a : Option CStr) (ha : CText a) (prog : CStr) :
    ∃ s, stdError so lo dt other ARG_ERR_MAXCOUNT a prog
        = .ok (prog ++ cs ": excess option " ++ s ++ cs "\n") ∧
      Clipped (fullOptionv so lo (some (a.getD [])) false (cs "|")) s := by
  obtain ⟨s, e, hs⟩ := printOption_text so lo (some (a.getD [])) (cs "\n") hso hlo (by
    intro t ht
    cases ht
    cases a with
    | none => simp
    | some a => exact ha a rfl)
  refine ⟨s, ?_, hs⟩
  unfold stdError
  dsimp only
  rw [if_neg (by decide), if_pos rfl, e, bind_ok, bind_ok]
  simp [cs]

theorem stdError_other (so lo dt : Option CStr) (other : CStr → M CStr) (e : Int) (a prog body : CStr)
    (h1 : e ≠ ARG_ERR_MINCOUNT) (h2 : e ≠ ARG_ERR_MAXCOUNT) (hb : other a = .ok body) :
    stdError so lo dt other e (some a) prog = .ok (prog ++ cs ": " ++ body) := by
  unfold stdError
  dsimp only
  rw [if_neg h1, if_neg h2, Option.getD_some, hb, bind_ok]

/-- The two messages common to all entries with a value. -/
theorem worded_std {h : Hdr (Obj δ)} (hch : CHdr h) (hv : h.hasValue = true)
    {G : Int → CStr → M CStr} (hF : h.errorfn = some (fun _ => fun e =>
      stdError h.shortopts h.longopts h.datatype (G e) e)) {a : Option CStr} (ha : CText a) :
    Worded h ARG_ERR_MINCOUNT a ∧ Worded h ARG_ERR_MAXCOUNT a := by
  refine ⟨⟨_, hF, fun prog => ?_⟩, ⟨_, hF, fun prog => ?_⟩⟩
  · obtain ⟨s, e, hs⟩ := stdError_min h.shortopts h.longopts h.datatype hch.1 hch.2.1 hch.2.2
      (G ARG_ERR_MINCOUNT) a prog
    exact ⟨_, e, .missing hv hs⟩
  · obtain ⟨s, e, hs⟩ := stdError_max h.shortopts h.longopts h.datatype hch.1 hch.2.1
      (G ARG_ERR_MAXCOUNT) a ha prog
    exact ⟨_, e, .excess hv hs⟩

theorem countCheck_worded {h : Hdr (Obj δ)} {mn : Int} (hw : Worded h ARG_ERR_MINCOUNT none)
    (hc : h.checkfn = some (fun o => countCheck mn o.count)) {f : Obj δ → Int} (hf : h.checkfn = some f)
    (h0 : f h.parent ≠ 0) : Worded h (f h.parent) none := by
  rw [hc] at hf
  cases hf
  dsimp only at h0 ⊢
  rw [countCheck_code h0]
  exact hw

/-- Everything about the errors of a live entry. -/
structure Spoken (h : Hdr (Obj δ)) : Prop where
  scan : ∀ f a p e, h.scanfn = some f → CText a → f h.parent a = .ok (p, e) → e ≠ 0 → Worded h e a
  check : ∀ f, h.checkfn = some f → f h.parent ≠ 0 → Worded h (f h.parent) none

theorem ctext_none : CText none := by intro t ht; cases ht

theorem live_spoken {lc : Libc δ} {R : CStr → Prop} {h : Hdr (Obj δ)} (hl : Live lc R h) (hch : CHdr h)
    (hsf : SampleFits lc h) : Spoken h := by
  cases hl with
  | lit so lo mn mx gl ov c hc =>
    refine ⟨fun f a p e hf ha he h0 => ?_, fun f hf h0 => ?_⟩
    · cases hf
      cases he
      rw [litScan_code h0]
      refine ⟨_, rfl, fun prog => ?_⟩
      obtain ⟨s, e, hs⟩ := printOption_text so lo none (cs "\n") hch.1 hch.2.1 ctext_none
      refine ⟨_, ?_, .extraneous rfl hs⟩
      rw [litError, if_neg (by decide), if_pos rfl, e, bind_ok]
      simp [cs]
    · refine countCheck_worded ?_ rfl hf h0
      refine ⟨_, rfl, fun prog => ?_⟩
      obtain ⟨s, e, hs⟩ := printOption_text so lo none (cs "\n") hch.1 hch.2.1 ctext_none
      refine ⟨_, ?_, .missingSwitch rfl hs⟩
      rw [litError, if_pos rfl, e, bind_ok]
      simp [cs]
  | int so lo dt mn mx gl h ov o hh h1 h2 =>
    unfold argIntn at hh
    dsimp only at hh
    cases hn : arrayCells (foolproof mn mx) with
    | error e => rw [hn] at hh; cases hh
    | ok n =>
    rw [hn, bind_ok] at hh
    cases hh
    have W := fun {a : Option CStr} (ha : CText a) => worded_std hch rfl rfl ha
    refine ⟨fun f a p e hf ha he h0 => ?_, fun f hf h0 => countCheck_worded (W ctext_none).1 rfl hf h0⟩
    cases hf
    dsimp only at he
    cases hs : intScan (foolproof mn mx) o a with
    | error e => rw [hs] at he; cases he
    | ok q =>
      obtain ⟨o', e'⟩ := q
      rw [hs, bind_ok] at he
      cases he
      rcases intScan_code hs h0 with hc | ⟨⟨t, rfl⟩, hc | hc⟩
      · change e' = _ at hc; subst hc; exact (W ha).2
      · change e' = _ at hc
        subst hc
        refine ⟨_, rfl, fun prog => ?_⟩
        dsimp only
        obtain ⟨s, e1, hs1⟩ := printOption_text so lo (some (dt.getD (cs "<int>"))) (cs "\n") hch.1 hch.2.1 hch.2.2
        refine ⟨_, ?_, .badInt hs1⟩
        rw [intError, stdError_other _ _ _ _ _ _ _ _ (by decide) (by decide) (by
          rw [if_pos rfl, e1, bind_ok])]
        simp [cs]
      · change e' = _ at hc
        subst hc
        refine ⟨_, rfl, fun prog => ?_⟩
        dsimp only
        obtain ⟨s, e1, hs1⟩ := printOption_text so lo (some (dt.getD (cs "<int>"))) (cs " ") hch.1 hch.2.1 hch.2.2
        refine ⟨_, ?_, .overflow hs1⟩
        rw [intError, stdError_other _ _ _ _ _ _ _ _ (by decide) (by decide) (by
          rw [if_neg (by decide), if_pos rfl, e1, bind_ok])]
        simp [cs]
  | dbl ad so lo dt mn mx gl h ov o hh h1 h2 =>
    unfold argDbln at hh
    dsimp only at hh
    cases hn : arrayCells (foolproof mn mx) with
    | error e => rw [hn] at hh; cases hh
    | ok n =>
    rw [hn, bind_ok] at hh
    cases hh
    have W := fun {a : Option CStr} (ha : CText a) => worded_std hch rfl rfl ha
    refine ⟨fun f a p e hf ha he h0 => ?_, fun f hf h0 => countCheck_worded (W ctext_none).1 rfl hf h0⟩
    cases hf
    dsimp only at he
    cases hs : dblScan lc.strtod (foolproof mn mx) o a with
    | error e => rw [hs] at he; cases he
    | ok q =>
      obtain ⟨o', e'⟩ := q
      rw [hs, bind_ok] at he
      cases he
      rcases dblScan_code hs h0 with hc | ⟨⟨t, rfl⟩, hc⟩
      · change e' = _ at hc; subst hc; exact (W ha).2
      · change e' = _ at hc
        subst hc
        refine ⟨_, rfl, fun prog => ?_⟩
        dsimp only
        obtain ⟨s, e1, hs1⟩ := printOption_text so lo (some (dt.getD (cs "<double>"))) (cs "\n") hch.1 hch.2.1 hch.2.2
        refine ⟨_, ?_, .badDouble hs1⟩
        rw [dblError, stdError_other _ _ _ _ _ _ _ _ (by decide) (by decide) (by
          rw [if_pos rfl, e1, bind_ok])]
        simp [cs]
  | str so lo dt mn mx gl h ov o hh h1 h2 =>
    unfold argStrn at hh
    dsimp only at hh
    cases hn : arrayCells (foolproof mn mx) with
    | error e => rw [hn] at hh; cases hh
    | ok n =>
    rw [hn, bind_ok] at hh
    cases hh
    have W := fun {a : Option CStr} (ha : CText a) => worded_std hch rfl rfl ha
    refine ⟨fun f a p e hf ha he h0 => ?_, fun f hf h0 => countCheck_worded (W ctext_none).1 rfl hf h0⟩
    cases hf
    dsimp only at he
    cases hs : strScan (foolproof mn mx) o a with
    | error e => rw [hs] at he; cases he
    | ok q =>
      obtain ⟨o', e'⟩ := q
      rw [hs, bind_ok] at he
      cases he
      rw [show e' = _ from strScan_code hs h0]; exact (W ha).2
  | file so lo dt mn mx gl h ov o hh h1 h2 h3 h4 =>
    unfold argFilen at hh
    dsimp only at hh
    cases hn : arrayCells (foolproof mn mx) with
    | error e => rw [hn] at hh; cases hh
    | ok n =>
    rw [hn, bind_ok] at hh
    cases hh
    have W := fun {a : Option CStr} (ha : CText a) => worded_std hch rfl rfl ha
    refine ⟨fun f a p e hf ha he h0 => ?_, fun f hf h0 => countCheck_worded (W ctext_none).1 rfl hf h0⟩
    cases hf
    dsimp only at he
    cases hs : fileScan (foolproof mn mx) o a with
    | error e => rw [hs] at he; cases he
    | ok q =>
      obtain ⟨o', e'⟩ := q
      rw [hs, bind_ok] at he
      cases he
      rw [show e' = _ from fileScan_code hs h0]; exact (W ha).2
  | date so lo fm dt mn mx gl h ov o hh h1 h2 =>
    have hfit := hsf so lo fm dt mn mx gl h hh rfl
    rw [← Libc.sample_eq] at hfit
    unfold argDaten at hh
    dsimp only at hh
    cases hn : arrayCells (foolproof mn mx) with
    | error e => rw [hn] at hh; cases hh
    | ok n =>
    rw [hn, bind_ok] at hh
    cases hh
    have W := fun {a : Option CStr} (ha : CText a) => worded_std hch rfl rfl ha
    refine ⟨fun f a p e hf ha he h0 => ?_, fun f hf h0 => countCheck_worded (W ctext_none).1 rfl hf h0⟩
    cases hf
    dsimp only at he
    cases hs : dateScan (fm.getD (cs "%x")) (foolproof mn mx) o a with
    | error e => rw [hs] at he; cases he
    | ok q =>
      obtain ⟨o', e'⟩ := q
      rw [hs, bind_ok] at he
      cases he
      rcases dateScan_code hs h0 with hc | ⟨⟨t, rfl⟩, hc⟩
      · change e' = _ at hc; subst hc; exact (W ha).2
      · change e' = _ at hc
        subst hc
        refine ⟨_, rfl, fun prog => ?_⟩
        dsimp only
        refine ⟨_, ?_, .badDate (sample := lc.sample (fm.getD (cs "%x")))⟩
        rw [dateError, stdError_other _ _ _ _ _ _ _ _ (by decide) (by decide) (by
          rw [if_pos rfl, if_pos hfit])]
        simp [cs]
  | rex so lo pat dt mn mx ic gl h ov o hh hR h1 h2 =>
    unfold argRexn at hh
    dsimp only at hh
    cases hn : arrayCells (foolproof mn mx) with
    | error e => rw [hn] at hh; cases hh
    | ok n =>
    rw [hn, bind_ok] at hh
    cases hr : rexCompile pat with
    | error e => rw [hr] at hh; cases hh
    | ok nodes =>
    rw [hr, bind_ok] at hh
    cases hh
    have W := fun {a : Option CStr} (ha : CText a) => worded_std hch rfl rfl ha
    refine ⟨fun f a p e hf ha he h0 => ?_, fun f hf h0 => countCheck_worded (W ctext_none).1 rfl hf h0⟩
    cases hf
    dsimp only at he
    cases hs : rexScan pat ic (foolproof mn mx) o a with
    | error e => rw [hs] at he; cases he
    | ok q =>
      obtain ⟨o', e'⟩ := q
      rw [hs, bind_ok] at he
      cases he
      rcases rexScan_code hs h0 with hc | ⟨⟨t, rfl⟩, hc⟩
      · change e' = _ at hc; subst hc; exact (W ha).2
      · change e' = _ at hc
        subst hc
        refine ⟨_, rfl, fun prog => ?_⟩
        dsimp only
        obtain ⟨s, e1, hs1⟩ := printOption_text so lo (some t) (cs "\n") hch.1 hch.2.1 ha
        refine ⟨_, ?_, .noMatch hs1⟩
        rw [rexError, stdError_other _ _ _ _ _ _ _ _ (by decide) (by decide) (by
          rw [if_pos rfl, e1, bind_ok])]
        simp [cs]
  | rem dt gl => exact ⟨fun f _ _ _ hf => (by cases hf), fun f hf => (by cases hf)⟩

/-! ### which errors a command line raises -/

/-- An event with C strings only; the errors are of the documented kinds. -/
def EvFine (P : Char → Prop) : Ev → Prop
  | .deliver _ a => CText a
  | .fail code a => (∃ s, a = some s ∧ (code = ARG_ELONGOPT ∨ code = ARG_EMISSARG)) ∨
      (a = none ∧ ∃ c, P c ∧ code = charInt c)

theorem emptyValueError_fine (P : Char → Prop) (ds : List Decl) (i : Nat) (v w : CStr) :
    ∀ ev ∈ emptyValueError ds i v w, EvFine P ev := by
  unfold emptyValueError
  split
  · simp [EvFine]
  · simp

theorem readLong_fine (P : Char → Prop) (ds : List Decl) (a : CStr) (n : Option CStr) (b : CStr)
    (hb : '\x00' ∉ b) (hn : CText n) : ∀ ev ∈ (readLong ds a n b).1, EvFine P ev := by
  unfold readLong
  have hv : '\x00' ∉ (b.dropWhile (· ≠ '=')).tail := fun hm =>
    hb ((List.dropWhile_suffix _).subset (List.mem_of_mem_tail hm))
  dsimp only
  have fl : ∀ (code : Int), code = ARG_ELONGOPT ∨ code = ARG_EMISSARG →
      ∀ ev ∈ [Ev.fail code (some a)], EvFine P ev := by
    intro code hc ev hev
    rw [List.mem_singleton] at hev
    subst hev
    exact Or.inl ⟨a, rfl, hc⟩
  have dl : ∀ i v w, '\x00' ∉ v → ∀ ev ∈ emptyValueError ds i v w ++ [.deliver i (some v)], EvFine P ev := by
    intro i v w hv ev hev
    rcases List.mem_append.1 hev with h | h
    · exact emptyValueError_fine P _ _ _ _ _ h
    · rw [List.mem_singleton] at h
      subst h
      intro t ht
      cases ht
      exact hv
  split
  · exact fl _ (Or.inl rfl)
  · split
    · exact fl _ (Or.inl rfl)
    · rename_i v hs _ _
      refine dl _ _ _ ?_
      split at hs
      · cases hs; exact hv
      · cases hs
    · cases n with
      | none => exact fl _ (Or.inr rfl)
      | some v => exact dl _ _ _ (hn v rfl)
    · intro ev hev
      rw [List.mem_singleton] at hev
      subst hev
      exact ctext_none

theorem readCluster_fine {P : Char → Prop} (ds : List Decl) (a : CStr) (n : Option CStr) (hn : CText n) :
    ∀ (cl : CStr) (evs : List Ev) (u : Bool), readCluster ds a n cl = some (evs, u) →
      '\x00' ∉ cl → (∀ c ∈ cl, P c) → ∀ ev ∈ evs, EvFine P ev := by
  intro cl
  induction cl with
  | nil => intro evs u h _ _; cases h; simp
  | cons c tl ih =>
    intro evs u h h0 hP
    have h0t : '\x00' ∉ tl := fun hm => h0 (List.mem_cons_of_mem _ hm)
    have hPt : ∀ c ∈ tl, P c := fun c hc => hP c (List.mem_cons_of_mem _ hc)
    have hct : CText (some tl) := by intro t ht; cases ht; exact h0t
    rw [readCluster] at h
    split at h
    · split at h
      · cases h
      · have := readLong_fine P ds a n tl h0t hn
        rw [Option.some.inj h] at this
        exact this
    · split at h
      · cases hr : readCluster ds a n tl with
        | none => rw [hr] at h; cases h
        | some q =>
          obtain ⟨evs', u'⟩ := q
          rw [hr] at h
          cases h
          intro ev hev
          rcases List.mem_cons.1 hev with rfl | hev
          · exact Or.inr ⟨rfl, c, hP c List.mem_cons_self, rfl⟩
          · exact ih _ _ hr h0t hPt ev hev
      · cases hr : readCluster ds a n tl with
        | none => rw [hr] at h; cases h
        | some q =>
          obtain ⟨evs', u'⟩ := q
          rw [hr] at h
          cases h
          intro ev hev
          rcases List.mem_cons.1 hev with rfl | hev
          · exact ctext_none
          · exact ih _ _ hr h0t hPt ev hev
      · split at h
        · cases h
          intro ev hev
          rw [List.mem_singleton] at hev
          subst hev
          exact hct
        · cases n with
          | none =>
            cases h
            intro ev hev
            rw [List.mem_singleton] at hev
            subst hev
            exact Or.inl ⟨a, rfl, Or.inr rfl⟩
          | some v =>
            cases h
            intro ev hev
            rw [List.mem_singleton] at hev
            subst hev
            exact hn
      · cases h
        intro ev hev
        rw [List.mem_singleton] at hev
        subst hev
        show CText _
        split
        · exact ctext_none
        · exact hct

theorem tokenize_fine {P : Char → Prop} (ds : List Decl) (posix : Bool) :
    ∀ (m : Nat) (args : List CStr), args.length ≤ m → ∀ (evs : List Ev) (ops : List CStr),
      tokenize ds posix args = some (evs, ops) → CArgs args →
      (∀ a ∈ args, a.head? = some '-' → ∀ c ∈ a, P c) →
      (∀ ev ∈ evs, EvFine P ev) ∧ ∀ o ∈ ops, '\x00' ∉ o := by
  intro m
  induction m with
  | zero =>
    intro args hl evs ops h _ _
    have : args = [] := List.length_eq_zero_iff.1 (by omega)
    subst this; cases h; simp
  | succ m ih =>
    intro args hl evs ops h hA hP
    cases args with
    | nil => cases h; simp
    | cons a rest =>
      have hA' : CArgs rest := fun x hx => hA x (List.mem_cons_of_mem _ hx)
      have hP' : ∀ a ∈ rest, a.head? = some '-' → ∀ c ∈ a, P c :=
        fun x hx => hP x (List.mem_cons_of_mem _ hx)
      have hl' : rest.length ≤ m := by simpa using hl
      rw [tokenize] at h
      split at h
      · cases h; exact ⟨by simp, hA'⟩
      · split at h
        · split at h
          · cases h; exact ⟨by simp, hA⟩
          · cases hr : tokenize ds posix rest with
            | none => rw [hr] at h; cases h
            | some q =>
              obtain ⟨evs', ops'⟩ := q
              rw [hr] at h
              cases h
              obtain ⟨h1, h2⟩ := ih rest hl' _ _ hr hA' hP'
              refine ⟨h1, fun o ho => ?_⟩
              rcases List.mem_cons.1 ho with rfl | ho
              · exact hA _ List.mem_cons_self
              · exact h2 o ho
        · rename_i hop
          have hdash : a.head? = some '-' := by
            unfold isOperand at hop
            split at hop
            · rfl
            · simp at hop
          have hn : CText rest.head? := by
            intro t ht
            exact hA' t (List.mem_of_mem_head? ht)
          have hc := fun evs u h => readCluster_fine (P := P) ds a rest.head? hn a.tail evs u h
            (fun hm => hA a List.mem_cons_self (List.mem_of_mem_tail hm))
            (fun c hc => hP a List.mem_cons_self hdash c (List.mem_of_mem_tail hc))
          split at h
          · cases h
          · rename_i evs1 hr1
            cases hr : tokenize ds posix rest with
            | none => rw [hr] at h; cases h
            | some q =>
              obtain ⟨evs', ops'⟩ := q
              rw [hr] at h
              cases h
              obtain ⟨h1, h2⟩ := ih rest hl' _ _ hr hA' hP'
              refine ⟨fun ev hev => ?_, h2⟩
              rcases List.mem_append.1 hev with hev | hev
              · exact hc _ _ hr1 ev hev
              · exact h1 ev hev
          · rename_i evs1 hr1
            cases rest with
            | nil => cases h; exact ⟨hc _ _ hr1, by simp⟩
            | cons v rest' =>
              dsimp only at h
              cases hr : tokenize ds posix rest' with
              | none => rw [hr] at h; cases h
              | some q =>
                obtain ⟨evs', ops'⟩ := q
                rw [hr] at h
                cases h
                obtain ⟨h1, h2⟩ := ih rest' (by simp at hl'; omega) _ _ hr
                  (fun x hx => hA' x (List.mem_cons_of_mem _ hx))
                  (fun x hx => hP' x (List.mem_cons_of_mem _ hx))
                refine ⟨fun ev hev => ?_, h2⟩
                rcases List.mem_append.1 hev with hev | hev
                · exact hc _ _ hr1 ev hev
                · exact h1 ev hev

/-- The invariant of entries. -/
def LiveC (lc : Libc δ) (h : Hdr (Obj δ)) : Prop := Live lc AnyPat h ∧ CHdr h ∧ SampleFits lc h

def AnyFault (_ : Fault) : Prop := True

theorem lawful_liveC (lc : Libc δ) : Lawful AnyArg (LiveC lc) AnyFault := by
  have L := lawful_live lc (R := AnyPat) (A := AnyArg) (E := AnyFault) (Or.inl trivial)
    (Or.inl ⟨trivial, trivial⟩)
  constructor
  · intro h f hJ hf
    have := L.reset h f hJ.1 hf
    cases hx : f h.parent with
    | error e => trivial
    | ok p => rw [hx] at this; exact ⟨this, hJ.2⟩
  · intro h f a hJ hA hf
    have := L.scan h f a hJ.1 hA hf
    cases hx : f h.parent a with
    | error e => trivial
    | ok p => rw [hx] at this; exact ⟨this, hJ.2⟩

/-- The kinds of errors that belong to no entry. -/
def GeneralRec (P : Char → Prop) (code : Int) (a : Option CStr) : Prop :=
  (a = none ∧ code = ARG_ELIMIT) ∨
  (∃ s, a = some s ∧ (code = ARG_ENOMATCH ∨ code = ARG_ELONGOPT ∨ code = ARG_EMISSARG)) ∨
  (a = none ∧ ∃ c, P c ∧ code = charInt c)

/-- A record that has a message. -/
def ErrFine (P : Char → Prop) (es : List (Hdr (Obj δ))) (r : ErrRec) : Prop :=
  (r.parent = .endt ∧ GeneralRec P r.error r.argval) ∨
  ∃ i h, r.parent = .entry i ∧ es[i]? = some h ∧ Worded h r.error r.argval

theorem ErrFine.set {P : Char → Prop} {es : List (Hdr (Obj δ))} {r : ErrRec} (h : ErrFine P es r) (i : Nat)
    (x : Hdr (Obj δ)) (hx : es[i]? = some x) (p : Obj δ) :
    ErrFine P (es.set i { x with parent := p }) r := by
  rcases h with h | ⟨j, y, h1, h2, h3⟩
  · exact Or.inl h
  · right
    by_cases hij : i = j
    · subst hij
      rw [hx] at h2
      cases h2
      exact ⟨i, _, h1, by rw [List.getElem?_set_self (List.getElem?_eq_some_iff.1 hx).1], h3.parent p⟩
    · exact ⟨j, y, h1, by rw [List.getElem?_set_ne hij]; exact h2, h3⟩

theorem deliver_fine {lc : Libc δ} {P : Char → Prop} {s s' : List (Hdr (Obj δ)) × List ErrRec}
    (hJ : All (LiveC lc) s.1) (hr : ∀ r ∈ s.2, ErrFine P s.1 r) {ev : Ev} (hev : EvFine P ev)
    (h : deliver s ev = .ok s') : ∀ r ∈ s'.2, ErrFine P s'.1 r := by
  cases ev with
  | fail code a =>
    cases h
    intro r hm
    rcases List.mem_append.1 hm with hm | hm
    · exact hr r hm
    · rw [List.mem_singleton] at hm
      subst hm
      left
      refine ⟨rfl, Or.inr ?_⟩
      rcases hev with ⟨t, h1, h2⟩ | h2
      · exact Or.inl ⟨t, h1, Or.inr h2⟩
      · exact Or.inr h2
  | deliver i a =>
    rw [deliver] at h
    cases hi : s.1[i]? with
    | none => rw [hi] at h; cases h
    | some x =>
      rw [hi] at h
      dsimp only at h
      have hx := hJ x (List.mem_of_getElem? hi)
      cases hf : x.scanfn with
      | none => rw [hf] at h; cases h; exact hr
      | some f =>
        rw [hf] at h
        dsimp only at h
        cases hc : f x.parent a with
        | error e => rw [hc] at h; cases h
        | ok q =>
          obtain ⟨p, err⟩ := q
          rw [hc, bind_ok] at h
          cases h
          rw [← hf]
          dsimp only
          have hold : ∀ r ∈ s.2, ErrFine P (s.1.set i { x with parent := p }) r :=
            fun r hm => (hr r hm).set i x hi p
          split
          · rename_i he
            intro r hm
            rcases List.mem_append.1 hm with hm | hm
            · exact hold r hm
            · rw [List.mem_singleton] at hm
              subst hm
              right
              refine ⟨i, _, rfl, List.getElem?_set_self (List.getElem?_eq_some_iff.1 hi).1, ?_⟩
              exact ((live_spoken hx.1 hx.2.1 hx.2.2).scan f a p err hf hev hc he).parent p
          · exact hold

theorem deliverAll_fine {lc : Libc δ} {P : Char → Prop} {ds : List Decl} :
    ∀ (evs : List Ev) (s s' : List (Hdr (Obj δ)) × List ErrRec), All (LiveC lc) s.1 →
      s.1.map declOf = ds → EvOK ds evs → (∀ ev ∈ evs, EvFine P ev) → (∀ r ∈ s.2, ErrFine P s.1 r) →
      deliverAll evs s = .ok s' → ∀ r ∈ s'.2, ErrFine P s'.1 r := by
  intro evs
  induction evs with
  | nil => intro s s' _ _ _ _ hr h; cases h; exact hr
  | cons ev evs ih =>
    intro s s' hJ hd hok hev hr h
    rw [deliverAll] at h
    have hok1 : EvOK ds [ev] := fun i a hm => hok i a (by
      rw [List.mem_singleton] at hm; rw [hm]; exact List.mem_cons_self)
    have hok2 : EvOK ds evs := fun i a hm => hok i a (List.mem_cons_of_mem _ hm)
    have hg := deliver_good (lawful_liveC lc) hJ hd hok1 (fun _ _ _ => trivial)
    cases hc : deliver s ev with
    | error e => rw [hc] at h; cases h
    | ok s1 =>
      rw [hc] at h hg
      rw [bind_ok] at h
      exact ih s1 s' hg.1 hg.2 hok2 (fun e he => hev e (List.mem_cons_of_mem _ he))
        (deliver_fine hJ hr (hev ev List.mem_cons_self) hc) h

theorem feed_fine {J : Hdr σ → Prop} {E : Fault → Prop} (hL : Lawful AnyArg J E) (h : Hdr σ)
    {f : σ → Option CStr → M (σ × Int)} (hf : h.scanfn = some f) :
    ∀ (ops : List CStr) (p p' : σ) (ops' : List CStr) (err : Int), J { h with parent := p } →
      feed f p ops = .ok (p', ops', err) → ops' = [] ∨
        ∃ a rest p0, ops' = a :: rest ∧ a ∈ ops ∧ err ≠ 0 ∧ J { h with parent := p0 } ∧
          f p0 (some a) = .ok (p', err) := by
  intro ops
  induction ops with
  | nil => intro p p' ops' err _ hr; cases hr; exact Or.inl rfl
  | cons a ops ih =>
    intro p p' ops' err hJ hr
    rw [feed] at hr
    have hs := hL.scan { h with parent := p } f (some a) hJ trivial hf
    dsimp only at hs
    cases hc : f p (some a) with
    | error e => rw [hc] at hr; cases hr
    | ok q =>
      obtain ⟨p1, e1⟩ := q
      rw [hc] at hs hr
      rw [bind_ok] at hr
      dsimp only at hr hs
      split at hr
      · rcases ih p1 p' ops' err hs hr with h1 | ⟨b, rest, p0, h1, h2, h3⟩
        · exact Or.inl h1
        · exact Or.inr ⟨b, rest, p0, h1, List.mem_cons_of_mem _ h2, h3⟩
      · rename_i he
        cases hr
        exact Or.inr ⟨a, ops, p, rfl, List.mem_cons_self, he, hJ, hc⟩

/-- A record about an entry of `es`, where entries are numbered from `i`. -/
def FineFrom (P : Char → Prop) (i : Nat) (es : List (Hdr (Obj δ))) (r : ErrRec) : Prop :=
  (r.parent = .endt ∧ GeneralRec P r.error r.argval) ∨
  ∃ j h, r.parent = .entry (i + j) ∧ es[j]? = some h ∧ Worded h r.error r.argval

theorem FineFrom.cons {P : Char → Prop} {i : Nat} {es : List (Hdr (Obj δ))} {r : ErrRec}
    (h : FineFrom P (i + 1) es r) (x : Hdr (Obj δ)) : FineFrom P i (x :: es) r := by
  rcases h with h | ⟨j, y, h1, h2, h3⟩
  · exact Or.inl h
  · exact Or.inr ⟨j + 1, y, by rw [h1]; congr 1; omega, by simpa using h2, h3⟩

theorem operands_fine {lc : Libc δ} {P : Char → Prop} : ∀ (es : List (Hdr (Obj δ))) (i : Nat)
    (last : Option (Int × Nat)) (ops : List CStr) (es' : List (Hdr (Obj δ))) (errs : List ErrRec),
    All (LiveC lc) es → (∀ o ∈ ops, '\x00' ∉ o) → operands es i last ops = .ok (es', errs) →
    ∀ r ∈ errs, FineFrom P i es' r ∨
      ∃ err k a, last = some (err, k) ∧ ops.head? = some a ∧ r = ⟨err, .entry k, some a⟩ := by
  intro es
  induction es with
  | nil =>
    intro i last ops es' errs _ h0 h r hm
    cases h
    have gen : ∀ l : List CStr, r ∈ l.map (fun b => (⟨ARG_ENOMATCH, .endt, some b⟩ : ErrRec)) →
        FineFrom P i ([] : List (Hdr (Obj δ))) r := by
      intro l hl
      obtain ⟨b, _, rfl⟩ := List.mem_map.1 hl
      exact Or.inl ⟨rfl, Or.inr (Or.inl ⟨b, rfl, Or.inl rfl⟩)⟩
    unfold leftover at hm
    split at hm
    · cases hm
    · rcases List.mem_cons.1 hm with rfl | hm
      · exact Or.inr ⟨_, _, _, rfl, rfl, rfl⟩
      · exact Or.inl (gen _ hm)
    · exact Or.inl (gen _ hm)
  | cons h t ih =>
    intro i last ops es' errs hJ h0 hr r hm
    have hJh : LiveC lc h := hJ h List.mem_cons_self
    have hJt : All (LiveC lc) t := fun x hx => hJ x (List.mem_cons_of_mem _ hx)
    rw [operands] at hr
    have skip : ∀ es' errs, (operands t (i + 1) last ops >>= fun q => Except.ok (h :: q.1, q.2))
        = (.ok (es', errs) : M _) → r ∈ errs → FineFrom P i es' r ∨
          ∃ err k a, last = some (err, k) ∧ ops.head? = some a ∧ r = ⟨err, .entry k, some a⟩ := by
      intro es' errs hr hm
      cases hc : operands t (i + 1) last ops with
      | error e => rw [hc] at hr; cases hr
      | ok q =>
        obtain ⟨t', errs'⟩ := q
        rw [hc, bind_ok] at hr
        cases hr
        rcases ih (i + 1) last ops t' errs' hJt h0 hc r hm with h1 | h1
        · exact Or.inl (h1.cons h)
        · exact Or.inr h1
    split at hr
    · cases hr; cases hm
    · split at hr
      · exact skip _ _ hr hm
      · cases hf : h.scanfn with
        | none => rw [hf] at hr; exact skip _ _ hr hm
        | some f =>
          rw [hf] at hr
          dsimp only at hr
          cases hfd : feed f h.parent ops with
          | error e => rw [hfd] at hr; cases hr
          | ok q =>
            obtain ⟨p, ops', err⟩ := q
            rw [hfd, bind_ok] at hr
            dsimp only at hr
            cases hc : operands t (i + 1) (some (err, i)) ops' with
            | error e => rw [hc] at hr; cases hr
            | ok q =>
              obtain ⟨t', errs'⟩ := q
              rw [hc, bind_ok] at hr
              cases hr
              have hsuf := feed_suffix f ops h.parent
              rw [hfd] at hsuf
              dsimp only at hsuf
              rcases ih (i + 1) _ ops' t' errs' hJt (fun o ho => h0 o (hsuf.subset ho)) hc r hm with
                h1 | ⟨e, k, a, hl, ha, hre⟩
              · exact Or.inl (h1.cons _)
              · cases hl
                rcases feed_fine (lawful_liveC lc) h hf ops h.parent p ops' _ hJh hfd with
                  h1 | ⟨b, rest, p0, h1, h2, h3, h4, h5⟩
                · rw [h1] at ha; cases ha
                · rw [h1] at ha
                  cases ha
                  left; right
                  refine ⟨0, _, by rw [hre]; simp, rfl, ?_⟩
                  rw [hre]
                  have := (live_spoken h4.1 h4.2.1 h4.2.2).scan f (some a) p _ hf (by
                    intro t ht; cases ht; exact h0 _ h2) h5 h3
                  rw [← hf]
                  exact this.parent p

theorem checks_fine {lc : Libc δ} {P : Char → Prop} : ∀ (es : List (Hdr (Obj δ))) (i : Nat),
    All (LiveC lc) es → ∀ r ∈ checks es i, FineFrom P i es r := by
  intro es
  induction es with
  | nil => intro i _ r hm; cases hm
  | cons h t ih =>
    intro i hJ r hm
    have hJh : LiveC lc h := hJ h List.mem_cons_self
    have hJt : All (LiveC lc) t := fun x hx => hJ x (List.mem_cons_of_mem _ hx)
    rw [checks] at hm
    cases hf : h.checkfn with
    | none => rw [hf] at hm; exact (ih (i + 1) hJt r hm).cons h
    | some f =>
      rw [hf] at hm
      dsimp only at hm
      split at hm
      · rename_i h0
        rcases List.mem_cons.1 hm with rfl | hm
        · exact Or.inr ⟨0, h, rfl, rfl, (live_spoken hJh.1 hJh.2.1 hJh.2.2).check f hf h0⟩
        · exact (ih (i + 1) hJt r hm).cons h
      · exact (ih (i + 1) hJt r hm).cons h

theorem fineFrom_zero {P : Char → Prop} {es : List (Hdr (Obj δ))} {r : ErrRec}
    (h : FineFrom P 0 es r) : ErrFine P es r := by
  rcases h with h | ⟨j, x, h1, h2⟩
  · exact Or.inl h
  · exact Or.inr ⟨j, x, by simpa using h1, h2⟩

/-- Operands do not change what the records before them say. -/
theorem operands_same_hdr : ∀ (es : List (Hdr (Obj δ))) (i : Nat)
    (last : Option (Int × Nat)) (ops : List CStr) (es' : List (Hdr (Obj δ))) (errs : List ErrRec),
    operands es i last ops = .ok (es', errs) → ∀ (j : Nat) (h : Hdr (Obj δ)), es[j]? = some h →
      ∃ p, es'[j]? = some { h with parent := p } := by
  intro es
  induction es with
  | nil => intro i last ops es' errs _ j h hj; cases hj
  | cons h t ih =>
    intro i last ops es' errs hr j x hj
    rw [operands] at hr
    have skip : ∀ es' errs, (operands t (i + 1) last ops >>= fun q => Except.ok (h :: q.1, q.2))
        = (.ok (es', errs) : M _) → ∃ p, es'[j]? = some { x with parent := p } := by
      intro es' errs hr
      cases hc : operands t (i + 1) last ops with
      | error e => rw [hc] at hr; cases hr
      | ok q =>
        obtain ⟨t', errs'⟩ := q
        rw [hc, bind_ok] at hr
        cases hr
        cases j with
        | zero => cases hj; exact ⟨h.parent, rfl⟩
        | succ j => exact ih (i + 1) last ops t' _ hc j x hj
    split at hr
    · cases hr; exact ⟨x.parent, hj⟩
    · split at hr
      · exact skip _ _ hr
      · cases hf : h.scanfn with
        | none => rw [hf] at hr; exact skip _ _ hr
        | some f =>
          rw [hf] at hr
          dsimp only at hr
          cases hfd : feed f h.parent ops with
          | error e => rw [hfd] at hr; cases hr
          | ok q =>
            obtain ⟨p, ops', err⟩ := q
            rw [hfd, bind_ok] at hr
            dsimp only at hr
            cases hc : operands t (i + 1) (some (err, i)) ops' with
            | error e => rw [hc] at hr; cases hr
            | ok q =>
              obtain ⟨t', errs'⟩ := q
              rw [hc, bind_ok] at hr
              cases hr
              cases j with
              | zero => cases hj; exact ⟨p, by rw [← hf]; rfl⟩
              | succ j => exact ih (i + 1) _ ops' t' _ hc j x hj

theorem meaning_fine {lc : Libc δ} {P : Char → Prop} {es es' : List (Hdr (Obj δ))} (hJ : All (LiveC lc) es)
    {evs : List Ev} {ops : List CStr} (hok : EvOK (es.map declOf) evs) (hev : ∀ ev ∈ evs, EvFine P ev)
    (h0 : ∀ o ∈ ops, '\x00' ∉ o) {errs : List ErrRec} (h : meaning es evs ops = .ok (es', errs)) :
    ∀ r ∈ errs, ErrFine P es' r := by
  unfold meaning at h
  have hg1 := resetAll_good (lawful_liveC lc) es hJ
  cases h1 : resetAll es with
  | error e => rw [h1] at h; cases h
  | ok es0 =>
    rw [h1] at h hg1
    rw [bind_ok] at h
    have hg2 := deliverAll_good (lawful_liveC lc) evs (es0, []) hg1.1 hg1.2 hok (fun _ _ _ => trivial)
    cases h2 : deliverAll evs (es0, []) with
    | error e => rw [h2] at h; cases h
    | ok s =>
      obtain ⟨es1, errs1⟩ := s
      rw [h2] at h hg2
      rw [bind_ok] at h
      dsimp only at h
      have hf1 := deliverAll_fine evs (es0, []) _ hg1.1 hg1.2 hok hev (by simp) h2
      have hg3 := operands_good (lawful_liveC lc) es1 0 none ops hg2.1 (fun _ _ => trivial)
      cases h3 : operands es1 0 none ops with
      | error e => rw [h3] at h; cases h
      | ok s =>
        obtain ⟨es2, errs2⟩ := s
        rw [h3] at h hg3
        rw [bind_ok] at h
        dsimp only at h
        cases h
        have hf2 := operands_fine (P := P) es1 0 none ops es' errs2 hg2.1 h0 h3
        split
        · exact fun r hm => fineFrom_zero (checks_fine es' 0 hg3 r hm)
        · intro r hm
          rcases List.mem_append.1 hm with hm | hm
          · rcases hf1 r hm with h1 | ⟨j, x, h1, h2, hw⟩
            · exact Or.inl h1
            · obtain ⟨p, hp⟩ := operands_same_hdr es1 0 none ops es' errs2 h3 j x h2
              exact Or.inr ⟨j, _, h1, hp, hw.parent p⟩
          · rcases hf2 r hm with h1 | ⟨e, k, a, h1, _⟩
            · exact fineFrom_zero h1
            · cases h1

theorem recorded_fine {P : Char → Prop} {es : List (Hdr (Obj δ))} {errs : List ErrRec} (m : Nat)
    (h : ∀ r ∈ errs, ErrFine P es r) : ∀ r ∈ recorded m errs, ErrFine P es r := by
  unfold recorded
  split
  · exact h
  · intro r hm
    rcases List.mem_append.1 hm with hm | hm
    · exact h r (List.mem_of_mem_take hm)
    · rw [List.mem_singleton] at hm
      subst hm
      exact Or.inl ⟨rfl, Or.inl ⟨rfl, rfl⟩⟩

theorem charInt_toNat (c : Char) {n : Nat} (hn : n < 128) (h : charInt c = n) : c.toNat = n := by
  unfold charInt at h
  split at h
  · omega
  · split at h <;> omega

theorem char_ofNat_of {c : Char} {n : Nat} (h : c.toNat = n) : c = Char.ofNat n := by
  rw [← h]; simp

/-- Neither NUL nor one of the bytes 1 to 5. -/
def PlainChar (c : Char) : Prop :=
  c ≠ '\x00' ∧ c ∉ [Char.ofNat 1, Char.ofNat 2, Char.ofNat 3, Char.ofNat 4, Char.ofNat 5]

theorem charInt_plain {c : Char} (hc : PlainChar c) : charInt c ≠ 0 ∧ charInt c ≠ 1 ∧ charInt c ≠ 2 ∧
    charInt c ≠ 3 ∧ charInt c ≠ 4 ∧ charInt c ≠ 5 := by
  obtain ⟨h0, h5⟩ := hc
  refine ⟨fun h => h0 ?_, fun h => h5 ?_, fun h => h5 ?_, fun h => h5 ?_, fun h => h5 ?_, fun h => h5 ?_⟩
  · exact char_ofNat_of (charInt_toNat c (n := 0) (by omega) h)
  · rw [char_ofNat_of (charInt_toNat c (n := 1) (by omega) h)]; decide
  · rw [char_ofNat_of (charInt_toNat c (n := 2) (by omega) h)]; decide
  · rw [char_ofNat_of (charInt_toNat c (n := 3) (by omega) h)]; decide
  · rw [char_ofNat_of (charInt_toNat c (n := 4) (by omega) h)]; decide
  · rw [char_ofNat_of (charInt_toNat c (n := 5) (by omega) h)]; decide

theorem general_says {code : Int} {a : Option CStr} (h : GeneralRec PlainChar code a) (prog : CStr) :
    GeneralSays prog code a (endError code a prog) := by
  rcases h with ⟨rfl, rfl⟩ | ⟨s, rfl, rfl | rfl | rfl⟩ | ⟨rfl, c, hc, rfl⟩
  · have := GeneralSays.tooMany (prog := prog)
    simpa [endError, ARG_ELIMIT, cs] using this
  · have := GeneralSays.unexpected (prog := prog) (a := s)
    simpa [endError, ARG_ELIMIT, ARG_EMALLOC, ARG_ENOMATCH, cs] using this
  · have := GeneralSays.badLong (prog := prog) (a := s)
    simpa [endError, ARG_ELIMIT, ARG_EMALLOC, ARG_ENOMATCH, ARG_ELONGOPT, ARG_EMISSARG, cs] using this
  · have := GeneralSays.needsValue (prog := prog) (a := s)
    simpa [endError, ARG_ELIMIT, ARG_EMALLOC, ARG_ENOMATCH, ARG_ELONGOPT, ARG_EMISSARG, cs] using this
  · have := GeneralSays.badShort (prog := prog) (c := c)
    obtain ⟨n0, n1, n2, n3, n4, n5⟩ := charInt_plain hc
    unfold endError ARG_ELIMIT ARG_EMALLOC ARG_ENOMATCH ARG_EMISSARG ARG_ELONGOPT
    dsimp only
    rw [if_neg n1, if_neg n2, if_neg n3, if_neg n5, if_neg n4, if_neg n0, intChar_charInt]
    simpa [cs] using this

theorem printError_says {es : List (Hdr (Obj δ))} {r : ErrRec} (h : ErrFine PlainChar es r) (prog : CStr) :
    ∃ msg, printError es prog r = .ok msg ∧ Says es prog r msg := by
  rcases h with ⟨h1, h2⟩ | ⟨i, x, h1, h2, F, h3, h4⟩
  · refine ⟨_, by rw [printError, h1], ?_⟩
    rw [Says, h1]
    exact general_says h2 prog
  · obtain ⟨msg, e, hm⟩ := h4 prog
    refine ⟨msg, ?_, ?_⟩
    · rw [printError, h1]
      dsimp only
      rw [h2]
      dsimp only
      rw [h3]
      exact e
    · rw [Says, h1]
      exact ⟨x, h2, hm⟩

theorem printErrorsLoop_says {es : List (Hdr σ)} {prog : CStr} {Q : ErrRec → CStr → Prop} :
    ∀ (l : List ErrRec), (∀ r ∈ l, ∃ msg, printError es prog r = .ok msg ∧ Q r msg) →
      ∃ msgs, printErrorsLoop es prog l = .ok msgs.flatten ∧ List.Forall₂ Q l msgs := by
  intro l
  induction l with
  | nil => intro _; exact ⟨[], rfl, .nil⟩
  | cons r l ih =>
    intro h
    obtain ⟨msg, e1, h1⟩ := h r List.mem_cons_self
    obtain ⟨msgs, e2, h2⟩ := ih (fun r hr => h r (List.mem_cons_of_mem _ hr))
    exact ⟨msg :: msgs, by rw [printErrorsLoop, e1, bind_ok, e2, bind_ok]; rfl, .cons h1 h2⟩

end Argtable
