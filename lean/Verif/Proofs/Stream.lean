import Verif.Model.Stream
import Verif.Spec.Stream
import Verif.Proofs.Dstr
import Verif.Proofs.Wrap
import Verif.Proofs.Glossary
import Mathlib.Data.List.Forall2
/-!
# Lemmas about the printing functions at work
-/

namespace Argtable

open Spec

variable {α σ P C : Type}

/-- `f` consists of calls that append, and appends `text`. -/
def Appends (f : DState → M DState) (text : CStr) : Prop := ∃ cmds, Appending cmds text ∧ ConsistsOf f cmds

theorem execAll_append : ∀ (a b : List DCmd) (st : DState), execAll st (a ++ b) = (execAll st a >>= fun st => execAll st b) := by
  intro a
  induction a with
  | nil => intro b st; rfl
  | cons c a ih =>
    intro b st
    show (c.exec st >>= fun st => execAll st (a ++ b)) = ((c.exec st >>= fun st => execAll st a) >>= fun st => execAll st b)
    cases c.exec st with
    | error e => rfl
    | ok v => exact ih b v

theorem Spec.Appending.append {a b : List DCmd} {s t : CStr} (ha : Appending a s) (hb : Appending b t) :
    Appending (a ++ b) (s ++ t) := by
  induction ha with
  | nil => exact hb
  | cat s _ ih => rw [List.append_assoc]; exact .cat s ih
  | catc c _ ih => exact .catc c ih
  | catf s hl _ ih => rw [List.append_assoc]; exact .catf s hl ih

theorem Appends.nil : Appends (fun st => .ok st) [] := ⟨[], .nil, fun _ => rfl⟩

theorem Appends.congr {f g : DState → M DState} {a : CStr} (h : Appends g a) (hfg : ∀ st, f st = g st) :
    Appends f a := by
  have : f = g := funext hfg
  exact this ▸ h

theorem Appends.bind {f g : DState → M DState} {a b : CStr} (hf : Appends f a) (hg : Appends g b) :
    Appends (fun st => f st >>= g) (a ++ b) := by
  obtain ⟨c1, a1, e1⟩ := hf
  obtain ⟨c2, a2, e2⟩ := hg
  refine ⟨c1 ++ c2, a1.append a2, fun st => ?_⟩
  show (f st >>= g) = _
  rw [execAll_append, e1]
  cases execAll st c1 with
  | error e => rfl
  | ok v => exact e2 v

/-- The same with the text given otherwise. -/
theorem Appends.bind_eq {f g : DState → M DState} {a b c : CStr} (hf : Appends f a) (hg : Appends g b)
    (hc : c = a ++ b) : Appends (fun st => f st >>= g) c := hc ▸ hf.bind hg

theorem bind_ok_right (x : M α) : (x >>= fun v => (.ok v : M α)) = x := by cases x <;> rfl

theorem appends_cat (s : CStr) : Appends (dsCat s) s :=
  ⟨[.cat s], by simpa using Appending.cat s .nil, fun _ => (bind_ok_right _).symm⟩

theorem appends_catf (l : Nat) (hl : l ≤ 500000000) (s : CStr) : Appends (dsCatf l s) s :=
  ⟨[.catf (some l) s], by simpa using Appending.catf s hl .nil, fun _ => (bind_ok_right _).symm⟩

theorem appends_catc (c : Char) : Appends (fun st => dstrCatc st c) [c] :=
  ⟨[.catc c], .catc c .nil, fun _ => (bind_ok_right _).symm⟩

/-- `f` appends `text` to any object that has room for it. -/
theorem Spec.Appending.run {cmds : List DCmd} {text : CStr} (h : Appending cmds text) : '\x00' ∉ text →
    ∀ (base : Heap) (st : DState) (t : CStr) (S : List (Nat × List Byte)) (cus : List (Nat × CStr)),
    DInv base st t S cus → t.length + text.length ≤ 500000000 →
    ∃ st', execAll st cmds = .ok st' ∧ DInv base st' (t ++ text) S cus := by
  induction h with
  | nil => intro _ base st t S cus h _; exact ⟨st, rfl, by simpa using h⟩
  | cat s _ ih =>
    intro hn base st t S cus h hl
    simp only [List.mem_append, not_or, List.length_append] at hn hl
    obtain ⟨st', e, h', hd⟩ := (h.lend (strBytes s)).cat (t := st.heap.length) (b := strBytes s) (by simp)
      (scanStr_strBytes hn.1) hn.1 (by omega)
    obtain ⟨st2, e2, h2, -⟩ := h'.unlend (hd (st.heap.length, strBytes s) (by simp))
    obtain ⟨st3, e3, h3⟩ := ih hn.2 base st2 _ S cus h2 (by simp only [List.length_append]; omega)
    refine ⟨st3, ?_, by simpa using h3⟩
    unfold execAll DCmd.exec DState.malloc
    dsimp only
    rw [e, bind_ok, e2, bind_ok]
    exact e3
  | catc c _ ih =>
    intro hn base st t S cus h hl
    simp only [List.mem_cons, not_or, List.length_cons] at hn hl
    obtain ⟨st2, e2, h2⟩ := h.catc (c := c) (fun e => hn.1 e.symm) (by omega)
    obtain ⟨st3, e3, h3⟩ := ih hn.2 base st2 _ S cus h2 (by simp only [List.length_append, List.length_cons, List.length_nil]; omega)
    refine ⟨st3, ?_, by simpa using h3⟩
    unfold execAll DCmd.exec
    dsimp only
    rw [e2, bind_ok]
    exact e3
  | catf s hf _ ih =>
    intro hn base st t S cus h hl
    simp only [List.mem_append, not_or, List.length_append] at hn hl
    obtain ⟨st2, e2, h2⟩ := h.catf hn.1 (by omega) hf
    obtain ⟨st3, e3, h3⟩ := ih hn.2 base st2 _ S cus h2 (by simp only [List.length_append]; omega)
    refine ⟨st3, ?_, by simpa using h3⟩
    unfold execAll DCmd.exec
    dsimp only
    rw [e2, bind_ok]
    exact e3

theorem Appends.run {f : DState → M DState} {text : CStr} (h : Appends f text) (hn : '\x00' ∉ text)
    (base : Heap) (st : DState) (t : CStr) (S : List (Nat × List Byte)) (cus : List (Nat × CStr))
    (hi : DInv base st t S cus) (hl : t.length + text.length ≤ 500000000) :
    ∃ st', f st = .ok st' ∧ DInv base st' (t ++ text) S cus := by
  obtain ⟨cmds, h1, h2⟩ := h
  rw [h2 st]
  exact h1.run hn base st t S cus hi hl

theorem appends_option {so lo dt : Option CStr} {suffix out : CStr} (h : printOption so lo dt suffix = .ok out) :
    Appends (optionDs so lo dt suffix) out := by
  unfold printOption at h
  unfold optionDs
  cases hb : catOptionv (syntaxBuf []) so lo dt false (cs "|") with
  | error e => rw [hb] at h; cases h
  | ok b =>
    rw [hb, bind_ok] at h
    cases h
    exact (appends_cat _).bind (appends_cat _)

/-- A loop over the switches. -/
theorem appends_switches (p : Hdr σ → Bool) : ∀ (es : List (Hdr σ)) (pre : CStr), pre.length ≤ 100 →
    ∃ cmds, Appending cmds (gnuswitchLoop p es pre).1 ∧ ∀ (any : Bool) (st : DState), switchesDs p es pre any st =
      (execAll st cmds >>= fun st => .ok (st, any || (gnuswitchLoop p es pre).2)) := by
  intro es
  induction es with
  | nil =>
    intro pre _
    exact ⟨[], .nil, fun any st => by simp [switchesDs, gnuswitchLoop, execAll, bind_ok]⟩
  | cons x es ih =>
    intro pre hp
    by_cases hx : p x = true
    · obtain ⟨cmds, h1, h2⟩ := ih [] (by simp)
      refine ⟨.catf (some (pre.length + 2)) (pre ++ shortHead x) :: cmds, ?_, fun any st => ?_⟩
      · simp only [gnuswitchLoop, if_pos hx]
        exact .catf _ (by omega) h1
      · rw [switchesDs, if_pos hx]
        simp only [gnuswitchLoop, if_pos hx]
        show (dstrCatf st (some (pre.length + 2)) (pre ++ shortHead x) >>= _) =
          ((dstrCatf st (some (pre.length + 2)) (pre ++ shortHead x) >>= fun st => execAll st cmds) >>= _)
        cases dstrCatf st (some (pre.length + 2)) (pre ++ shortHead x) with
        | error e => rfl
        | ok v =>
          rw [bind_ok, bind_ok, h2 true v]
          simp
    · obtain ⟨cmds, h1, h2⟩ := ih pre hp
      refine ⟨cmds, ?_, fun any st => ?_⟩
      · simp only [gnuswitchLoop, if_neg hx]
        exact h1
      · rw [switchesDs, if_neg hx]
        simp only [gnuswitchLoop, if_neg hx]
        exact h2 any st

theorem appends_gnuswitch (es : List (Hdr σ)) : Appends (gnuswitchDs es) (printGnuswitch es) := by
  obtain ⟨c1, a1, e1⟩ := appends_switches (fun h => !(h.mincount < 1) && isSwitch h) es (cs " -") (by decide)
  obtain ⟨c2, a2, e2⟩ := appends_switches (fun h => !(h.mincount > 0) && isSwitch h) es
    (if (gnuswitchLoop (fun h => !(h.mincount < 1) && isSwitch h) es (cs " -")).2 then cs "[" else cs " [-")
    (by split <;> decide)
  obtain ⟨c3, a3, e3⟩ := appends_catf 2 (by decide)
    (if (gnuswitchLoop (fun h => !(h.mincount > 0) && isSwitch h) es
      (if (gnuswitchLoop (fun h => !(h.mincount < 1) && isSwitch h) es (cs " -")).2 then cs "[" else cs " [-")).2
      then cs "]" else [])
  refine ⟨c1 ++ c2 ++ c3, (a1.append a2).append a3, fun st => ?_⟩
  unfold gnuswitchDs
  rw [e1, execAll_append, execAll_append]
  cases execAll st c1 with
  | error e => rfl
  | ok s1 =>
    rw [bind_ok, bind_ok, bind_ok]
    dsimp only
    rw [Bool.false_or, e2]
    cases execAll s1 c2 with
    | error e => rfl
    | ok s2 =>
      rw [bind_ok, bind_ok, bind_ok]
      dsimp only
      rw [Bool.false_or]
      exact e3 s2

theorem appends_mandatory (syn : CStr) : ∀ n : Nat,
    Appends (mandatoryDs syn n) (List.replicate n (' ' :: syn)).flatten := by
  intro n
  induction n with
  | zero => exact Appends.nil
  | succ n ih =>
    refine (appends_cat (cs " ")).bind_eq ((appends_cat syn).bind ih) ?_
    simp [List.replicate_succ, cs]

theorem appends_optional (syn : CStr) (extra : Int) : Appends (optionalDs syn extra)
    (if extra = 0 then [] else if extra = 1 then cs " [" ++ syn ++ cs "]"
      else if extra = 2 then cs " [" ++ syn ++ cs "]" ++ cs " [" ++ syn ++ cs "]"
      else cs " [" ++ syn ++ cs "]...") := by
  unfold optionalDs
  by_cases h0 : extra = 0
  · simp only [if_pos h0]; exact Appends.nil
  simp only [if_neg h0]
  by_cases h1 : extra = 1
  · simp only [if_pos h1]
    exact (appends_cat _).bind_eq ((appends_cat _).bind (appends_cat _)) (by simp)
  simp only [if_neg h1]
  by_cases h2 : extra = 2
  · simp only [if_pos h2]
    exact (appends_cat _).bind_eq ((appends_cat _).bind ((appends_cat _).bind ((appends_cat _).bind
      ((appends_cat _).bind (appends_cat _))))) (by simp)
  simp only [if_neg h2]
  exact (appends_cat _).bind_eq ((appends_cat _).bind (appends_cat _)) (by simp)

theorem appends_instances (syn : CStr) (mincount maxcount : Int) :
    Appends (instancesDs syn mincount maxcount) (instances syn mincount maxcount) :=
  (appends_mandatory syn _).bind (appends_optional syn _)

theorem appends_syntaxLoop : ∀ (es : List (Hdr σ)) {out : CStr}, syntaxLoop es = .ok out →
    Appends (syntaxLoopDs es) out := by
  intro es
  induction es with
  | nil => intro out h; cases h; exact Appends.nil
  | cons x es ih =>
    intro out h
    unfold syntaxLoop at h
    by_cases hs : isSwitch x = true
    · rw [if_pos hs] at h
      exact (ih h).congr (fun st => by rw [syntaxLoopDs, if_pos hs])
    rw [if_neg hs] at h
    cases hb : catOption (syntaxBuf []) x.shortopts x.longopts x.datatype x.hasOptValue with
    | error e => rw [hb] at h; cases h
    | ok b =>
      rw [hb, bind_ok] at h
      dsimp only at h
      cases hr : syntaxLoop es with
      | error e => rw [hr] at h; cases h
      | ok r =>
        rw [hr, bind_ok] at h
        cases h
        by_cases hl : (bufStr b.buf).length > 0
        · rw [if_pos hl]
          exact ((appends_instances _ _ _).bind (ih hr)).congr
            (fun st => by rw [syntaxLoopDs, if_neg hs, hb, bind_ok]; simp only [if_pos hl])
        · rw [if_neg hl]
          exact (Appends.nil.bind (ih hr)).congr
            (fun st => by rw [syntaxLoopDs, if_neg hs, hb, bind_ok]; simp only [if_neg hl])

theorem appends_suffix (suffix : Option CStr) : Appends (suffixDs suffix) (suffix.getD []) := by
  cases suffix with
  | none => exact Appends.nil
  | some s => exact appends_cat s

theorem appends_syntax {es : List (Hdr σ)} {suffix : Option CStr} {out : CStr} (h : printSyntax es suffix = .ok out) :
    Appends (syntaxDs es suffix) out := by
  unfold printSyntax at h
  cases hr : syntaxLoop es with
  | error e => rw [hr] at h; cases h
  | ok r =>
    rw [hr, bind_ok] at h
    cases h
    exact (appends_gnuswitch es).bind_eq ((appends_syntaxLoop es hr).bind (appends_suffix suffix)) (by simp)

theorem appends_syntaxvLoop : ∀ (es : List (Hdr σ)) {out : CStr}, syntaxvLoop es = .ok out →
    Appends (syntaxvLoopDs es) out := by
  intro es
  induction es with
  | nil => intro out h; cases h; exact Appends.nil
  | cons x es ih =>
    intro out h
    unfold syntaxvLoop at h
    cases hb : catOptionv (syntaxBuf []) x.shortopts x.longopts x.datatype x.hasOptValue (cs "|") with
    | error e => rw [hb] at h; cases h
    | ok b =>
      rw [hb, bind_ok] at h
      cases hr : syntaxvLoop es with
      | error e => rw [hr] at h; cases h
      | ok r =>
        rw [hr, bind_ok] at h
        cases h
        exact ((appends_instances _ _ _).bind (ih hr)).congr (fun st => by rw [syntaxvLoopDs, hb, bind_ok])

theorem appends_syntaxv {es : List (Hdr σ)} {suffix : Option CStr} {out : CStr} (h : printSyntaxv es suffix = .ok out) :
    Appends (syntaxvDs es suffix) out := by
  unfold printSyntaxv at h
  cases hr : syntaxvLoop es with
  | error e => rw [hr] at h; cases h
  | ok r =>
    rw [hr, bind_ok] at h
    cases h
    exact (appends_syntaxvLoop es hr).bind (appends_suffix suffix)

theorem appends_glossary {fmtlen : Nat} (hl : fmtlen ≤ 500000000) (fmt2 : CStr → CStr → CStr) :
    ∀ (es : List (Hdr σ)) {out : CStr}, printGlossary fmt2 es = .ok out → Appends (glossaryDs fmtlen fmt2 es) out := by
  intro es
  induction es with
  | nil => intro out h; cases h; exact Appends.nil
  | cons x es ih =>
    intro out h
    unfold printGlossary at h
    cases hg : x.glossary with
    | none =>
      rw [hg] at h
      exact (ih h).congr (fun st => by rw [glossaryDs, hg])
    | some g =>
      rw [hg] at h
      dsimp only at h
      cases hb : catOptionv (syntaxBuf []) x.shortopts x.longopts x.datatype x.hasOptValue (cs ", ") with
      | error e => rw [hb] at h; cases h
      | ok b =>
        rw [hb, bind_ok] at h
        cases hr : printGlossary fmt2 es with
        | error e => rw [hr] at h; cases h
        | ok r =>
          rw [hr, bind_ok] at h
          cases h
          exact ((appends_catf _ hl _).bind (ih hr)).congr (fun st => by rw [glossaryDs, hg]; dsimp only; rw [hb, bind_ok])

/-! ## Wrapped text -/

theorem appends_line (text : CStr) : ∀ (k i : Nat) {line : CStr} {j : Nat}, fmtLine text k i = .ok (line, j) →
    ∃ cmds, Appending cmds line ∧ ∀ st, lineDs text k i st = (execAll st cmds >>= fun st => .ok (st, j)) := by
  intro k
  induction k with
  | zero =>
    intro i line j h
    cases h
    exact ⟨[], .nil, fun _ => rfl⟩
  | succ k ih =>
    intro i line j h
    unfold fmtLine at h
    cases hc : charAt text i with
    | error e => rw [hc] at h; cases h
    | ok c =>
      rw [hc, bind_ok] at h
      by_cases hnl : c = '\n'
      · rw [if_pos hnl] at h
        cases h
        exact ⟨[], .nil, fun st => by rw [lineDs, hc, bind_ok, if_pos hnl]; rfl⟩
      rw [if_neg hnl] at h
      cases hr : fmtLine text k (i + 1) with
      | error e => rw [hr] at h; cases h
      | ok r =>
        obtain ⟨r, j'⟩ := r
        rw [hr, bind_ok] at h
        cases h
        obtain ⟨cmds, h1, h2⟩ := ih (i + 1) hr
        refine ⟨.catc c :: cmds, .catc c h1, fun st => ?_⟩
        rw [lineDs, hc, bind_ok, if_neg hnl]
        show (dstrCatc st c >>= _) = ((dstrCatc st c >>= fun st => execAll st cmds) >>= _)
        cases dstrCatc st c with
        | error e => rfl
        | ok v => exact h2 v

theorem appends_indent : ∀ n : Nat, Appends (indentDs n) (List.replicate n ' ') := by
  intro n
  induction n with
  | zero => exact Appends.nil
  | succ n ih => exact (appends_cat (cs " ")).bind_eq ih (by simp [List.replicate_succ, cs])

/-- A line, a newline and what follows. -/
theorem appends_lineThen {text : CStr} {k i j : Nat} {line r : CStr} (h : fmtLine text k i = .ok (line, j))
    {g : Nat → DState → M DState} (hg : Appends (g j) r) : Appends (fun st => do
      let (st, i) ← lineDs text k i st
      let st ← dsCat (cs "\n") st
      g i st) (line ++ '\n' :: r) := by
  obtain ⟨c1, a1, e1⟩ := appends_line text _ _ h
  obtain ⟨c2, a2, e2⟩ := (appends_cat (cs "\n")).bind hg
  refine ⟨c1 ++ c2, a1.append a2, fun st => ?_⟩
  show (lineDs text k i st >>= _) = _
  rw [e1, execAll_append]
  cases execAll st c1 with
  | error e => rfl
  | ok v => exact e2 v

theorem appends_fmtLoop (text : CStr) (lmargin colwidth : Nat) : ∀ (fuel i e : Nat) {out : CStr},
    fmtLoop text lmargin colwidth fuel i e = .ok out → Appends (fmtLoopDs text lmargin colwidth fuel i e) out := by
  intro fuel
  induction fuel with
  | zero => intro i e out h; cases h
  | succ fuel ih =>
    intro i e out h
    unfold fmtLoop at h
    by_cases hei : e > i
    · rw [if_pos hei] at h
      cases h1 : fmtSkip text (text.length + 1) i with
      | error e => rw [h1] at h; cases h
      | ok i1 =>
        rw [h1, bind_ok] at h
        cases h2 : fmtEnd text colwidth i1 e with
        | error e => rw [h2] at h; cases h
        | ok e1 =>
          rw [h2, bind_ok] at h
          cases h3 : fmtLine text (e1 - i1) i1 with
          | error e => rw [h3] at h; cases h
          | ok r =>
            obtain ⟨line, i2⟩ := r
            rw [h3, bind_ok] at h
            dsimp only at h
            by_cases hlt : e1 < text.length
            · simp only [if_pos hlt] at h
              cases h4 : fmtLoop text lmargin colwidth fuel i2 text.length with
              | error e => rw [h4] at h; cases h
              | ok r =>
                rw [h4, bind_ok] at h
                cases h
                exact (appends_lineThen h3 (g := fun i st => indentDs lmargin st >>=
                  fmtLoopDs text lmargin colwidth fuel i text.length) ((appends_indent lmargin).bind (ih _ _ h4))).congr
                  (fun st => by rw [fmtLoopDs, if_pos hei, h1, bind_ok, h2, bind_ok]; simp only [if_pos hlt])
            · simp only [if_neg hlt] at h
              cases h4 : fmtLoop text lmargin colwidth fuel i2 e1 with
              | error e => rw [h4] at h; cases h
              | ok r =>
                rw [h4, bind_ok] at h
                cases h
                exact (appends_lineThen h3 (g := fun i st => fmtLoopDs text lmargin colwidth fuel i e1 st)
                  (ih _ _ h4)).congr
                  (fun st => by rw [fmtLoopDs, if_pos hei, h1, bind_ok, h2, bind_ok]; simp only [if_neg hlt])
    · rw [if_neg hei] at h
      cases h
      exact Appends.nil.congr (fun st => by rw [fmtLoopDs, if_neg hei])

theorem appends_formatted {fuel lmargin rmargin : Nat} {text out : CStr}
    (h : printFormatted fuel lmargin rmargin text = .ok out) : Appends (formattedDs fuel lmargin rmargin text) out :=
  appends_fmtLoop text lmargin _ fuel 0 text.length h

theorem appends_gnuEntry {fuel : Nat} {x : Hdr σ} {g out : CStr} (h : gnuEntry fuel x g = .ok out) :
    Appends (gnuEntryDs fuel x g) out := by
  unfold gnuEntry at h
  dsimp only at h
  cases hb : catOptionv (syntaxBuf (if x.shortopts.isNone ∧ x.longopts.isSome then cs "    " else [])) x.shortopts
      x.longopts x.datatype x.hasOptValue (cs ", ") with
  | error e => rw [hb] at h; cases h
  | ok b =>
    rw [hb, bind_ok] at h
    cases hf : printFormatted fuel 28 79 g with
    | error e => rw [hf] at h; revert h; split <;> intro h <;> cases h
    | ok body =>
      rw [hf] at h
      by_cases hl : (bufStr b.buf).length > 25
      · simp only [if_pos hl, bind_ok] at h
        cases h
        exact ((appends_catf 11 (by decide) (cs "  " ++ padRight 25 (bufStr b.buf) ++ cs " " ++ cs "\n")).bind_eq
          ((appends_catf 8 (by decide) (cs "  " ++ padRight 25 [] ++ cs " ")).bind (appends_formatted hf))
          (by simp)).congr (fun st => by unfold gnuEntryDs; dsimp only; rw [hb, bind_ok]; simp only [if_pos hl])
      · simp only [if_neg hl, bind_ok] at h
        cases h
        exact ((appends_catf 8 (by decide) (cs "  " ++ padRight 25 (bufStr b.buf) ++ cs " ")).bind_eq (appends_formatted hf)
          (by simp)).congr (fun st => by unfold gnuEntryDs; dsimp only; rw [hb, bind_ok]; simp only [if_neg hl])

theorem appends_gnuLoop (fuel : Nat) : ∀ (es : List (Hdr σ)) {out : CStr}, gnuLoop fuel es = .ok out →
    Appends (gnuLoopDs fuel es) out := by
  intro es
  induction es with
  | nil => intro out h; cases h; exact Appends.nil
  | cons x es ih =>
    intro out h
    unfold gnuLoop at h
    cases hg : x.glossary with
    | none =>
      rw [hg] at h
      exact (ih h).congr (fun st => by rw [gnuLoopDs, hg])
    | some g =>
      rw [hg] at h
      dsimp only at h
      cases he : gnuEntry fuel x g with
      | error e => rw [he] at h; cases h
      | ok e =>
        rw [he, bind_ok] at h
        cases hr : gnuLoop fuel es with
        | error e => rw [hr] at h; cases h
        | ok r =>
          rw [hr, bind_ok] at h
          cases h
          exact ((appends_gnuEntry he).bind (ih hr)).congr (fun st => by rw [gnuLoopDs, hg])

theorem appends_glossaryGnu {fuel : Nat} {es : List (Hdr σ)} {out : CStr} (h : printGlossaryGnu fuel es = .ok out) :
    Appends (glossaryGnuDs fuel es) out := by
  unfold printGlossaryGnu at h
  cases hr : gnuLoop fuel es with
  | error e => rw [hr] at h; cases h
  | ok r =>
    rw [hr, bind_ok] at h
    cases h
    exact (appends_gnuLoop fuel es hr).bind (appends_cat _)

/-! ## Error messages -/

/-- An error function that appends the text that `txt` gives. -/
def Writes (f : Int → Option CStr → CStr → DState → M DState) (txt : Int → Option CStr → CStr → M CStr) : Prop :=
  ∀ (error : Int) (argval : Option CStr) (prog out : CStr), txt error argval prog = .ok out →
    Appends (f error argval prog) out

theorem appends_stdError {so lo dt : Option CStr} {other : CStr → M CStr} {otherDs : CStr → DState → M DState}
    (ho : ∀ a out, other a = .ok out → Appends (otherDs a) out) {error : Int} {argval : Option CStr} {prog out : CStr}
    (h : stdError so lo dt other error argval prog = .ok out) :
    Appends (stdErrorDs so lo dt otherDs error argval prog) out := by
  unfold stdError at h
  dsimp only at h
  by_cases h1 : error = ARG_ERR_MINCOUNT
  · simp only [if_pos h1] at h
    cases hp : printOption so lo dt (cs "\n") with
    | error e => rw [hp] at h; cases h
    | ok o =>
      rw [hp] at h
      cases h
      exact ((appends_catf 4 (by decide) _).bind_eq ((appends_cat _).bind (appends_option hp)) rfl).congr
        (fun st => by unfold stdErrorDs; simp only [if_pos h1])
  simp only [if_neg h1] at h
  by_cases h2 : error = ARG_ERR_MAXCOUNT
  · simp only [if_pos h2] at h
    cases hp : printOption so lo (some (argval.getD [])) (cs "\n") with
    | error e => rw [hp] at h; cases h
    | ok o =>
      rw [hp] at h
      cases h
      exact ((appends_catf 4 (by decide) _).bind_eq ((appends_cat _).bind (appends_option hp)) rfl).congr
        (fun st => by unfold stdErrorDs; simp only [if_neg h1, if_pos h2])
  simp only [if_neg h2] at h
  cases hp : other (argval.getD []) with
  | error e => rw [hp] at h; cases h
  | ok o =>
    rw [hp] at h
    cases h
    exact ((appends_catf 4 (by decide) _).bind_eq (ho _ _ hp) rfl).congr
      (fun st => by unfold stdErrorDs; simp only [if_neg h1, if_neg h2])

theorem writes_lit (so lo dt : Option CStr) : Writes (litErrorDs so lo dt) (litError so lo dt) := by
  intro error argval prog out h
  unfold litError at h
  by_cases h1 : error = ARG_ERR_MINCOUNT
  · rw [if_pos h1] at h
    cases hp : printOption so lo dt (cs "\n") with
    | error e => rw [hp] at h; cases h
    | ok o =>
      rw [hp] at h
      cases h
      exact ((appends_catf 19 (by decide) (prog ++ cs ": missing option ")).bind_eq
        ((appends_option hp).bind (appends_cat (cs "\n"))) (by simp)).congr
        (fun st => by unfold litErrorDs; rw [if_pos h1])
  rw [if_neg h1] at h
  by_cases h2 : error = ARG_ERR_MAXCOUNT
  · rw [if_pos h2] at h
    cases hp : printOption so lo dt (cs "\n") with
    | error e => rw [hp] at h; cases h
    | ok o =>
      rw [hp] at h
      cases h
      exact ((appends_catf 22 (by decide) (prog ++ cs ": extraneous option ")).bind_eq (appends_option hp)
        (by simp)).congr
        (fun st => by unfold litErrorDs; rw [if_neg h1, if_pos h2])
  rw [if_neg h2] at h
  cases h
  exact Appends.nil.congr (fun st => by unfold litErrorDs; rw [if_neg h1, if_neg h2])

theorem writes_int (so lo dt : Option CStr) : Writes (intErrorDs so lo dt) (intError so lo dt) := by
  intro error argval prog out h
  refine appends_stdError ?_ h
  intro a o ho
  by_cases h1 : error = ARG_ERR_BADINT
  · rw [if_pos h1] at ho
    simp only [if_pos h1]
    cases hp : printOption so lo dt (cs "\n") with
    | error e => rw [hp] at ho; cases ho
    | ok x =>
      rw [hp] at ho
      cases ho
      exact (appends_catf 32 (by decide) _).bind_eq (appends_option hp) (by simp)
  rw [if_neg h1] at ho
  simp only [if_neg h1]
  by_cases h2 : error = ARG_ERR_OVERFLOW
  · rw [if_pos h2] at ho
    simp only [if_pos h2]
    cases hp : printOption so lo dt (cs " ") with
    | error e => rw [hp] at ho; cases ho
    | ok x =>
      rw [hp] at ho
      cases ho
      exact (appends_cat _).bind_eq ((appends_option hp).bind (appends_catf 18 (by decide) _)) (by simp)
  rw [if_neg h2] at ho
  simp only [if_neg h2]
  cases ho
  exact Appends.nil

theorem writes_dbl (so lo dt : Option CStr) : Writes (dblErrorDs so lo dt) (dblError so lo dt) := by
  intro error argval prog out h
  refine appends_stdError ?_ h
  intro a o ho
  by_cases h1 : error = ARG_ERR_BADDOUBLE
  · rw [if_pos h1] at ho
    simp only [if_pos h1]
    cases hp : printOption so lo dt (cs "\n") with
    | error e => rw [hp] at ho; cases ho
    | ok x =>
      rw [hp] at ho
      cases ho
      exact (appends_catf 32 (by decide) _).bind_eq (appends_option hp) (by simp)
  rw [if_neg h1] at ho
  simp only [if_neg h1]
  cases ho
  exact Appends.nil

theorem writes_str (so lo dt : Option CStr) : Writes (strErrorDs so lo dt) (strError so lo dt) := by
  intro error argval prog out h
  refine appends_stdError ?_ h
  intro a o ho
  cases ho
  exact Appends.nil

theorem writes_file (so lo dt : Option CStr) : Writes (fileErrorDs so lo dt) (fileError so lo dt) := by
  intro error argval prog out h
  refine appends_stdError ?_ h
  intro a o ho
  cases ho
  exact appends_catf 22 (by decide) _

theorem writes_date (strftime : CStr → CStr) (format : CStr) (so lo dt : Option CStr) :
    Writes (dateErrorDs strftime format so lo dt) (dateError strftime format so lo dt) := by
  intro error argval prog out h
  refine appends_stdError ?_ h
  intro a o ho
  by_cases h1 : error = ARG_ERR_BADDATE
  · rw [if_pos h1] at ho
    simp only [if_pos h1]
    by_cases h2 : (strftime format).length < 200
    swap
    · rw [if_neg h2] at ho; cases ho
    rw [if_pos h2] at ho
    simp only [if_pos h2]
    cases ho
    exact (appends_catf 30 (by decide) _).bind_eq (appends_catf 23 (by decide) _) (by simp)
  rw [if_neg h1] at ho
  simp only [if_neg h1]
  cases ho
  exact Appends.nil

theorem writes_rex (so lo dt : Option CStr) : Writes (rexErrorDs so lo dt) (rexError so lo dt) := by
  intro error argval prog out h
  refine appends_stdError ?_ h
  intro a o ho
  by_cases h1 : error = ARG_ERR_REGNOMATCH
  · rw [if_pos h1] at ho
    simp only [if_pos h1]
    cases hp : printOption so lo (some a) (cs "\n") with
    | error e => rw [hp] at ho; cases ho
    | ok x =>
      rw [hp] at ho
      cases ho
      exact (appends_cat _).bind (appends_option hp)
  rw [if_neg h1] at ho
  simp only [if_neg h1]
  cases ho
  exact Appends.nil

theorem appends_endError (error : Int) (argval : Option CStr) (prog : CStr) :
    Appends (endErrorDs error argval prog) (endError error argval prog) := by
  unfold endError
  dsimp only
  have key : ∀ {f : DState → M DState} {a : CStr}, Appends f a →
      Appends (fun st => dsCatf 4 (prog ++ cs ": ") st >>= fun st => f st >>= dsCat (cs "\n"))
        (prog ++ cs ": " ++ a ++ cs "\n") := fun hf =>
    (appends_catf 4 (by decide) _).bind_eq (hf.bind (appends_cat _)) (by simp)
  by_cases h1 : error = ARG_ELIMIT
  · simp only [if_pos h1]
    exact (key (appends_cat _)).congr (fun st => by unfold endErrorDs; simp only [if_pos h1])
  simp only [if_neg h1]
  by_cases h2 : error = ARG_EMALLOC
  · simp only [if_pos h2]
    exact (key (appends_cat _)).congr (fun st => by unfold endErrorDs; simp only [if_neg h1, if_pos h2])
  simp only [if_neg h2]
  by_cases h3 : error = ARG_ENOMATCH
  · simp only [if_pos h3]
    exact (key (appends_catf 24 (by decide) _)).congr
      (fun st => by unfold endErrorDs; simp only [if_neg h1, if_neg h2, if_pos h3])
  simp only [if_neg h3]
  by_cases h4 : error = ARG_EMISSARG
  · simp only [if_pos h4]
    exact (key (appends_catf 32 (by decide) _)).congr
      (fun st => by unfold endErrorDs; simp only [if_neg h1, if_neg h2, if_neg h3, if_pos h4])
  simp only [if_neg h4]
  by_cases h5 : error = ARG_ELONGOPT
  · simp only [if_pos h5]
    exact (key (appends_catf 19 (by decide) _)).congr
      (fun st => by unfold endErrorDs; simp only [if_neg h1, if_neg h2, if_neg h3, if_neg h4, if_pos h5])
  simp only [if_neg h5]
  by_cases h6 : error = 0
  · simp only [if_pos h6]
    exact (key (appends_catf 20 (by decide) _)).congr
      (fun st => by unfold endErrorDs; simp only [if_neg h1, if_neg h2, if_neg h3, if_neg h4, if_neg h5, if_pos h6])
  simp only [if_neg h6]
  exact (key (appends_catf 20 (by decide) _)).congr
    (fun st => by unfold endErrorDs; simp only [if_neg h1, if_neg h2, if_neg h3, if_neg h4, if_neg h5, if_neg h6])

/-- The error functions `fns` write what those of the entries say. -/
def FnsOf (es : List (Hdr σ)) (fns : List (Option (ErrFn σ))) : Prop :=
  List.Forall₂ (fun h f => (h.errorfn = none ∧ f = none) ∨
    ∃ g f', h.errorfn = some g ∧ f = some f' ∧ Writes (f' h.parent) (g h.parent)) es fns

theorem appends_error {es : List (Hdr σ)} {fns : List (Option (ErrFn σ))} (hf : FnsOf es fns) {prog : CStr} {r : ErrRec}
    {out : CStr} (h : printError es prog r = .ok out) : Appends (errorDs es fns prog r) out := by
  unfold printError at h
  cases hp : r.parent with
  | endt =>
    rw [hp] at h
    cases h
    exact (appends_endError _ _ _).congr (fun st => by unfold errorDs; rw [hp])
  | entry i =>
    rw [hp] at h
    dsimp only at h
    cases hi : es[i]? with
    | none => rw [hi] at h; cases h
    | some x =>
      rw [hi] at h
      dsimp only at h
      have hlt : i < es.length := (List.getElem?_eq_some_iff.1 hi).1
      have hlt2 : i < fns.length := hf.length_eq ▸ hlt
      have hx : es[i] = x := (List.getElem?_eq_some_iff.1 hi).2
      have hg := (List.forall₂_iff_get.1 hf).2 i hlt hlt2
      simp only [List.get_eq_getElem] at hg
      rw [hx] at hg
      have hfi : fns[i]? = some fns[i] := List.getElem?_eq_getElem hlt2
      rcases hg with ⟨h1, h2⟩ | ⟨g, f', h1, h2, h3⟩
      · rw [h1] at h
        cases h
        exact Appends.nil.congr (fun st => by unfold errorDs; rw [hp]; dsimp only; rw [hi, hfi, h2])
      · rw [h1] at h
        exact (h3 _ _ _ _ h).congr (fun st => by unfold errorDs; rw [hp]; dsimp only; rw [hi, hfi, h2])

theorem appends_errorsLoop {es : List (Hdr σ)} {fns : List (Option (ErrFn σ))} (hf : FnsOf es fns) {prog : CStr} :
    ∀ (rs : List ErrRec) {out : CStr}, printErrorsLoop es prog rs = .ok out → Appends (errorsLoopDs es fns prog rs) out := by
  intro rs
  induction rs with
  | nil => intro out h; cases h; exact Appends.nil
  | cons r rs ih =>
    intro out h
    unfold printErrorsLoop at h
    cases ha : printError es prog r with
    | error e => rw [ha] at h; cases h
    | ok a =>
      rw [ha, bind_ok] at h
      cases hb : printErrorsLoop es prog rs with
      | error e => rw [hb] at h; cases h
      | ok b =>
        rw [hb, bind_ok] at h
        cases h
        exact (appends_error hf ha).bind (ih hb)

theorem appends_errors {t : Table σ} {fns : List (Option (ErrFn σ))} (hf : FnsOf t.entries fns) {prog out : CStr}
    (h : printErrors t prog = .ok out) : Appends (errorsDs t fns prog) out := by
  unfold printErrors at h
  by_cases hc : t.fin.count ≤ t.fin.slots.length
  · rw [if_pos hc] at h
    exact (appends_errorsLoop hf _ h).congr (fun st => by unfold errorsDs; rw [if_pos hc])
  · rw [if_neg hc] at h
    cases h

/-! ## The messages of arg_cmd.c -/

theorem appends_getHelp (m : ModInfo) : Appends (getHelpDs m) (makeGetHelpMsg m) :=
  (appends_catf 7 (by decide) _).bind_eq (appends_catf 47 (by decide) _) (by simp [makeGetHelpMsg])

theorem appends_help {limit : Nat → Nat} {m : ModInfo} {reg : Registry P C} {name : CStr} {es : List (Hdr σ)} {out : CStr}
    (h : makeHelpMsg limit m reg name es = .ok out) : Appends (helpDs limit m reg name es) out := by
  unfold makeHelpMsg at h
  cases h1 : reg.get with
  | error e => rw [h1] at h; cases h
  | ok t =>
    rw [h1, bind_ok] at h
    cases h2 : hashSearch (cmdFns limit) t name with
    | error e => rw [h2] at h; cases h
    | ok info =>
      rw [h2, bind_ok] at h
      dsimp only at h
      cases h3 : printSyntaxv es (some (cs "\n \nAvailable options:\n")) with
      | error e => rw [h3] at h; cases h
      | ok syn =>
        rw [h3, bind_ok] at h
        cases h4 : printGlossary helpGlossary es with
        | error e => rw [h4] at h; cases h
        | ok glo =>
          rw [h4, bind_ok] at h
          cases h
          have rest := (appends_cat (cs "Usage:\n")).bind ((appends_catf 4 (by decide) (cs "  " ++ moduleName m)).bind
            ((appends_syntaxv h3).bind ((appends_glossary (fmtlen := 11) (by decide) helpGlossary es h4).bind
              (appends_cat (cs "\n")))))
          cases info with
          | none => exact (Appends.nil.bind_eq rest (by simp)).congr (fun st => by unfold helpDs; rw [h1, bind_ok, h2, bind_ok])
          | some i =>
            exact ((appends_catf 7 (by decide) (name ++ cs ": " ++ i.description ++ cs "\n")).bind_eq rest (by simp)).congr
              (fun st => by unfold helpDs; rw [h1, bind_ok, h2, bind_ok])

theorem appends_syntaxErr {m : ModInfo} {t : Table σ} {fns : List (Option (ErrFn σ))} (hf : FnsOf t.entries fns) {out : CStr}
    (h : makeSyntaxErrMsg m t = .ok out) : Appends (syntaxErrDs m t fns) out := by
  unfold makeSyntaxErrMsg at h
  cases h1 : printErrors t (moduleName m) with
  | error e => rw [h1] at h; cases h
  | ok ds =>
    rw [h1, bind_ok] at h
    dsimp only at h
    cases h2 : printSyntaxv t.entries (some (cs "\n")) with
    | error e => rw [h2] at h; cases h
    | ok syn =>
      rw [h2, bind_ok] at h
      cases h
      exact (appends_errors hf h1).bind_eq ((appends_cat (cs "Usage: \n")).bind
        ((appends_catf 4 (by decide) (cs "  " ++ moduleName m)).bind ((appends_syntaxv h2).bind
          (appends_cat (cs "\n"))))) (by simp)

/-! ## Printing to a stream -/

theorem toStream_of {f : DState → M DState} {text : CStr} (h : Appends f text) (hn : '\x00' ∉ text)
    (hl : text.length ≤ 500000000) (heap : Heap) (out : CStr) :
    ∃ heap', toStream f heap out = .ok (heap', out ++ text) ∧ liveBlocks heap' = liveBlocks heap ∧
      ∀ a, a < heap.length → heap'[a]? = heap[a]? := by
  obtain ⟨st, e, hi⟩ := h.run hn heap _ [] [] [] (DInv.create heap) (by simpa using hl)
  obtain ⟨st', e', -, hlog, hh⟩ := hi.reset
  refine ⟨st'.heap, ?_, ?_, fun a ha => hh.frame a ha⟩
  · unfold toStream dstrDestroy
    dsimp only
    rw [e, bind_ok, hi.cstr, bind_ok, e', bind_ok]
    rfl
  · rw [hh.liveBlocks]
    simp

theorem onHistory_of {f : DState → M DState} {text : CStr} (h : Appends f text) (hn : '\x00' ∉ text)
    (heap : Heap) (cmds : List DCmd) (hp : ∀ c ∈ cmds, c.Proper)
    (hl : (cmds.map DCmd.size).sum + text.length ≤ 500000000) :
    ∃ st st', execAll (dstrCreate heap) cmds = .ok st ∧ f st = .ok st' ∧
      st'.cstr (dstrCstr st') = .ok (contents cmds ++ text) ∧
      ∃ heap', dstrDestroy st' = .ok (heap', cmds.flatMap DCmd.custom) ∧
        liveBlocks heap' = liveBlocks heap ++ (cmds.flatMap DCmd.static).map strBytes := by
  obtain ⟨st, S, e, h1, hS⟩ := (DInv.create heap).execAll cmds hp (by simp; omega)
  have hlen : (contents cmds).length ≤ (cmds.map DCmd.size).sum := contents_length (Nat.le_refl _)
  obtain ⟨st', e', h2⟩ := h.run hn heap st _ S _ h1 (by show (contents cmds).length + _ ≤ _; omega)
  obtain ⟨st2, e2, -, hlog, hh⟩ := h2.reset
  refine ⟨st, st', e, e', h2.cstr, st2.heap, ?_, ?_⟩
  · unfold dstrDestroy
    rw [e2, bind_ok, hlog]
    rfl
  · rw [hh.liveBlocks, hS]
    rfl

/-! ## No NUL in the texts -/

theorem nul_bufStr (b : List Char) : '\x00' ∉ bufStr b := by
  intro h
  unfold bufStr at h
  induction b with
  | nil => simp at h
  | cons c b ih =>
    rw [List.takeWhile_cons] at h
    split at h
    · rename_i hc
      rcases List.mem_cons.1 h with h | h
      · subst h; simp at hc
      · exact ih h
    · simp at h

theorem nul_option {so lo dt : Option CStr} {suffix out : CStr} (hs : '\x00' ∉ suffix)
    (h : printOption so lo dt suffix = .ok out) : '\x00' ∉ out := by
  unfold printOption at h
  cases hb : catOptionv (syntaxBuf []) so lo dt false (cs "|") with
  | error e => rw [hb] at h; cases h
  | ok b =>
    rw [hb, bind_ok] at h
    cases h
    simp [nul_bufStr, hs]

theorem nul_instances {syn : CStr} (hs : '\x00' ∉ syn) (mn mx : Int) : '\x00' ∉ instances syn mn mx := by
  unfold instances
  simp only [List.mem_append, not_or]
  constructor
  · intro h
    obtain ⟨l, h1, h2⟩ := List.mem_flatten.1 h
    rw [List.eq_of_mem_replicate h1] at h2
    simp [hs] at h2
  · split
    · simp
    split
    · simp [hs, cs]
    split
    · simp [hs, cs]
    · simp [hs, cs]

theorem nul_switches (p : Hdr σ → Bool) : ∀ (es : List (Hdr σ)) (pre : CStr), '\x00' ∉ pre →
    (∀ h ∈ es, CText h.shortopts) → '\x00' ∉ (gnuswitchLoop p es pre).1 := by
  intro es
  induction es with
  | nil => intro pre _ _; simp [gnuswitchLoop]
  | cons x es ih =>
    intro pre hp hc
    unfold gnuswitchLoop
    have hx : '\x00' ∉ shortHead x := by
      unfold shortHead
      intro h
      have h1 := List.mem_of_mem_take h
      cases hs : x.shortopts with
      | none => rw [hs] at h1; simp at h1
      | some s => rw [hs] at h1; exact hc x (by simp) s hs h1
    split
    · simp only [List.mem_append, not_or]
      exact ⟨⟨hp, hx⟩, ih [] (by simp) (fun h hh => hc h (by simp [hh]))⟩
    · exact ih pre hp (fun h hh => hc h (by simp [hh]))

theorem nul_syntax {es : List (Hdr σ)} {suffix : Option CStr} {out : CStr} (hc : ∀ h ∈ es, CText h.shortopts)
    (hs : CText suffix) (h : printSyntax es suffix = .ok out) : '\x00' ∉ out := by
  have hloop : ∀ (es : List (Hdr σ)) (r : CStr), syntaxLoop es = .ok r → '\x00' ∉ r := by
    intro es
    induction es with
    | nil => intro r h; cases h; simp
    | cons x es ih =>
      intro r h
      unfold syntaxLoop at h
      split at h
      · exact ih r h
      cases hb : catOption (syntaxBuf []) x.shortopts x.longopts x.datatype x.hasOptValue with
      | error e => rw [hb] at h; cases h
      | ok b =>
        rw [hb, bind_ok] at h
        dsimp only at h
        cases hr : syntaxLoop es with
        | error e => rw [hr] at h; cases h
        | ok r' =>
          rw [hr, bind_ok] at h
          cases h
          simp only [List.mem_append, not_or]
          refine ⟨?_, ih r' hr⟩
          split
          · exact nul_instances (nul_bufStr _) _ _
          · simp
  unfold printSyntax at h
  cases hr : syntaxLoop es with
  | error e => rw [hr] at h; cases h
  | ok r =>
    rw [hr, bind_ok] at h
    cases h
    simp only [List.mem_append, not_or]
    refine ⟨⟨?_, hloop es r hr⟩, ?_⟩
    · unfold printGnuswitch
      dsimp only
      simp only [List.mem_append, not_or]
      refine ⟨⟨nul_switches _ es _ (by decide) hc, nul_switches _ es _ (by split <;> decide) hc⟩, ?_⟩
      generalize (gnuswitchLoop _ es _).2 = b
      cases b <;> decide
    · cases suffix with
      | none => simp
      | some s => exact hs s rfl

theorem nul_syntaxv {es : List (Hdr σ)} {suffix : Option CStr} {out : CStr} (hs : CText suffix)
    (h : printSyntaxv es suffix = .ok out) : '\x00' ∉ out := by
  have hloop : ∀ (es : List (Hdr σ)) (r : CStr), syntaxvLoop es = .ok r → '\x00' ∉ r := by
    intro es
    induction es with
    | nil => intro r h; cases h; simp
    | cons x es ih =>
      intro r h
      unfold syntaxvLoop at h
      cases hb : catOptionv (syntaxBuf []) x.shortopts x.longopts x.datatype x.hasOptValue (cs "|") with
      | error e => rw [hb] at h; cases h
      | ok b =>
        rw [hb, bind_ok] at h
        cases hr : syntaxvLoop es with
        | error e => rw [hr] at h; cases h
        | ok r' =>
          rw [hr, bind_ok] at h
          cases h
          simp only [List.mem_append, not_or]
          exact ⟨nul_instances (nul_bufStr _) _ _, ih r' hr⟩
  unfold printSyntaxv at h
  cases hr : syntaxvLoop es with
  | error e => rw [hr] at h; cases h
  | ok r =>
    rw [hr, bind_ok] at h
    cases h
    simp only [List.mem_append, not_or]
    refine ⟨hloop es r hr, ?_⟩
    cases suffix with
    | none => simp
    | some s => exact hs s rfl

theorem nul_glossary {fmt2 : CStr → CStr → CStr} (hf : ∀ a b, '\x00' ∉ a → '\x00' ∉ b → '\x00' ∉ fmt2 a b) :
    ∀ (es : List (Hdr σ)) {out : CStr}, (∀ h ∈ es, CText h.glossary) → printGlossary fmt2 es = .ok out →
    '\x00' ∉ out := by
  intro es
  induction es with
  | nil => intro out _ h; cases h; simp
  | cons x es ih =>
    intro out hc h
    unfold printGlossary at h
    cases hg : x.glossary with
    | none =>
      rw [hg] at h
      exact ih (fun h hh => hc h (by simp [hh])) h
    | some g =>
      rw [hg] at h
      dsimp only at h
      cases hb : catOptionv (syntaxBuf []) x.shortopts x.longopts x.datatype x.hasOptValue (cs ", ") with
      | error e => rw [hb] at h; cases h
      | ok b =>
        rw [hb, bind_ok] at h
        cases hr : printGlossary fmt2 es with
        | error e => rw [hr] at h; cases h
        | ok r =>
          rw [hr, bind_ok] at h
          cases h
          simp only [List.mem_append, not_or]
          exact ⟨hf _ _ (nul_bufStr _) (hc x (by simp) g hg), ih (fun h hh => hc h (by simp [hh])) hr⟩

theorem nul_padRight {w : Nat} {s : CStr} (hs : '\x00' ∉ s) : '\x00' ∉ padRight w s := by
  unfold padRight
  simp only [List.mem_append, not_or]
  exact ⟨hs, fun h => by have := List.eq_of_mem_replicate h; cases this⟩

theorem nul_laidOut {indent : CStr} (hi : '\x00' ∉ indent) {lines : List CStr} {out : CStr}
    (h : LaidOut indent lines out) (hl : '\x00' ∉ lines.flatten) : '\x00' ∉ out := by
  induction h with
  | nil => simp
  | one l => simpa using hl
  | indented l _ _ ih =>
    simp only [List.flatten_cons, List.mem_append, not_or] at hl
    simp [hl.1, hi, ih hl.2]
  | flush l _ _ ih =>
    simp only [List.flatten_cons, List.mem_append, not_or] at hl
    simp [hl.1, ih hl.2]

theorem nul_formatted {lmargin rmargin fuel : Nat} {text out : CStr} (ht : '\x00' ∉ text)
    (hn : text.length < 2 ^ 32 - 1) (hw : 0 < columnWidth lmargin rmargin)
    (hf : text.length < fuel) (h : printFormatted fuel lmargin rmargin text = .ok out) : '\x00' ∉ out := by
  obtain ⟨out', e, ⟨lines, h1, h2, _, _⟩⟩ := fmtLoop_ok text lmargin (columnWidth lmargin rmargin) hw
    (by omega) text.length 0 fuel (by omega) (by omega) hf
  have e' : printFormatted fuel lmargin rmargin text = .ok out' := e
  cases h.symm.trans e'
  refine nul_laidOut (fun hm => by have := List.eq_of_mem_replicate hm; cases this) h2 ?_
  intro hm
  have h3 := wraps_chars h1
  have h4 : '\x00' ∈ lines.flatten.filter (fun c => !isSpace c) := List.mem_filter.2 ⟨hm, by decide⟩
  rw [h3] at h4
  have := (List.mem_filter.1 h4).1
  simp at this
  exact ht this

theorem nul_glossaryGnu {fuel : Nat} {es : List (Hdr σ)} {out : CStr} (hc : ∀ h ∈ es, CText h.glossary)
    (hg : ∀ h ∈ es, ∀ g, h.glossary = some g → g.length < 2 ^ 32 - 1 ∧ g.length < fuel)
    (h : printGlossaryGnu fuel es = .ok out) : '\x00' ∉ out := by
  have hloop : ∀ (es : List (Hdr σ)) (r : CStr), (∀ h ∈ es, CText h.glossary) →
      (∀ h ∈ es, ∀ g, h.glossary = some g → g.length < 2 ^ 32 - 1 ∧ g.length < fuel) →
      gnuLoop fuel es = .ok r → '\x00' ∉ r := by
    intro es
    induction es with
    | nil => intro r _ _ h; cases h; simp
    | cons x es ih =>
      intro r hc hg h
      unfold gnuLoop at h
      cases hx : x.glossary with
      | none =>
        rw [hx] at h
        exact ih r (fun h hh => hc h (by simp [hh])) (fun h hh => hg h (by simp [hh])) h
      | some g =>
        rw [hx] at h
        dsimp only at h
        cases he : gnuEntry fuel x g with
        | error e => rw [he] at h; cases h
        | ok e =>
          rw [he, bind_ok] at h
          cases hr : gnuLoop fuel es with
          | error e => rw [hr] at h; cases h
          | ok r' =>
            rw [hr, bind_ok] at h
            cases h
            simp only [List.mem_append, not_or]
            refine ⟨?_, ih r' (fun h hh => hc h (by simp [hh])) (fun h hh => hg h (by simp [hh])) hr⟩
            unfold gnuEntry at he
            dsimp only at he
            cases hb : catOptionv (syntaxBuf (if x.shortopts.isNone ∧ x.longopts.isSome then cs "    " else []))
                x.shortopts x.longopts x.datatype x.hasOptValue (cs ", ") with
            | error e => rw [hb] at he; cases he
            | ok b =>
              rw [hb, bind_ok] at he
              cases hf : printFormatted fuel 28 79 g with
              | error e => rw [hf] at he; revert he; split <;> intro he <;> cases he
              | ok body =>
                rw [hf] at he
                have h1 := hg x (by simp) g hx
                have hb1 := nul_formatted (hc x (by simp) g hx) h1.1 (by decide) h1.2 hf
                by_cases hl : (bufStr b.buf).length > 25
                · simp only [if_pos hl, bind_ok] at he
                  cases he
                  simp only [List.mem_append, not_or]
                  exact ⟨⟨⟨⟨⟨⟨⟨by decide, nul_padRight (nul_bufStr _)⟩, by decide⟩, by decide⟩, by decide⟩,
                    nul_padRight (by simp)⟩, by decide⟩, hb1⟩
                · simp only [if_neg hl, bind_ok] at he
                  cases he
                  simp only [List.mem_append, not_or]
                  exact ⟨⟨⟨⟨by simp, by decide⟩, nul_padRight (nul_bufStr _)⟩, by decide⟩, hb1⟩
  unfold printGlossaryGnu at h
  cases hr : gnuLoop fuel es with
  | error e => rw [hr] at h; cases h
  | ok r =>
    rw [hr, bind_ok] at h
    cases h
    simp only [List.mem_append, not_or]
    exact ⟨hloop es r hc hg hr, by decide⟩

end Argtable
