import Verif.Proofs.RegexDec
import Verif.Proofs.RegexExact
import Verif.Proofs.RexCount
import Verif.Props.Rex
/-!
# Regular expressions with operators (C53, C54)

`Spec.Re` (Spec/Regex.lean) is the syntax tree of a pattern, `r.text` the pattern string handed to
`arg_rex0/1/n`, `r.Accepts ic a` says that the text `a` belongs to the language of the pattern.
-/

namespace Argtable

open Spec

variable {δ : Type}

/-! ## C53: accepted arguments belong to the language of the pattern -/

/-- C53.  If an entry for a well-formed pattern accepts an argument (error code 0), then the argument
belongs to the language of the pattern. -/
theorem C53_sound {r : Re} {ic : Bool} {h : Hdr (Obj δ)} {o : StrObj} (hd : RexEntry r.text ic h o)
    (hok : r.Ok) {a : CStr} {p : Obj δ} (hg : give h (some a) = .ok (p, 0)) : r.Accepts ic a := by
  rw [give_rex' hd] at hg
  unfold rexScan at hg
  split at hg
  · cases hg
  · dsimp only at hg
    obtain ⟨⟨o', e⟩, h1, h2⟩ := bind_some_ok hg
    cases h2
    obtain ⟨c, h3, h4⟩ := bind_some_ok h1
    cases c with
    | none => cases h4
    | some nodes =>
      dsimp only at h4
      obtain ⟨b, h5, h6⟩ := bind_some_ok h4
      cases b with
      | false => cases h6
      | true => exact rexMatch_sound hok h3 h5

/-- C53.  No range is taken for an invalid one if its end is written with a character code of at least the length of the
pattern minus two. -/
theorem C53_late {r : Re} (h : r.Fits r.text.length) : r.Compiles := compiles_of_fits h

/-- C53.  In particular a well-formed pattern of at most 34 characters compiles. -/
theorem C53_short {r : Re} (hok : r.Ok) (h : r.text.length ≤ 34) : r.Compiles := compiles_of_fits (re_fits h r hok)

/-- C53.  Well-formed patterns are compiled, provided that no range in them is taken for an invalid one: the only fault that
giving an argument can produce is then a read past the end of the argument (see C34), never the NULL pointer of an invalid
pattern. -/
theorem C53_compiled {r : Re} {ic : Bool} {h : Hdr (Obj δ)} {o : StrObj} (hd : RexEntry r.text ic h o)
    (hok : r.Ok) (hfit : r.Compiles) {a : Option CStr} {f : Fault} (hf : give h a = .error f) :
    f = .ub "read past the end of the text" := by
  rcases C34_faults hd hf with h1 | h1
  · exact h1
  · exfalso
    rcases rexCompile_rep (E := False) hok (Or.inr hfit) with ⟨h, _⟩ | ⟨-, ns, n, k, hc, -⟩
    · exact h
    · rw [give_rex' hd] at hf
      unfold rexScan at hf
      split at hf
      · cases hf
      · cases a with
        | none => cases hf
        | some a =>
          dsimp only at hf
          rw [hc, bind_ok] at hf
          dsimp only at hf
          subst h1
          have hne : r.text ≠ [] := by
            intro h; rw [h] at hc; cases hc
          have hp := rexCompile_post hne
          rw [hc] at hp
          have h2 := rexMatch_post (P := False) ic a hp.1 (fun h => h.elim)
          cases hm : rexMatch ns ic a with
          | error e =>
            rw [hm] at h2 hf
            have : e = PastEnd := h2.1
            subst this
            revert hf
            simp [PastEnd, bind, Except.bind]
          | ok b =>
            rw [hm, bind_ok] at hf
            obtain ⟨hlen, hcnt, -, -⟩ := give_rex hd
            cases b with
            | false => cases hf
            | true =>
              rw [if_pos rfl, storeAt_ok (by omega)] at hf
              cases hf

/-- C53.  Well-formed patterns are never rejected by the constructor. -/
theorem C53_made {so lo dt gl : Option CStr} {r : Re} {mn mx : Int} {ic : Bool} (hok : r.Ok) (h0 : 0 ≤ mn) :
    ∃ h : Hdr (Obj δ), argRexn so lo r.text dt mn mx ic gl = .ok h ∧ h.maxcount = max mn mx ∧
      RexEntry r.text ic h ⟨0, List.replicate (max mn mx).toNat []⟩ := by
  have hfp : foolproof mn mx = max mn mx := by unfold foolproof; split <;> omega
  have hcells : arrayCells (max mn mx) = .ok (max mn mx).toNat := by
    unfold arrayCells; rw [if_neg (by omega)]
  obtain ⟨c, hc⟩ : ∃ c, rexCompile r.text = .ok c := by
    rcases rexCompile_rep (E := True) hok (Or.inl trivial) with h | ⟨-, ns, _, _, h, _⟩
    · exact ⟨_, h.2⟩
    · exact ⟨_, h⟩
  cases hh : argRexn (δ := δ) so lo r.text dt mn mx ic gl with
  | error e =>
    unfold argRexn at hh
    simp only [hfp, hcells, hc, bind_ok] at hh
    cases hh
  | ok h =>
    have hmax : h.maxcount = max mn mx := by rw [(argRexn_inv hh).1, hfp]
    refine ⟨h, rfl, hmax, ?_⟩
    have := RexEntry.mk (δ := δ) so lo r.text dt mn mx ic gl h false ⟨0, List.replicate (max mn mx).toNat []⟩ hh
      (by rw [hmax]; simp; omega) (by rw [hmax]; simp; omega)
    unfold argRexn at hh
    simp only [hfp, hcells, hc, bind_ok] at hh
    cases hh
    exact this

/-! ## Limits -/

/-- `[5-Q]`. -/
def mixedRange : Re := .branch false (.last (.set false (.range (.plain '5') (.plain 'Q')) []) .once)

/-- `a|ab`. -/
def shortFirst : Re := .alt false (.last (.chr (.plain 'a')) .once)
  (.branch false (.more (.chr (.plain 'a')) .once (.last (.chr (.plain 'b')) .once)))

/-- `a*ab`. -/
def starPrefix : Re := .branch false (.more (.chr (.plain 'a')) .star (.more (.chr (.plain 'a')) .once
  (.last (.chr (.plain 'b')) .once)))

theorem rexScan_of {pat : CStr} {ic b : Bool} {h : Hdr (Obj δ)} {o : StrObj} (hd : RexEntry pat ic h o)
    (hroom : (o.count : Int) < h.maxcount) {nodes : List RNode} (hc : rexCompile pat = .ok (some nodes)) {a : CStr}
    (hm : rexMatch nodes ic a = .ok b) : give h (some a) =
      if b then .ok (.rex ⟨o.count + 1, o.sval.set o.count a⟩, 0) else .ok (.rex o, ARG_ERR_REGNOMATCH) := by
  obtain ⟨hlen, hcnt, -, -⟩ := give_rex hd
  rw [give_rex' hd]
  unfold rexScan
  rw [if_neg (by omega), hc]
  dsimp only
  rw [bind_ok]
  dsimp only
  rw [hm, bind_ok]
  cases b with
  | false => rfl
  | true => rw [if_pos rfl, if_pos rfl, storeAt_ok (by omega), bind_ok]; rfl

/-- C53.  The members of a usual range, ignoring case or not: `c` belongs to it if `c` or the other case of `c` lies between
the ends. -/
theorem C53_range {ic : Bool} {a b : Lit} (hab : RangeOk ic a.char b.char) (c : Char) :
    (SetItem.range a b).Has ic c ↔ ∃ d, SameLetter ic c d ∧ Between a.char b.char d :=
  range_has hab c

/-- C53.  Between two ASCII characters lie those whose codes lie between theirs. -/
theorem C53_between {a b : Char} (ha : a.toNat < 128) (hb : b.toNat < 128) (c : Char) :
    Between a b c ↔ a.toNat ≤ c.toNat ∧ c.toNat ≤ b.toNat := by
  unfold Between
  rw [charInt_ascii ha, charInt_ascii hb]
  unfold charInt
  split
  · omega
  · split <;> omega

/-- For other ranges this is false: ignoring case, `[5-Q]` accepts `[`, which lies beyond both ends of the range and has no
case. -/
theorem C53_mixed_range {h : Hdr (Obj δ)} {o : StrObj} (hd : RexEntry mixedRange.text true h o)
    (hroom : (o.count : Int) < h.maxcount) :
    give h (some (cs "[")) = .ok (.rex ⟨o.count + 1, o.sval.set o.count (cs "[")⟩, 0) ∧
    ¬ ∃ d, SameLetter true '[' d ∧ '5'.toNat ≤ d.toNat ∧ d.toNat ≤ 'Q'.toNat := by
  constructor
  · exact rexScan_of (b := true) hd hroom (nodes := [{ type := .expr, left := 1, right := 0 },
      { type := .cls, left := 3 }, { type := .char '5' }, { type := .range, left := 53, right := 81 }])
      (by decide +kernel) (by decide +kernel)
  · rintro ⟨d, h2, h3, h4⟩
    have h5 : toLower '[' = toLower d := h2
    have h7 : ('Q' : Char).toNat = 81 := rfl
    have h6 : d.toNat < 128 := by omega
    have key : ∀ n : Fin 128, toLower '[' = toLower (Char.ofNat n.val) → n.val = 91 := by decide
    have := key ⟨d.toNat, h6⟩ (by simpa [Char.ofNat_toNat] using h5)
    simp at this
    omega

/-- The converse of C53 is false: `a|ab` rejects `ab` … -/
theorem C53_alternatives {h : Hdr (Obj δ)} {o : StrObj} (hd : RexEntry shortFirst.text false h o)
    (hroom : (o.count : Int) < h.maxcount) :
    give h (some (cs "ab")) = .ok (.rex o, ARG_ERR_REGNOMATCH) ∧ shortFirst.Accepts false (cs "ab") := by
  constructor
  · exact rexScan_of (b := false) hd hroom (nodes := [{ type := .expr, left := 2, right := 0 },
      { type := .char 'a' }, { type := .or, left := 1, right := 3 }, { type := .char 'a', next := 4 },
      { type := .char 'b' }]) (by decide +kernel) (by decide +kernel)
  · unfold shortFirst Re.Accepts Re.Matches
    right
    unfold Re.Matches Elems.Matches
    refine ⟨by simp, 1, ⟨1, rfl, 1, ?_, rfl⟩, ?_⟩
    · unfold Atom.Matches; exact ⟨'a', rfl, rfl, rfl⟩
    · unfold Elems.Matches
      refine ⟨1, rfl, 2, ?_, rfl⟩
      unfold Atom.Matches; exact ⟨'b', rfl, rfl, rfl⟩

/-- … and `a*ab` rejects `aaab`. -/
theorem C53_backtracking {h : Hdr (Obj δ)} {o : StrObj} (hd : RexEntry starPrefix.text false h o)
    (hroom : (o.count : Int) < h.maxcount) :
    give h (some (cs "aaab")) = .ok (.rex o, ARG_ERR_REGNOMATCH) ∧ starPrefix.Accepts false (cs "aaab") := by
  constructor
  · exact rexScan_of (b := false) hd hroom (nodes := [{ type := .expr, left := 2, right := 0 },
      { type := .char 'a' }, { type := .greedy, left := 1, right := 65535, next := 3 },
      { type := .char 'a', next := 4 }, { type := .char 'b' }]) (by decide +kernel) (by decide +kernel)
  · have ha : ∀ i : Nat, (cs "aaab")[i]? = some 'a' → (Atom.chr (.plain 'a')).Matches false (cs "aaab") i (i + 1) := by
      intro i hi
      unfold Atom.Matches
      exact ⟨'a', hi, rfl, rfl⟩
    unfold starPrefix Re.Accepts Re.Matches Elems.Matches
    refine ⟨by simp, 2, ⟨2, trivial, 1, ha 0 rfl, 2, ha 1 rfl, rfl⟩, ?_⟩
    unfold Elems.Matches
    refine ⟨3, ⟨1, rfl, 3, ha 2 rfl, rfl⟩, ?_⟩
    unfold Elems.Matches
    refine ⟨1, rfl, 4, ?_, rfl⟩
    unfold Atom.Matches; exact ⟨'b', rfl, rfl, rfl⟩

/-- `a \bb`. -/
def wordStart : Re := .branch false (.more (.chr (.plain 'a')) .once (.more (.chr (.plain ' ')) .once
  (.more (.edge false) .once (.last (.chr (.plain 'b')) .once))))

/-- `a\bb c`. -/
def insideWord : Re := .branch false (.more (.chr (.plain 'a')) .once (.more (.edge false) .once
  (.more (.chr (.plain 'b')) .once (.more (.chr (.plain ' ')) .once (.last (.chr (.plain 'c')) .once)))))

/-- `a \b`. -/
def wordAtEnd : Re := .branch false (.more (.chr (.plain 'a')) .once (.more (.chr (.plain ' ')) .once
  (.last (.edge false) .once)))

/-- The word boundary of `arg_rex` (`Edge`, Spec/Regex.lean) is not the usual one.  In `a b` a word starts at the `b`, but
the pattern `a \bb` rejects this text; in `ab c` there is no boundary between `a` and `b`, but `a\bb c` accepts it; and
`a \b` reads past the end of `a ` followed by the terminating NUL. -/
theorem C53_boundary {h₁ h₂ h₃ : Hdr (Obj δ)} {o : StrObj} (hd₁ : RexEntry (cs "a \\bb") false h₁ o)
    (hd₂ : RexEntry (cs "a\\bb c") false h₂ o) (hd₃ : RexEntry (cs "a \\b") false h₃ o)
    (hr₁ : (o.count : Int) < h₁.maxcount) (hr₂ : (o.count : Int) < h₂.maxcount) (hr₃ : (o.count : Int) < h₃.maxcount) :
    give h₁ (some (cs "a b")) = .ok (.rex o, ARG_ERR_REGNOMATCH) ∧
    give h₂ (some (cs "ab c")) = .ok (.rex ⟨o.count + 1, o.sval.set o.count (cs "ab c")⟩, 0) ∧
    give h₃ (some (cs "a ")) = .error (.ub "read past the end of the text") := by
  refine ⟨rexScan_of (b := false) hd₁ hr₁ (nodes := ((rexCompile wordStart.text).toOption.bind id).getD [])
    (by decide +kernel) (by decide +kernel), rexScan_of (b := true) hd₂ hr₂
    (nodes := ((rexCompile insideWord.text).toOption.bind id).getD []) (by decide +kernel) (by decide +kernel), ?_⟩
  have hc : rexCompile (cs "a \\b") = .ok (some (((rexCompile wordAtEnd.text).toOption.bind id).getD [])) := by decide +kernel
  rw [give_rex' hd₃]
  unfold rexScan
  rw [if_neg (by omega), hc]
  dsimp only
  rw [bind_ok]
  dsimp only
  rw [show rexMatch (((rexCompile wordAtEnd.text).toOption.bind id).getD []) false (cs "a ")
    = .error (.ub "read past the end of the text") from by decide +kernel]
  rfl

/-- `n` times `a`, then `[0-9]`. -/
def lateRange : Nat → Elems
  | 0 => .last (.set false (.range (.plain '0') (.plain '9')) []) .once
  | n + 1 => .more (.chr (.plain 'a')) .once (lateRange n)

/-- The condition in C53_compiled is needed: with sixty nodes before it the range `[0-9]` is taken for an invalid
one, and the first argument makes the library follow a NULL pointer. -/
theorem C53_late_range {h : Hdr (Obj δ)} {o : StrObj} {ic : Bool}
    (hd : RexEntry (Re.branch false (lateRange 60)).text ic h o) (hroom : (o.count : Int) < h.maxcount) (a : CStr) :
    give h (some a) = .error (.ub "trex_match: NULL pointer dereference") :=
  C35_invalid hd (by decide +kernel) hroom a

/-- C53.  The condition is exact: if a range of a well-formed pattern is taken for an invalid one, every argument makes the
library follow a NULL pointer. -/
theorem C53_not_compiled {r : Re} {ic : Bool} {h : Hdr (Obj δ)} {o : StrObj} (hd : RexEntry r.text ic h o) (hok : r.Ok)
    (hnot : ¬ r.Compiles) (hroom : (o.count : Int) < h.maxcount) (a : CStr) :
    give h (some a) = .error (.ub "trex_match: NULL pointer dereference") := by
  rcases rexCompile_rep (E := True) hok (Or.inl trivial) with h | h
  · exact C35_invalid hd h.2 hroom a
  · exact absurd h.1 hnot

/-- `[0-9]` in `n` pairs of parentheses. -/
def nested : Nat → Re
  | 0 => .branch false (.last (.set false (.range (.plain '0') (.plain '9')) []) .once)
  | n + 1 => .branch false (.last (.group true (nested n)) .once)

example : (nested 55).Ok ∧ (nested 55).Compiles ∧ (nested 56).Ok ∧ ¬ (nested 56).Compiles := by
  refine ⟨?_, ?_, ?_, ?_⟩ <;> decide +kernel

/-! ## C35: repetition counts

What becomes of the number in `a{n}`; `Numeral 10 ds n` says that `n` is written `ds`. -/

/-- A repetition count of ten digits that exceeds INT_MAX overflows an `int` in the constructor, whatever follows. -/
theorem C35_count_overflow (so lo dt gl : Option CStr) (mn mx : Int) (ic : Bool) {ds : CStr} {n : Nat} (hn : Numeral 10 ds n)
    (hlen : ds.length = 10) (hbig : (n : Int) > INT_MAX) (rest : CStr) (hroom : 0 ≤ foolproof mn mx) :
    argRexn (δ := δ) so lo (cs "a{" ++ (ds ++ rest)) dt mn mx ic gl
      = .error (.ub "trex_parsenumber: signed overflow") := by
  cases ds with
  | nil => simp at hlen
  | cons c w =>
    have hq := quantifier_ten (p := rest) hn (by simpa using hlen) (s := ⟨'{' :: c :: (w ++ rest),
      [{ type := .expr, right := 0 }, { type := .char 'a', right := -1 }], (w ++ rest).length + 3, 1⟩) rfl
    rw [if_pos hbig] at hq
    have hc := (compile_brace (c := c) (w := w ++ rest) rfl).1 _ hq
    unfold argRexn arrayCells
    dsimp only
    rw [if_neg (by omega), bind_ok]
    show (rexCompile ('a' :: '{' :: c :: (w ++ rest)) >>= _) = _
    rw [hc]
    rfl

/-- A smaller count written with ten digits is refused by the compiler, so that the first argument makes the library
follow a NULL pointer. -/
theorem C35_count_digits {ds rest : CStr} {n : Nat} (hn : Numeral 10 ds n) (hlen : ds.length = 10) (hsmall : (n : Int) ≤ INT_MAX)
    {ic : Bool} {h : Hdr (Obj δ)} {o : StrObj} (hd : RexEntry (cs "a{" ++ (ds ++ rest)) ic h o)
    (hroom : (o.count : Int) < h.maxcount) (a : CStr) :
    give h (some a) = .error (.ub "trex_match: NULL pointer dereference") := by
  refine C35_invalid hd ?_ hroom a
  cases ds with
  | nil => simp at hlen
  | cons c w =>
    have hq := quantifier_ten (p := rest) hn (by simpa using hlen) (s := ⟨'{' :: c :: (w ++ rest),
      [{ type := .expr, right := 0 }, { type := .char 'a', right := -1 }], (w ++ rest).length + 3, 1⟩) rfl
    rw [if_neg (by omega)] at hq
    exact (compile_brace (c := c) (w := w ++ rest) rfl).2 _ hq

/-- A count of at most nine digits is taken modulo 65536; from 32768 to 65535 the constructor then overflows an `int`. -/
theorem C35_count_shift (so lo dt gl : Option CStr) (mn mx : Int) (ic : Bool) {ds : CStr} {n : Nat} (hn : Numeral 10 ds n)
    (hlen : ds.length ≤ 9) (hroom : 0 ≤ foolproof mn mx) :
    (∃ w, argRexn (δ := δ) so lo (cs "a{" ++ (ds ++ cs "}")) dt mn mx ic gl = .error (.ub w)) ↔ n % 65536 ≥ 32768 := by
  have hc : rexCompile (cs "a{" ++ (ds ++ cs "}")) = _ := compile_count hn hlen
  unfold argRexn arrayCells
  dsimp only
  rw [if_neg (by omega), bind_ok, hc]
  by_cases hge : n % 65536 ≥ 32768
  · rw [if_pos hge]
    exact ⟨fun _ => hge, fun _ => ⟨_, rfl⟩⟩
  · rw [if_neg hge]
    refine ⟨fun ⟨w, hw⟩ => ?_, fun h => absurd h hge⟩
    cases hw

/-- Two counts that agree modulo 65536 are the same to an `arg_rex`: `a{65537}` accepts what `a{1}` does. -/
theorem C35_count_modulo {ds ds' : CStr} {n n' : Nat} (hn : Numeral 10 ds n) (hlen : ds.length ≤ 9) (hn' : Numeral 10 ds' n')
    (hlen' : ds'.length ≤ 9) (hmod : n % 65536 = n' % 65536) {ic : Bool} {h h' : Hdr (Obj δ)} {o : StrObj}
    (hd : RexEntry (cs "a{" ++ (ds ++ cs "}")) ic h o) (hd' : RexEntry (cs "a{" ++ (ds' ++ cs "}")) ic h' o)
    (hmax : h.maxcount = h'.maxcount) (a : Option CStr) : give h a = give h' a := by
  rw [give_rex' hd, give_rex' hd']
  have hc : rexCompile (cs "a{" ++ (ds ++ cs "}")) = rexCompile (cs "a{" ++ (ds' ++ cs "}")) :=
    (compile_count hn hlen).trans ((by rw [hmod]) : _ = _) |>.trans (compile_count hn' hlen').symm
  unfold rexScan
  rw [hc, hmax]

example : Numeral 10 (cs "2147483648") 2147483648 ∧ Numeral 10 (cs "65537") 65537 ∧ (65537 % 65536 = 1) :=
  ⟨numeral_toDigits (base := 10) (by decide) (by decide) 2147483648,
    numeral_toDigits (base := 10) (by decide) (by decide) 65537, rfl⟩

/-! ## C54: deterministic patterns decide their language

C53_alternatives and C53_backtracking show that the matcher rejects some texts of the language.  It does not
when the pattern is deterministic (`Re.Det`, Spec/RegexDet.lean). -/

/-- C54.  An entry for a deterministic pattern that does not describe NUL accepts an argument of at most 65535 bytes
if and only if the argument belongs to the language of the pattern.  An accepted argument is stored, a rejected
one is reported and leaves the entry as it was. -/
theorem C54_decides {r : Re} {ic : Bool} {h : Hdr (Obj δ)} {o : StrObj} (hd : RexEntry r.text ic h o)
    (hok : r.Ok) (hfit : r.Compiles) (hsp : r.Spare) (hdet : r.Det ic (fun _ => False))
    (hroom : (o.count : Int) < h.maxcount) {a : CStr} (hlen : a.length ≤ 65535) :
    (r.Accepts ic a → give h (some a) = .ok (.rex ⟨o.count + 1, o.sval.set o.count a⟩, 0)) ∧
    (¬ r.Accepts ic a → give h (some a) = .ok (.rex o, ARG_ERR_REGNOMATCH)) := by
  obtain ⟨nodes, b, hc, hm, hb⟩ := rexMatch_exact hok hfit hsp hdet hlen
  have := rexScan_of hd hroom hc hm
  constructor
  · intro h1
    rw [this, if_pos (hb.2 h1)]
  · intro h1
    rw [this, if_neg fun h2 => h1 (hb.1 h2)]

/-! ## The hypotheses are met -/

namespace Demo

/-- `^[a-z_]\\w*(=[^;]+|:\\d{2,4})?$`. -/
def setting : Re := .branch true
  (.more (.set false (.range (.plain 'a') (.plain 'z')) [.one (.plain '_')]) .once
  (.more (.cls 'w') .star
  (.more (.group true (.alt false (.more (.chr (.plain '=')) .once (.last (.set true (.one (.plain ';')) []) .plus))
    (.branch false (.more (.chr (.plain ':')) .once (.last (.cls 'd') (.between 2 4)))))) .opt
  (.last .eol .once))))

example : setting.text = cs "^[a-z_]\\w*(=[^;]+|:\\d{2,4})?$" := by decide +kernel

example : RangeOk true 'a' 'z' := Or.inr (Or.inl (show (97 ≤ 97 ∧ 97 ≤ 122) ∧ 97 ≤ 122 ∧ 122 ≤ 122 by omega))

theorem setting_ok : setting.Ok := by
  decide +kernel

example : setting.Compiles := by
  decide +kernel

/-- `^\\d{4}-\\d{2}(,[a-z]+|;\\w)*$`. -/
def stamped : Re := .branch true
  (.more (.cls 'd') (.exactly 4)
  (.more (.chr (.plain '-')) .once
  (.more (.cls 'd') (.exactly 2)
  (.more (.group true (.alt false
      (.more (.chr (.plain ',')) .once (.last (.set false (.range (.plain 'a') (.plain 'z')) []) .plus))
      (.branch false (.more (.chr (.plain ';')) .once (.last (.cls 'w') .once))))) .star
  (.last .eol .once)))))

example : stamped.text = cs "^\\d{4}-\\d{2}(,[a-z]+|;\\w)*$" := by decide +kernel

theorem stamped_ok : stamped.Ok := by
  decide +kernel

theorem stamped_fits : stamped.Compiles := by
  decide +kernel

theorem stamped_spare : stamped.Spare := by
  have h1 : ¬ InClass 'd' '\x00' := by show ¬ (48 ≤ 0 ∧ 0 ≤ 57); omega
  have h2 : ¬ InClass 'w' '\x00' := by
    show ¬ ((65 ≤ 0 ∧ 0 ≤ 90) ∨ (97 ≤ 0 ∧ 0 ≤ 122) ∨ (48 ≤ 0 ∧ 0 ≤ 57) ∨ '\x00' = '_')
    decide
  unfold stamped
  simp [Re.Spare, Elems.Spare, Atom.Spare, SetItem.Spare, h1, h2, Lit.char]

theorem stamped_det : stamped.Det false (fun _ => False) := by
  unfold stamped
  simp [Re.Det, Elems.Det, Atom.Det, ElemDet, Atom.First, Re.First, Elems.First, Atom.Eats, Re.Eats, Elems.Eats, Quant.Allows,
    SetItem.Has, Between, SameLetter, Lit.char]
  intro c h1 h2
  constructor <;> rintro rfl <;> revert h1 h2 <;> decide

/-- Entries as in C53_boundary. -/
example : ∃ (h₁ h₂ h₃ : Hdr (Obj Unit)) (o : StrObj), RexEntry (cs "a \\bb") false h₁ o ∧ RexEntry (cs "a\\bb c") false h₂ o ∧
    RexEntry (cs "a \\b") false h₃ o ∧ (o.count : Int) < h₁.maxcount ∧ (o.count : Int) < h₂.maxcount ∧
    (o.count : Int) < h₃.maxcount := by
  have made (r : Re) (hok : r.Ok) : ∃ h : Hdr (Obj Unit), RexEntry r.text false h ⟨0, [[]]⟩ ∧ h.maxcount = 1 := by
    obtain ⟨h, _, h2, h3⟩ := C53_made (δ := Unit) (so := none) (lo := none) (dt := none) (gl := none) (mn := 0) (mx := 1)
      (ic := false) hok (by decide)
    exact ⟨h, h3, h2⟩
  obtain ⟨h₁, a1, b1⟩ := made wordStart (by decide +kernel)
  obtain ⟨h₂, a2, b2⟩ := made insideWord (by decide +kernel)
  obtain ⟨h₃, a3, b3⟩ := made wordAtEnd (by decide +kernel)
  exact ⟨h₁, h₂, h₃, _, a1, a2, a3, by rw [b1]; decide, by rw [b2]; decide, by rw [b3]; decide⟩

/-- The nodes of the compiled pattern. -/
def stampedNodes : List RNode := ((rexCompile stamped.text).toOption.bind id).getD []

/-- An entry made by `arg_rexn(…, "^\\d{4}-\\d{2}(,[a-z]+|;\\w)*$", …, 0, 2, …)`. -/
example : ∃ h : Hdr (Obj Unit), argRexn none none stamped.text none 0 2 false none = .ok h ∧
    give h (some (cs "2024-05,ab;z")) = .ok (.rex ⟨1, [cs "2024-05,ab;z", []]⟩, 0) ∧
    give h (some (cs "2024-5,ab")) = .ok (.rex ⟨0, [[], []]⟩, ARG_ERR_REGNOMATCH) ∧
    stamped.Accepts false (cs "2024-05,ab;z") ∧ ¬ stamped.Accepts false (cs "2024-5,ab") := by
  obtain ⟨h, h1, h2, h3⟩ := C53_made (δ := Unit) (so := none) (lo := none) (dt := none) (gl := none) (mn := 0) (mx := 2)
    (ic := false) stamped_ok (by decide)
  have hc : rexCompile stamped.text = .ok (some stampedNodes) := by decide +kernel
  have hroom : ((0 : Nat) : Int) < h.maxcount := by rw [h2]; decide
  have ha := rexScan_of (b := true) (a := cs "2024-05,ab;z") h3 hroom hc (by decide +kernel)
  have hb := rexScan_of (b := false) (a := cs "2024-5,ab") h3 hroom hc (by decide +kernel)
  refine ⟨h, h1, ha, hb, C53_sound h3 stamped_ok ha, fun h4 => ?_⟩
  have h5 := (C54_decides h3 stamped_ok stamped_fits stamped_spare stamped_det hroom (by decide +kernel)).1 h4
  rw [hb] at h5
  cases h5

end Demo

end Argtable
