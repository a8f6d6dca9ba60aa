import Verif.Proofs.Scan
import Verif.Props.Demo
/-!
# Values of entries (C21-C23, C25-C27)
-/

namespace Argtable

open Spec

variable {δ : Type} {lc : Libc δ} {R : CStr → Prop}

/-! ## C21-C23: integers -/

/-- C21.  An `arg_int` that has room left, given a text denoting the integer `n`: if `n` fits an `int` it is
stored, exactly, and otherwise the argument is reported as an overflow. -/
theorem C21_read {h : Hdr (Obj δ)} {o : IntObj} (hl : Live lc R h) (hp : h.parent = .int o)
    (hroom : (o.count : Int) < h.maxcount) {s : CStr} {n : Int} (hs : IntText s n) :
    give h (some s) = if FitsInt n then .ok (.int ⟨o.count + 1, o.ival.set o.count (some n)⟩, 0)
      else .ok (.int o, ARG_ERR_OVERFLOW) := by
  obtain ⟨hlen, hg⟩ := give_int hl hp
  obtain ⟨-, h2, -⟩ := intScan_full hroom hlen s
  obtain ⟨h3, h4⟩ := h2 (intText_notDouble hs) n (.plain s n hs)
  rw [hg]
  split
  · rename_i hf; rw [h3 hf]; rfl
  · rename_i hf; rw [h4 hf]; rfl

/-- C21.  Every integer has a spelling in each of the four notations: an optional sign, the prefix, and the
digits. -/
theorem C21_spelling {pre : CStr} {base : Nat} (hr : Radix pre base) (n : Int) :
    IntText ((if n < 0 then cs "-" else []) ++ pre ++ Nat.toDigits base n.natAbs) n := by
  have hw : White [] := by intro c hc; cases hc
  have h2 : 2 ≤ base := by cases hr <;> decide
  have hn := numeral_toDigits h2 (radix_base hr).1 n.natAbs
  by_cases hneg : n < 0
  · have := IntText.mk [] (cs "-") pre _ [] [] (-1) base n.natAbs 1 hw .minus hr hn .none hw
    have e : -1 * (n.natAbs : Int) * 1 = n := by omega
    rw [e] at this
    rw [if_pos hneg]
    simpa using this
  · have := IntText.mk [] [] pre _ [] [] 1 base n.natAbs 1 hw .none hr hn .none hw
    have e : 1 * (n.natAbs : Int) * 1 = n := by omega
    rw [e] at this
    rw [if_neg hneg]
    simpa using this

/-- What that spelling is, for two numbers. -/
example : (if (-255 : Int) < 0 then cs "-" else []) ++ cs "0x" ++ Nat.toDigits 16 (-255 : Int).natAbs = cs "-0xff" ∧
    Nat.toDigits 10 2147483647 = cs "2147483647" := by with_unfolding_all decide +kernel

/-- ` 12 kB ` denotes nothing, ` 12kB ` denotes 12288. -/
example : IntText (cs " 12kB ") 12288 :=
  IntText.mk (cs " ") [] [] (cs "12") (cs "kB") (cs " ") 1 10 12 (2 ^ 10) (by decide) .none .dec
    (.snoc ['1'] 1 '2' 2 (.one '1' 1 (Or.inl rfl) (by decide)) (Or.inl rfl) (by decide))
    (.kb _ (by decide)) (by decide)

/-- C22.  What an `arg_int` accepts and what it then stores: exactly the texts of `LooseText` whose value fits
an `int`, and that value. -/
theorem C22_exact {h : Hdr (Obj δ)} {o : IntObj} (hl : Live lc R h) (hp : h.parent = .int o)
    (hroom : (o.count : Int) < h.maxcount) (s : CStr) (p : Obj δ) :
    give h (some s) = .ok (p, 0) ↔
      ∃ n, LooseText s n ∧ FitsInt n ∧ p = .int ⟨o.count + 1, o.ival.set o.count (some n)⟩ := by
  obtain ⟨hlen, hg⟩ := give_int hl hp
  obtain ⟨h1, h2, h3⟩ := intScan_full hroom hlen s
  rw [hg]
  constructor
  · intro h
    by_cases hd : DoubleMinus s
    · rw [h1 hd] at h; cases h
    · by_cases hn : ∃ n, LooseText s n
      · obtain ⟨n, hn⟩ := hn
        obtain ⟨h4, h5⟩ := h2 hd n hn
        by_cases hf : FitsInt n
        · rw [h4 hf] at h
          cases h
          exact ⟨n, hn, hf, rfl⟩
        · rw [h5 hf] at h
          exact absurd (congrArg Prod.snd (Except.ok.inj h)) (by change ¬ (4 : Int) = 0; decide)
      · rw [h3 hd fun n h => hn ⟨n, h⟩] at h
        exact absurd (congrArg Prod.snd (Except.ok.inj h)) (by change ¬ (3 : Int) = 0; decide)
  · rintro ⟨n, h4, h5, rfl⟩
    by_cases hd : DoubleMinus s
    · exfalso
      obtain ⟨sf, w, k, N, base, i1, i2, i3, rfl⟩ := looseText_head h4
      have hk : 1 ≤ k := by cases i2 <;> decide
      rcases intConvert_of i1 (suffix_stop i2 i3) with ⟨v, hv, -⟩ | ⟨-, -, hN⟩
      · rw [intConvert_doubleMinus hd] at hv; cases hv
      · have : N * 1 ≤ N * k := Int.mul_le_mul_of_nonneg_left hk (by omega)
        unfold FitsInt at h5
        omega
    · rw [(h2 hd n h4).1 h5]; rfl

/-- C22, for texts in which a prefix is directly followed by the digits: an accepted text denotes an integer
that fits an `int`, and that integer is stored.  Without the condition the property does not hold
(`C22_sign_after_prefix`); `C22_exact` says what is accepted then. -/
theorem C22_partial {h : Hdr (Obj δ)} {o : IntObj} (hl : Live lc R h) (hp : h.parent = .int o)
    (hroom : (o.count : Int) < h.maxcount) (s : CStr) (ht : Tidy s) (p : Obj δ) (ha : give h (some s) = .ok (p, 0)) :
    ∃ n, IntText s n ∧ FitsInt n ∧ p = .int ⟨o.count + 1, o.ival.set o.count (some n)⟩ := by
  obtain ⟨n, h1, h2, h3⟩ := (C22_exact hl hp hroom s p).1 ha
  exact ⟨n, looseText_tidy h1 ht, h2, h3⟩

/-- C22.  Any other text is rejected as "not an integer", or as an overflow, and changes nothing. -/
theorem C22_rejected {h : Hdr (Obj δ)} {o : IntObj} (hl : Live lc R h) (hp : h.parent = .int o)
    (hroom : (o.count : Int) < h.maxcount) (s : CStr) (hd : ¬ DoubleMinus s) :
    ((∀ n, ¬ LooseText s n) → give h (some s) = .ok (.int o, ARG_ERR_BADINT)) ∧
    (∀ n, LooseText s n → ¬ FitsInt n → give h (some s) = .ok (.int o, ARG_ERR_OVERFLOW)) := by
  obtain ⟨hlen, hg⟩ := give_int hl hp
  obtain ⟨-, h2, h3⟩ := intScan_full hroom hlen s
  rw [hg]
  refine ⟨fun h => by rw [h3 hd h]; rfl, fun n h hf => by rw [(h2 hd n h).2 hf]; rfl⟩

/-- The property as stated is false: `0x-5` is accepted as -5, although it denotes no integer. -/
theorem C22_sign_after_prefix : give Demo.n (some (cs "0x-5")) = .ok (.int ⟨1, [some (-5), none]⟩, 0) ∧
    ∀ n, ¬ IntText (cs "0x-5") n := by
  refine ⟨by with_unfolding_all rfl, ?_⟩
  intro n h
  have hd : ¬ DoubleMinus (cs "0x-5") := notDouble_of_oneMinus (by decide)
  generalize hs : cs "0x-5" = s at h
  cases h with
  | mk w sg pre ds sf w' sign base m k hw hsg hr hn hsf hw' =>
    obtain ⟨n1, n2, -⟩ := numeral_all hn (radix_base hr).1
    have hs : ['0', 'x', '-', '5'] = w ++ (sg ++ (pre ++ (ds ++ (sf ++ w')))) := by rw [← List.append_assoc, ← List.append_assoc, ← List.append_assoc, ← List.append_assoc, ← hs]; rfl
    have hw0 : w = [] := by
      cases w with
      | nil => rfl
      | cons c w => cases (List.cons.inj hs).1; exact absurd (hw '0' (by simp)) (by decide)
    subst hw0
    have hsg0 : sg = [] := by
      cases hsg with
      | none => rfl
      | plus => exact absurd (List.cons.inj hs).1 (by decide)
      | minus => exact absurd (List.cons.inj hs).1 (by decide)
    subst hsg0
    cases ds with
    | nil => exact n1 rfl
    | cons c ds =>
      have hc := n2 c (by simp)
      cases hr with
      | dec =>
        have hst := suffix_stop hsf hw'
        obtain ⟨-, hs⟩ := List.cons.inj hs
        cases ds with
        | cons d ds =>
          have hd := (List.cons.inj hs).1
          subst hd
          exact absurd (n2 'x' (by simp)) (by decide)
        | nil =>
          have := hst 'x' ['-', '5'] hs.symm
          exact absurd this (by decide)
      | hex x hx =>
        obtain ⟨-, hs⟩ := List.cons.inj hs
        obtain ⟨-, hs⟩ := List.cons.inj hs
        have hd := (List.cons.inj hs).1
        subst hd
        exact absurd hc (by decide)
      | oct x hx =>
        obtain ⟨-, hs⟩ := List.cons.inj hs
        obtain ⟨rfl, hs⟩ := List.cons.inj hs
        exact absurd hx (by decide)
      | bin x hx =>
        obtain ⟨-, hs⟩ := List.cons.inj hs
        obtain ⟨rfl, hs⟩ := List.cons.inj hs
        exact absurd hx (by decide)

/-- C23.  Scanning an integer has undefined behaviour exactly for texts with a minus sign before and one
after a prefix, and a number of at least 2^63. -/
theorem C23_exact {h : Hdr (Obj δ)} {o : IntObj} (hl : Live lc R h) (hp : h.parent = .int o)
    (hroom : (o.count : Int) < h.maxcount) (s : CStr) :
    (∃ e, give h (some s) = .error e) ↔ DoubleMinus s := by
  obtain ⟨hlen, hg⟩ := give_int hl hp
  obtain ⟨h1, h2, h3⟩ := intScan_full hroom hlen s
  rw [hg]
  constructor
  · rintro ⟨e, h⟩
    by_contra hd
    by_cases hn : ∃ n, LooseText s n
    · obtain ⟨n, hn⟩ := hn
      obtain ⟨h4, h5⟩ := h2 hd n hn
      by_cases hf : FitsInt n
      · rw [h4 hf] at h; cases h
      · rw [h5 hf] at h; cases h
    · rw [h3 hd fun n h => hn ⟨n, h⟩] at h; cases h
  · intro hd
    exact ⟨_, by rw [h1 hd]; rfl⟩

/-- C23, for texts with at most one minus sign: no signed overflow, whatever the text and the state. -/
theorem C23_partial {h : Hdr (Obj δ)} {o : IntObj} (hl : Live lc R h) (hp : h.parent = .int o)
    (hroom : (o.count : Int) < h.maxcount) (s : CStr) (hs : s.count '-' ≤ 1) : ∃ q, give h (some s) = .ok q := by
  cases hg : give h (some s) with
  | ok q => exact ⟨q, rfl⟩
  | error e => exact absurd ((C23_exact hl hp hroom s).1 ⟨e, hg⟩) (notDouble_of_oneMinus hs)

/-- The property as stated is false. -/
theorem C23_negates_long_min : DoubleMinus (cs "-0x-8000000000000000") ∧
    give Demo.n (some (cs "-0x-8000000000000000")) = .error (.ub "strtol0X: signed overflow in s * val") := by
  refine ⟨?_, by with_unfolding_all rfl⟩
  have hn := numeral_of (base := 16) (by decide) (cs "8000000000000000") (by decide) (by decide)
  exact DoubleMinus.mk [] (cs "0x") (cs "-") (cs "8000000000000000") [] 16 _ (by decide) (.hex 'x' (Or.inl rfl))
    (by decide) (Inner.mk [] ['-'] [] (-1) (by decide) .minus (Or.inl rfl)) hn (by decide)

/-- The demonstration entry `-n` and a text meet the hypotheses. -/
example : Live Demo.lc GoodPat Demo.n ∧ Demo.n.parent = .int ⟨0, [none, none]⟩ ∧
    ((0 : Nat) : Int) < Demo.n.maxcount ∧ Tidy (cs "+0x1F") ∧
    give Demo.n (some (cs "+0x1F")) = .ok (.int ⟨1, [some 31, none]⟩, 0) := by
  refine ⟨Demo.live _ _ (by simp [Demo.entries]), rfl, by decide, ?_, by with_unfolding_all rfl⟩
  intro a x r h hx
  change ['+', '0', 'x', '1', 'F'] = _ at h
  match a, h with
  | [], h => exact absurd (List.cons.inj h).1 (by decide)
  | [c], h =>
    obtain ⟨-, h⟩ := List.cons.inj h
    obtain ⟨-, h⟩ := List.cons.inj h
    have hx := (List.cons.inj h).1
    have hr := (List.cons.inj h).2
    exact ⟨⟨'1', ['F'], 1, hr.symm, Or.inl rfl⟩, fun t => ⟨by rw [← hr]; simp, by rw [← hr]; simp⟩⟩
  | [c, d], h =>
    obtain ⟨-, h⟩ := List.cons.inj h
    obtain ⟨-, h⟩ := List.cons.inj h
    exact absurd (List.cons.inj h).1 (by decide)
  | [c, d, e], h =>
    obtain ⟨-, h⟩ := List.cons.inj h
    obtain ⟨-, h⟩ := List.cons.inj h
    obtain ⟨-, h⟩ := List.cons.inj h
    exact absurd (List.cons.inj h).1 (by decide)
  | [c, d, e, f], h =>
    obtain ⟨-, h⟩ := List.cons.inj h
    obtain ⟨-, h⟩ := List.cons.inj h
    obtain ⟨-, h⟩ := List.cons.inj h
    obtain ⟨-, h⟩ := List.cons.inj h
    exact absurd (List.cons.inj h).1 (by decide)
  | c :: d :: e :: f :: g :: a, h =>
    have := congrArg List.length h
    simp at this

/-! ## C25: doubles -/

/-- C25.  An `arg_dbl` with room left accepts a text iff `strtod` reads all of it, and stores `strtod`'s
value; otherwise it reports a bad double and keeps its values. -/
theorem C25_strtod {h : Hdr (Obj δ)} {o : DblObj δ} (hl : Live lc R h) (hp : h.parent = .dbl o)
    (hroom : (o.count : Int) < h.maxcount) (s : CStr) :
    give h (some s) = if (lc.strtod s).2 = [] then
        .ok (.dbl ⟨o.count + 1, o.dval.set o.count (some (lc.strtod s).1)⟩, 0)
      else .ok (.dbl o, ARG_ERR_BADDOUBLE) := by
  obtain ⟨hlen, hg⟩ := give_dbl hl hp
  rw [hg]
  unfold dblScan
  rw [if_neg (by omega)]
  dsimp only
  split
  · rw [storeAt_ok (by omega)]; rfl
  · rfl

/-- C25.  In particular the empty text is accepted whenever `strtod("")` reads nothing (as it must): the
stored value is whatever `strtod` returns for no conversion, that is 0. -/
theorem C25_empty {h : Hdr (Obj δ)} {o : DblObj δ} (hl : Live lc R h) (hp : h.parent = .dbl o)
    (hroom : (o.count : Int) < h.maxcount) (hs : (lc.strtod []).2 = []) :
    give h (some []) = .ok (.dbl ⟨o.count + 1, o.dval.set o.count (some (lc.strtod []).1)⟩, 0) := by
  rw [C25_strtod hl hp hroom, if_pos hs]

/-- An entry made by `arg_dbln`, for a C library whose `strtod` reads the digits of a decimal number. -/
example : ∃ h, argDbln (δ := Nat) ⟨fun s => (digitsVal 10 (s.takeWhile isDigit), s.dropWhile isDigit), fun f _ => f⟩ 4
      (some (cs "d")) none none 1 2 none = .ok h ∧ h.parent = .dbl ⟨0, [none, none]⟩ ∧ h.maxcount = 2 ∧
    give h (some (cs "42")) = .ok (.dbl ⟨1, [some 42, none]⟩, 0) ∧
    give h (some (cs "4x")) = .ok (.dbl ⟨0, [none, none]⟩, ARG_ERR_BADDOUBLE) :=
  ⟨_, rfl, rfl, rfl, by with_unfolding_all rfl, by with_unfolding_all rfl⟩

/-! ## C26: strings -/

/-- C26.  An `arg_str` stores the arguments it is given verbatim and in order; those that exceed `maxcount`
are rejected and change nothing. -/
theorem C26_verbatim {h : Hdr (Obj δ)} {o : StrObj} (hl : Live lc R h) (hp : h.parent = .str o) (as : List CStr) :
    let room := h.maxcount.toNat - o.count
    giveAll h as = .ok
      (.str ⟨o.count + (as.take room).length, o.sval.take o.count ++ as.take room ++ o.sval.drop (o.count + (as.take room).length)⟩,
       (as.take room).map (fun _ => 0) ++ (as.drop room).map (fun _ => ARG_ERR_MAXCOUNT)) := by
  obtain ⟨hlen, hc, hg⟩ := give_str hl hp
  have hh : h = { h with parent := .str o } := by rw [← hp]
  rw [hh]
  dsimp only
  clear hh hp hl
  induction as generalizing o with
  | nil => simp [giveAll]
  | cons a as ih =>
    rw [giveAll, hg]
    unfold strScan
    by_cases hfull : (o.count : Int) = h.maxcount
    · rw [if_pos hfull]
      have hr : h.maxcount.toNat - o.count = 0 := by omega
      have := ih hlen hc
      rw [hr] at this ⊢
      rw [bind_ok, bind_ok]
      dsimp only
      rw [this, bind_ok]
      simp
    · rw [if_neg hfull]
      dsimp only
      rw [storeAt_ok (by omega), bind_ok, bind_ok, bind_ok]
      have hr : h.maxcount.toNat - o.count = (h.maxcount.toNat - (o.count + 1)) + 1 := by omega
      have := ih (o := ⟨o.count + 1, o.sval.set o.count a⟩) (by simpa using hlen) (by dsimp only; omega)
      dsimp only at this ⊢
      rw [this, bind_ok, hr]
      have hlt : o.count < o.sval.length := by omega
      have e1 : (o.sval.set o.count a).take (o.count + 1) = o.sval.take o.count ++ [a] := by
        rw [List.take_set, List.take_add_one, List.getElem?_eq_getElem hlt]
        rw [List.set_append_right _ _ (by simp)]
        simp [Nat.min_eq_left hlt.le]
      have e2 : ∀ k, (o.sval.set o.count a).drop (o.count + 1 + k) = o.sval.drop (o.count + 1 + k) := by
        intro k
        rw [List.drop_set]
        simp
        omega
      rw [e1, e2]
      simp only [List.take_succ_cons, List.drop_succ_cons, List.length_cons, List.map_cons, List.cons_append]
      have e3 : ∀ k, o.count + 1 + k = o.count + (k + 1) := by intro k; omega
      rw [e3]
      simp

/-- Three arguments for an entry with room for two. -/
example : ∃ h, argStrn (δ := Unit) (some (cs "s")) none none 0 2 none = .ok h ∧
    giveAll h [cs "x", cs "", cs "z"] = .ok (.str ⟨2, [cs "x", cs ""]⟩, [0, 0, ARG_ERR_MAXCOUNT]) :=
  ⟨_, rfl, rfl⟩

/-! ## C27: file names -/

/-- C27.  An `arg_file` with room left stores the file name verbatim, with its base name and extension. -/
theorem C27_file {h : Hdr (Obj δ)} {o : FileObj} (hl : Live lc R h) (hp : h.parent = .file o)
    (hroom : (o.count : Int) < h.maxcount) (s : CStr) : ∃ b e, BaseName s b ∧ ExtName b e ∧
    give h (some s) = .ok (.file ⟨o.count + 1, o.filename.set o.count s, o.basename.set o.count b,
      o.extension.set o.count e⟩, 0) := by
  obtain ⟨l1, l2, l3, hg⟩ := give_file hl hp
  refine ⟨argBasename s, argExtension (argBasename s), argBasename_spec s, argExtension_spec _, ?_⟩
  rw [hg]
  unfold fileScan
  rw [if_neg (by omega)]
  dsimp only
  rw [storeAt_ok (by omega), bind_ok, storeAt_ok (by omega), bind_ok, storeAt_ok (by omega), bind_ok]
  rfl

/-- C27.  Base name and extension are determined by the file name. -/
theorem C27_unique {f b b' e e' : CStr} : (BaseName f b → BaseName f b' → b = b') ∧
    (ExtName b e → ExtName b e' → e = e') := ⟨baseName_unique, extName_unique⟩

example : BaseName (cs "/etc/rc.d/boot.tar.gz") (cs "boot.tar.gz") ∧ ExtName (cs "boot.tar.gz") (cs ".gz") ∧
    BaseName (cs "a/..") [] ∧ BaseName (cs "dir/") [] :=
  ⟨.part _ (.after (cs "/etc/rc.d") (cs "boot.tar.gz") rfl (by decide)) (by decide) (by decide),
   .ext (cs "boot.tar") (cs "gz") rfl (by decide) (by decide) (by decide),
   .dots (cs "..") (.after (cs "a") _ rfl (by decide)) (Or.inr rfl),
   .part _ (.after (cs "dir") [] rfl (by decide)) (by decide) (by decide)⟩

end Argtable
