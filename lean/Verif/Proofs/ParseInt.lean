import Verif.Model.ParseInt
import Verif.Proofs.GetoptInt
/-!
# The `int` variables of `arg_parse` never overflow (C86)
-/

namespace Argtable

open Spec

variable {σ : Type}

theorem entryInt_end (es : List (Hdr σ)) : entryInt es (es.length : Int) = .ok none := by
  unfold entryInt; rw [if_pos rfl]

theorem entryInt_ok {es : List (Hdr σ)} {k : Nat} {h : Hdr σ} (hk : es[k]? = some h) : entryInt es k = .ok (some h) := by
  have := (List.getElem?_eq_some_iff.1 hk).1
  unfold entryInt
  rw [if_neg (by omega), getInt_ok hk]; rfl

theorem argvPrev_int {i : IntState} {g : GState} (h : SameInts i g) (hm : g.optind ≤ 2147483647) {a : Option CStr} (hr : argvPrev g = .ok a) :
    argvPrevInt i = .ok a := by
  unfold argvPrev at hr
  unfold argvPrevInt
  split at hr
  · cases hr
  · next h0 =>
    have hi : int32 (i.optind - 1) = .ok ((g.optind - 1 : Nat) : Int) := by rw [h.optind]; exact int32_pred (by omega) hm
    rw [hi, bind_ok, h.nargv]
    exact (argvAt_int hr).1

theorem scanEntry_int {t t' : Table σ} {k : Nat} {oa : Option CStr} (hr : scanEntry t k oa = .ok t') :
    scanEntryInt t k oa = .ok t' ∧ t'.entries.length = t.entries.length := by
  unfold scanEntry at hr
  unfold scanEntryInt
  cases hk : t.entries[k]? with
  | none => rw [hk] at hr; cases hr
  | some h =>
    rw [hk] at hr
    rw [getInt_ok hk, bind_ok]
    simp only at hr ⊢
    cases hf : h.scanfn with
    | none => rw [hf] at hr; cases hr; exact ⟨rfl, rfl⟩
    | some f =>
      rw [hf] at hr
      simp only at hr ⊢
      obtain ⟨⟨p, err⟩, e1, hr⟩ := mbind_ok_inv hr
      have hlt := (List.getElem?_eq_some_iff.1 hk).1
      rw [e1, bind_ok]
      simp only at hr ⊢
      rw [setInt_ok hlt, bind_ok]
      split at hr
      · next hne =>
        rw [if_pos hne]
        obtain ⟨e, e2, hr⟩ := mbind_ok_inv hr
        cases hr
        rw [Int.toNat_natCast, e2]
        exact ⟨rfl, List.length_set⟩
      · next hne =>
        rw [if_neg hne]
        cases hr
        exact ⟨rfl, List.length_set⟩

theorem regEnd_length {t t' : Table σ} {e : Int} {a : Option CStr} (h : regEnd t e a = .ok t') : t'.entries.length = t.entries.length := by
  unfold regEnd at h
  obtain ⟨_, _, h⟩ := mbind_ok_inv h
  cases h; rfl

theorem findShort_int {c : Char} {es : List (Hdr σ)} (hl : es.length < 2147483647) : ∀ (fuel k : Nat), k + fuel = es.length + 1 → k ≤ es.length →
    findShortInt c es fuel k = .ok (orMinusOne (findShortoption c (es.drop k) k))
  | 0, k, hf, hk => by omega
  | fuel + 1, k, hf, hk => by
    rw [findShortInt]
    by_cases hkl : k = es.length
    · subst hkl
      rw [entryInt_end, bind_ok, List.drop_length]
      rfl
    · have hlt : k < es.length := by omega
      have ho : es[k]? = some es[k] := List.getElem?_eq_getElem hlt
      rw [entryInt_ok ho, bind_ok, List.drop_eq_getElem_cons hlt]
      have hnext := int32_succ (a := k) (by omega)
      have again := findShort_int (c := c) hl fuel (k + 1) (by omega) (by omega)
      simp only [findShortoption]
      cases es[k].shortopts with
      | none => simp only; rw [hnext, bind_ok]; exact again
      | some so =>
        simp only
        split
        · rfl
        · rw [hnext, bind_ok]; exact again

theorem taggedBody_int {i : IntState} {g : GState} (h : SameInts i g) (hm : g.optind ≤ 2147483647) {copt : Int} {t t' : Table σ}
    (hl : t.entries.length < 2147483647) (hr : taggedBody copt g t = .ok t') :
    taggedBodyInt copt i t = .ok t' ∧ t'.entries.length = t.entries.length := by
  unfold taggedBody at hr
  unfold taggedBodyInt
  by_cases c1 : copt = 0
  · rw [if_pos c1] at hr
    rw [if_pos c1]
    simp only at hr
    cases hk : t.entries[g.getoptval]? with
    | none => rw [hk] at hr; cases hr
    | some e =>
      rw [hk] at hr
      simp only at hr
      rw [h.getoptval, getInt_ok hk, bind_ok, h.optarg]
      by_cases c2 : g.optarg = some [] ∧ e.hasValue = true
      · rw [if_pos c2] at hr
        rw [if_pos c2]
        obtain ⟨a, e2, hr⟩ := mbind_ok_inv hr
        obtain ⟨t1, e3, hr⟩ := mbind_ok_inv hr
        obtain ⟨q1, q2⟩ := scanEntry_int hr
        rw [argvPrev_int h hm e2, bind_ok, e3, bind_ok]
        exact ⟨q1, q2.trans (regEnd_length e3)⟩
      · rw [if_neg c2] at hr
        rw [if_neg c2]
        exact scanEntry_int hr
  · rw [if_neg c1] at hr
    rw [if_neg c1]
    by_cases c2 : copt = 63
    · rw [if_pos c2] at hr
      rw [if_pos c2, h.optopt]
      by_cases c3 : g.optopt = 0
      · rw [if_pos c3] at hr
        rw [if_pos c3]
        obtain ⟨a, e1, hr⟩ := mbind_ok_inv hr
        rw [argvPrev_int h hm e1, bind_ok]
        exact ⟨hr, regEnd_length hr⟩
      · rw [if_neg c3] at hr
        rw [if_neg c3]
        exact ⟨hr, regEnd_length hr⟩
    · rw [if_neg c2] at hr
      rw [if_neg c2]
      by_cases c3 : copt = 58
      · rw [if_pos c3] at hr
        rw [if_pos c3]
        obtain ⟨a, e1, hr⟩ := mbind_ok_inv hr
        rw [argvPrev_int h hm e1, bind_ok]
        exact ⟨hr, regEnd_length hr⟩
      · rw [if_neg c3] at hr
        rw [if_neg c3]
        have e1 := findShort_int (c := intChar copt) hl (t.entries.length + 1) 0 (by omega) (by omega)
        rw [List.drop_zero] at e1
        simp only [Nat.cast_zero] at e1
        rw [e1, bind_ok]
        cases hf : findShortoption (intChar copt) t.entries 0 with
        | none =>
          rw [hf] at hr
          rw [if_pos (show orMinusOne none = -1 from rfl)]
          exact ⟨hr, regEnd_length hr⟩
        | some k =>
          rw [hf] at hr
          rw [if_neg (by simp [orMinusOne]), h.optarg]
          exact scanEntry_int hr

theorem taggedLoop_int {env : Bool} {n : Nat} (h1n : 1 ≤ n) (hn : n < 2147483647) {sopts : CStr} {lopts : List LongOpt}
    (hl : lopts.length ≤ 2147483647) : ∀ (fuel : Nat) (i : IntState) (g : GState) (t : Table σ) (g' : GState) (t' : Table σ), SameInts i g →
      InOrder n g → t.entries.length < 2147483647 → taggedLoop env n sopts lopts fuel g t = .ok (g', t') →
      ∃ i', taggedLoopInt env n sopts lopts fuel i t = .ok (i', t') ∧ SameInts i' g' ∧ InOrder n g' ∧ t'.entries.length = t.entries.length
  | 0, _, _, _, _, _, _, _, _, hr => by cases hr
  | fuel + 1, i, g, t, g', t', h, ho, ht, hr => by
    rw [taggedLoop] at hr
    rw [taggedLoopInt]
    obtain ⟨⟨r, g1⟩, e1, hr⟩ := mbind_ok_inv hr
    obtain ⟨i1, f1, f2, f3, _⟩ := getoptInternal_int (idx := false) (longs := some lopts) h ho h1n hn env hl (.inr (.inl ⟨rfl, rfl, rfl⟩)) e1
    rw [show getoptLongInt env n sopts lopts false i = .ok (r, i1) from f1, bind_ok]
    simp only at hr ⊢
    by_cases hc : r = -1
    · rw [if_pos hc] at hr
      rw [if_pos hc]
      cases hr
      exact ⟨i1, rfl, f2, f3, rfl⟩
    · rw [if_neg hc] at hr
      rw [if_neg hc]
      obtain ⟨t1, e2, hr⟩ := mbind_ok_inv hr
      have := f3.optind
      obtain ⟨q1, q2⟩ := taggedBody_int f2 (by omega) ht e2
      rw [q1, bind_ok]
      obtain ⟨i', u1, u2, u3, u4⟩ := taggedLoop_int h1n hn hl fuel i1 g1 t1 g' t' f2 f3 (by omega) hr
      exact ⟨i', u1, u2, u3, u4.trans q2⟩

theorem fillPass_length {cap sc : Nat} : ∀ {es : List (Hdr σ)} {k : Nat} {opts : List LongOpt} {used : Nat} {r : List LongOpt},
    fillPass cap sc es k opts used = .ok r → r.length < cap
  | [], k, opts, used, r, h => by
    rw [fillPass] at h
    split at h
    · next hlt => cases h; exact hlt
    · cases h
  | e :: es, k, opts, used, r, h => by
    rw [fillPass] at h
    obtain ⟨⟨o1, u1⟩, _, h⟩ := mbind_ok_inv h
    exact fillPass_length h

theorem countLongopts_le : ∀ {s : CStr} {k : Nat}, countLongopts s = .ok k → k ≤ s.length := by
  intro s
  induction hn : s.length using Nat.strong_induction_on generalizing s with
  | _ n ih =>
    intro k h
    cases s with
    | nil => rw [countLongopts] at h; cases h
    | cons d t =>
      rw [countLongopts.eq_def] at h
      simp only at h
      split at h
      · cases h; rw [← hn]; simp
      · next r hr =>
        obtain ⟨m, h1, h⟩ := mbind_ok_inv h
        cases h
        have h2 := strchr_length hr
        simp only [List.length_cons] at hn
        have := ih r.length (by omega) rfl h1
        omega

theorem countPass_le : ∀ {es : List (Hdr σ)} {a b : Nat} {r : Nat × Nat}, countPass es a b = .ok r →
    r.1 ≤ a + (es.map fun h => (h.longopts.getD []).length).sum
  | [], a, b, r, h => by cases h; simp
  | e :: es, a, b, r, h => by
    rw [countPass] at h
    simp only [List.map_cons, List.sum_cons]
    cases he : e.longopts with
    | none =>
      rw [he] at h
      have := countPass_le h
      simp only [Option.getD_none, List.length_nil]
      omega
    | some s =>
      rw [he] at h
      obtain ⟨k, h1, h⟩ := mbind_ok_inv h
      have := countPass_le h
      have := countLongopts_le h1
      simp only [Option.getD_some]
      omega

theorem allocLong_int {es : List (Hdr σ)} (hl : es.length < 2147483647) (hs : (es.map fun h => (h.longopts.getD []).length).sum < 2147483647)
    {lopts : List LongOpt} (h : allocLongoptions es = .ok lopts) : allocLongInt es = .ok lopts ∧ lopts.length < 2147483647 := by
  unfold allocLongoptions at h
  unfold allocLongInt
  obtain ⟨⟨a, b⟩, h1, h⟩ := mbind_ok_inv h
  have h2 := countPass_le h1
  have h3 := fillPass_length h
  simp only at h2 h h3
  rw [h1, bind_ok]
  simp only
  rw [int32_ok (by omega) (by omega), bind_ok, int32_ok (by omega) (by omega), bind_ok]
  exact ⟨h, by omega⟩

theorem restErrors_int {argv : List CStr} {n : Nat} (hn : n < 2147483647) : ∀ (fuel k : Nat) (t : Table σ) (k' : Nat) (t' : Table σ), n - k < fuel →
    restErrors argv n k t = .ok (k', t') → restErrorsInt argv n fuel k t = .ok ((k' : Int), t') ∧ t'.entries.length = t.entries.length
  | 0, _, _, _, _, hf, _ => by omega
  | fuel + 1, k, t, k', t', hf, hr => by
    rw [restErrors] at hr
    rw [restErrorsInt]
    by_cases hk : k < n
    · rw [if_pos hk] at hr
      rw [if_pos (by omega)]
      obtain ⟨a, e1, hr⟩ := mbind_ok_inv hr
      obtain ⟨t1, e2, hr⟩ := mbind_ok_inv hr
      rw [(argvAt_int e1).1, bind_ok, int32_succ (by omega), bind_ok, e2, bind_ok]
      obtain ⟨q1, q2⟩ := restErrors_int hn fuel (k + 1) t1 k' t' (by omega) hr
      exact ⟨q1, q2.trans (regEnd_length e2)⟩
    · rw [if_neg hk] at hr
      rw [if_neg (by omega)]
      cases hr; exact ⟨rfl, rfl⟩

theorem parseUntagged_int {argv : List CStr} {n : Nat} (hn : n < 2147483647) : ∀ (fuel tab k : Nat) (last : Option (Int × CStr × Nat)) (t : Table σ)
    (k' : Nat) (t' : Table σ), (n - k) + (t.entries.length - tab) < fuel → tab ≤ t.entries.length → t.entries.length < 2147483647 → k ≤ n →
    parseUntagged argv n tab k last t = .ok (k', t') →
    parseUntaggedInt argv n fuel tab k (last.map fun (e, a, j) => (e, a, (j : Int))) t = .ok ((k' : Int), t') ∧
      t'.entries.length = t.entries.length
  | 0, _, _, _, _, _, _, hf, _, _, _, _ => by omega
  | fuel + 1, tab, k, last, t, k', t', hf, htab, hl, hk, hr => by
    rw [parseUntagged.eq_def] at hr
    rw [parseUntaggedInt.eq_def]
    simp only
    by_cases c1 : tab < t.entries.length
    · rw [dif_pos c1] at hr
      have ho : t.entries[tab]? = some t.entries[tab] := List.getElem?_eq_getElem c1
      rw [entryInt_ok ho, bind_ok]
      simp only at hr ⊢
      have hnext := int32_succ (a := tab) (by omega)
      by_cases c2 : k ≥ n
      · rw [dif_pos c2] at hr
        rw [if_pos (by omega)]
        cases hr; exact ⟨rfl, rfl⟩
      · rw [dif_neg c2] at hr
        rw [if_neg (by omega)]
        by_cases c3 : t.entries[tab].longopts.isSome = true ∨ t.entries[tab].shortopts.isSome = true
        · rw [if_pos c3] at hr
          rw [if_pos c3, hnext, bind_ok]
          exact parseUntagged_int hn fuel (tab + 1) k last t k' t' (by omega) (by omega) hl hk hr
        · rw [if_neg c3] at hr
          rw [if_neg c3]
          cases hf' : t.entries[tab].scanfn with
          | none =>
            rw [hf'] at hr
            simp only at hr ⊢
            rw [hnext, bind_ok]
            exact parseUntagged_int hn fuel (tab + 1) k last t k' t' (by omega) (by omega) hl hk hr
          | some f =>
            rw [hf'] at hr
            simp only at hr ⊢
            cases ha : argv[k]? with
            | none => rw [ha] at hr; cases hr
            | some a =>
              rw [ha] at hr
              simp only at hr
              rw [getInt_ok ha, bind_ok]
              cases hfa : f t.entries[tab].parent (some a) with
              | error e => rw [hfa] at hr; cases hr
              | ok q =>
                obtain ⟨p, err⟩ := q
                rw [hfa] at hr
                simp only at hr
                rw [bind_ok]
                simp only
                rw [setInt_ok c1, bind_ok]
                by_cases c4 : err = 0
                · rw [if_pos c4] at hr
                  rw [if_pos c4, int32_succ (by omega), bind_ok]
                  obtain ⟨q1, q2⟩ := parseUntagged_int hn fuel tab (k + 1) none _ k' t' (by simp only [List.length_set]; omega) (by simp only [List.length_set]; omega) (by simp only [List.length_set]; omega) (by omega) hr
                  exact ⟨q1, q2.trans List.length_set⟩
                · rw [if_neg c4] at hr
                  rw [if_neg c4, hnext, bind_ok]
                  obtain ⟨q1, q2⟩ := parseUntagged_int hn fuel (tab + 1) k (some (err, a, tab)) _ k' t' (by simp only [List.length_set]; omega) (by simp only [List.length_set]; omega) (by simp only [List.length_set]; omega) hk hr
                  exact ⟨q1, q2.trans List.length_set⟩
    · rw [dif_neg c1] at hr
      obtain rfl : tab = t.entries.length := by omega
      rw [entryInt_end, bind_ok]
      simp only
      cases last with
      | none =>
        simp only [Option.map_none] at hr ⊢
        exact restErrors_int hn _ k t k' t' (by omega) hr
      | some l =>
        obtain ⟨err, a, j⟩ := l
        simp only [Option.map_some] at hr ⊢
        obtain ⟨e, e1, hr⟩ := mbind_ok_inv hr
        rw [Int.toNat_natCast, e1, bind_ok, int32_succ (by omega), bind_ok]
        exact restErrors_int hn _ (k + 1) _ k' t' (by omega) hr

theorem parseCheck_int {es : List (Hdr σ)} (hl : es.length < 2147483647) : ∀ (fuel k : Nat) (e e' : EndTbl), k + fuel = es.length + 1 → k ≤ es.length →
    parseCheck (es.drop k) k e = .ok e' → parseCheckInt es fuel k e = .ok e'
  | 0, k, _, _, hf, hk, _ => by omega
  | fuel + 1, k, e, e', hf, hk, hr => by
    rw [parseCheckInt]
    have hnext := int32_succ (a := k) (by omega)
    by_cases hkl : k = es.length
    · subst hkl
      rw [List.drop_length] at hr
      cases hr
      rw [entryInt_end, bind_ok]
      simp only
      rw [hnext, bind_ok]
    · have hlt : k < es.length := by omega
      have ho : es[k]? = some es[k] := List.getElem?_eq_getElem hlt
      rw [entryInt_ok ho, bind_ok]
      rw [List.drop_eq_getElem_cons hlt, parseCheck] at hr
      simp only
      cases hc : es[k].checkfn with
      | none =>
        rw [hc] at hr
        simp only at hr ⊢
        rw [hnext, bind_ok]
        exact parseCheck_int hl fuel (k + 1) e e' (by omega) (by omega) hr
      | some f =>
        rw [hc] at hr
        simp only at hr ⊢
        by_cases c1 : f es[k].parent ≠ 0
        · rw [if_pos c1] at hr
          rw [if_pos c1]
          obtain ⟨e1, h1, hr⟩ := mbind_ok_inv hr
          rw [Int.toNat_natCast, h1, bind_ok, hnext, bind_ok]
          exact parseCheck_int hl fuel (k + 1) e1 e' (by omega) (by omega) hr
        · rw [if_neg c1] at hr
          rw [if_neg c1, hnext, bind_ok]
          exact parseCheck_int hl fuel (k + 1) e e' (by omega) (by omega) hr

theorem reset_int : ∀ (fuel : Nat) (done es es' : List (Hdr σ)), es.length + 1 = fuel → done.length + es.length < 2147483647 →
    resetEntries es = .ok es' → resetInt fuel done.length (done ++ es) = .ok (done ++ es')
  | 0, _, _, _, hf, _, _ => by omega
  | fuel + 1, done, [], es', hf, hl, hr => by
    cases hr
    rw [resetInt, List.append_nil, entryInt_end, bind_ok]
    simp only
    rw [int32_succ (by simp at hl; omega), bind_ok]
  | fuel + 1, done, h :: es, es', hf, hl, hr => by
    rw [resetEntries] at hr
    rw [resetInt]
    have ho : (done ++ h :: es)[done.length]? = some h := by simp
    rw [entryInt_ok ho, bind_ok]
    simp only
    simp only [List.length_cons] at hf hl
    have hnext := int32_succ (a := done.length) (by omega)
    have again := fun h1 es1 => reset_int fuel (done ++ [h1]) es es1 (by omega) (by simp; omega)
    simp only [List.append_assoc, List.singleton_append, List.length_append, List.length_singleton] at again
    cases hf' : h.resetfn with
    | none =>
      rw [hf'] at hr
      simp only at hr ⊢
      rw [bind_ok] at hr
      obtain ⟨es1, e2, hr⟩ := mbind_ok_inv hr
      cases hr
      rw [hnext, bind_ok]
      exact again h es1 e2
    | some f =>
      rw [hf'] at hr
      simp only at hr ⊢
      obtain ⟨p, e3, hr⟩ := mbind_ok_inv hr
      rw [bind_ok] at hr
      obtain ⟨es1, e2, hr⟩ := mbind_ok_inv hr
      cases hr
      rw [e3, bind_ok, setInt_ok (by simp), bind_ok, hnext, bind_ok]
      rw [show ∀ h1, (done ++ h :: es).set done.length h1 = done ++ h1 :: es from fun h1 => by simp]
      exact again _ es1 e2

theorem resetEntries_longs : ∀ {es es' : List (Hdr σ)}, resetEntries es = .ok es' →
    es'.map (fun h => (h.longopts.getD []).length) = es.map (fun h => (h.longopts.getD []).length)
  | [], es', h => by cases h; rfl
  | e :: es, es', h => by
    rw [resetEntries] at h
    cases hf : e.resetfn with
    | none =>
      rw [hf] at h
      simp only at h
      rw [bind_ok] at h
      obtain ⟨es1, h1, h⟩ := mbind_ok_inv h
      cases h
      rw [List.map_cons, List.map_cons, resetEntries_longs h1]
    | some f =>
      rw [hf] at h
      simp only at h
      obtain ⟨p, _, h⟩ := mbind_ok_inv h
      rw [bind_ok] at h
      obtain ⟨es1, h1, h⟩ := mbind_ok_inv h
      cases h
      rw [List.map_cons, List.map_cons, resetEntries_longs h1]

theorem argParse_int {i : IntState} {g : GState} (h : SameInts i g) {env : Bool} {fuel : Nat} {argv : List CStr} (hargc : argv.length < 2147483647)
    {t : Table σ} (hl : t.entries.length < 2147483647) (hs : (t.entries.map fun h => (h.longopts.getD []).length).sum < 2147483647)
    {r : Nat} {t' : Table σ} {g' : GState} (hr : argParse env fuel argv t g = .ok (r, t', g')) :
    ∃ i', argParseInt env fuel argv t i = .ok (r, t', i') ∧ SameInts i' g' := by
  unfold argParse at hr
  unfold argParseInt
  obtain ⟨t1, h1, hr⟩ := mbind_ok_inv hr
  unfold argReset at h1
  obtain ⟨es, h2, h1⟩ := mbind_ok_inv h1
  have h3 := reset_int (t.entries.length + 1) [] t.entries es rfl (by simpa using hl) h2
  simp only [List.length_nil, Nat.cast_zero, List.nil_append] at h3
  rw [h3, bind_ok]
  have h4 := resetEntries_longs h2
  have h5 : es.length = t.entries.length := by simpa using congrArg List.length h4
  cases h1
  rw [int32_ok (by omega) (by omega), bind_ok]
  simp only at hr ⊢
  by_cases c1 : argv.length = 0
  · rw [if_pos c1] at hr
    rw [if_pos (by omega)]
    obtain ⟨e, h6, hr⟩ := mbind_ok_inv hr
    cases hr
    have h7 := parseCheck_int (es := es) (by omega) (es.length + 1) 0 _ _ (by omega) (by omega) h6
    simp only [Nat.cast_zero] at h7
    rw [h7, bind_ok]
    exact ⟨i, rfl, h⟩
  · rw [if_neg c1] at hr
    rw [if_neg (by omega), int32_ok (by omega) (by omega), bind_ok]
    obtain ⟨⟨g1, t1⟩, h6, hr⟩ := mbind_ok_inv hr
    obtain ⟨⟨k, t2⟩, h7, hr⟩ := mbind_ok_inv hr
    unfold parseTagged at h6
    obtain ⟨lopts, h8, h6⟩ := mbind_ok_inv h6
    obtain ⟨sopts, h9, h6⟩ := mbind_ok_inv h6
    obtain ⟨a1, a2⟩ := allocLong_int (es := es) (by omega) (by rw [h4]; exact hs) h8
    have b1 : SameInts { i with nargv := argv, optind := 0, opterr := 0 } { g with nargv := argv, optind := 0, opterr := false } :=
      ⟨rfl, by simp, h.optopt, h.optreset, h.optarg, h.place, h.nonoptStart, h.nonoptEnd, h.posixly, h.posixlySet, h.getoptval, rfl, h.stderr⟩
    have b2 : InOrder argv.length { g with nargv := argv, optind := 0, opterr := false } :=
      ⟨rfl, Nat.zero_le _, fun _ hh => absurd rfl hh, fun _ hh => absurd rfl hh, fun _ hh => absurd rfl hh⟩
    obtain ⟨i1, d1, d2, d3, d4⟩ := taggedLoop_int (by omega) hargc (by omega) fuel _ _ _ g1 t1 b1 b2 (by dsimp only; omega) h6
    have d5 : parseTaggedInt env fuel argv.length { i with nargv := argv } { entries := es, fin := { t.fin with count := 0 } } = .ok (i1, t1) := by
      unfold parseTaggedInt
      simp only
      rw [a1, bind_ok, h9, bind_ok]
      exact d1
    rw [d5, bind_ok]
    simp only at hr h7 d4 ⊢
    obtain ⟨d6, d8⟩ := parseUntagged_int hargc (argv.length + t1.entries.length + 1) 0 g1.optind none t1 k t2 (by omega) (by omega) (by omega) d3.optind h7
    simp only [Nat.cast_zero, Option.map_none] at d6
    have d9 : parseUntaggedInt i1.nargv (↑argv.length) (argv.length + t1.entries.length + 1) 0 i1.optind none t1 = .ok ((k : Int), t2) := by
      rw [d2.nargv, d2.optind]; exact d6
    rw [d9, bind_ok]
    have d7 : SameInts { i1 with optind := (k : Int) } { g1 with optind := k } :=
      ⟨rfl, d2.opterr, d2.optopt, d2.optreset, d2.optarg, d2.place, d2.nonoptStart, d2.nonoptEnd, d2.posixly, d2.posixlySet, d2.getoptval, d2.nargv, d2.stderr⟩
    by_cases c2 : t2.fin.count = 0
    · rw [if_pos c2] at hr
      simp only
      rw [if_pos c2]
      obtain ⟨e, h10, hr⟩ := mbind_ok_inv hr
      cases hr
      have h11 := parseCheck_int (es := t2.entries) (by omega) (t2.entries.length + 1) 0 _ _ (by omega) (by omega) h10
      simp only [Nat.cast_zero] at h11
      rw [h11, bind_ok]
      exact ⟨_, rfl, d7⟩
    · rw [if_neg c2] at hr
      simp only
      rw [if_neg c2]
      cases hr
      exact ⟨_, rfl, d7⟩

end Argtable
