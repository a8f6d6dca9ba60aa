import Verif.Spec.Ints
import Verif.Proofs.GetoptPtr
import Verif.Proofs.Decode
/-!
# The `int` variables of getopt never overflow (C86)
-/

namespace Argtable

open Spec

theorem int32_ok {x : Int} (h1 : -2147483648 ≤ x) (h2 : x ≤ 2147483647) : int32 x = .ok x := by
  unfold int32; rw [if_pos ⟨h1, h2⟩]

theorem int32_add {a b : Nat} (h : a + b ≤ 2147483647) : int32 ((a : Int) + b) = .ok ((a + b : Nat) : Int) := by
  rw [int32_ok (by omega) (by omega)]; rfl

theorem int32_succ {a : Nat} (h : a < 2147483647) : int32 ((a : Int) + 1) = .ok ((a + 1 : Nat) : Int) := by
  rw [int32_ok (by omega) (by omega)]; rfl

theorem int32_sub {a b : Nat} (h : b ≤ a) (ha : a ≤ 2147483647) : int32 ((a : Int) - b) = .ok ((a - b : Nat) : Int) := by
  rw [int32_ok (by omega) (by omega)]; congr 1; omega

theorem int32_pred {a : Nat} (h : 1 ≤ a) (ha : a ≤ 2147483647) : int32 ((a : Int) - 1) = .ok ((a - 1 : Nat) : Int) := by
  rw [int32_ok (by omega) (by omega)]; congr 1; omega

theorem remInt_ok {a b : Nat} (hb : b ≠ 0) : remInt a b = .ok ((a % b : Nat) : Int) := by
  unfold remInt
  rw [if_neg (by omega), if_neg (by omega)]
  rfl

theorem gcdRounds_ok : ∀ (fuel a b g : Nat), b ≠ 0 → b ≤ fuel → gcdLoop a b = .ok g →
    gcdRounds (fuel + 1) a b ((a % b : Nat) : Int) = .ok (g : Int)
  | fuel, a, b, g, hb, hf, h => by
    rw [gcdLoop, dif_neg hb] at h
    rw [gcdRounds]
    by_cases hc : a % b = 0
    · rw [if_pos hc] at h; cases h
      rw [if_pos (by omega)]
    · rw [if_neg hc] at h
      rw [if_neg (by omega), remInt_ok hc, bind_ok]
      have hlt : a % b < b := Nat.mod_lt _ (Nat.pos_of_ne_zero hb)
      obtain ⟨k, rfl⟩ : ∃ k, fuel = k + 1 := ⟨fuel - 1, by omega⟩
      exact gcdRounds_ok k b (a % b) g hc (by omega) h

theorem gcdLoop_pos {a b g : Nat} (h : gcdLoop a b = .ok g) : b ≠ 0 := by
  rintro rfl
  rw [gcdLoop, dif_pos rfl] at h; cases h

theorem gcdLoop_le : ∀ (b a g : Nat), gcdLoop a b = .ok g → 0 < g ∧ g ≤ b := by
  intro b
  induction b using Nat.strong_induction_on with
  | _ b ih =>
    intro a g h
    have hb := gcdLoop_pos h
    rw [gcdLoop, dif_neg hb] at h
    by_cases hc : a % b = 0
    · rw [if_pos hc] at h; cases h; omega
    · rw [if_neg hc] at h
      have hlt : a % b < b := Nat.mod_lt _ (Nat.pos_of_ne_zero hb)
      have := ih _ hlt _ _ h
      omega

theorem gcdInt_ok {a b g : Nat} (h : gcdLoop a b = .ok g) : gcdInt a b = .ok (g : Int) := by
  have hb := gcdLoop_pos h
  rw [gcdInt, remInt_ok hb, bind_ok]
  exact gcdRounds_ok b a b g hb (Nat.le_refl _) h

theorem getInt_ok {α : Type} {v : List α} {i : Nat} {x : α} (h : v[i]? = some x) : getInt v i = .ok x := by
  unfold getInt
  rw [if_pos (by omega)]
  simp [h]

theorem setInt_ok {α : Type} {v : List α} {i : Nat} (h : i < v.length) (x : α) : setInt v i x = .ok (v.set i x) := by
  unfold setInt
  rw [if_pos ⟨by omega, by omega⟩]
  simp

theorem swapAt_inv {α : Type} {v w : List α} {i j : Nat} (h : swapAt v i j = .ok w) :
    ∃ x y, v[i]? = some x ∧ v[j]? = some y ∧ w = (v.set i y).set j x := by
  unfold swapAt at h
  cases hi : v[i]? with
  | none => rw [hi] at h; cases h
  | some x =>
    cases hj : v[j]? with
    | none => rw [hi, hj] at h; cases h
    | some y => rw [hi, hj] at h; cases h; exact ⟨x, y, rfl, rfl, rfl⟩

theorem permInner_int {α : Type} {st e o c : Nat} (h1 : st ≤ e) (h2 : e ≤ o) (ho : o ≤ 2147483647) :
    ∀ (k j pos : Nat) (v w : List α), pos < o → permInner e (e - st) (o - e) c k pos v = .ok w →
      permInnerInt e ((e - st : Nat) : Int) ((o - e : Nat) : Int) c ((j + k : Nat) : Int) j pos v = .ok w
  | 0, j, pos, v, w, _, h => by
    rw [permInner] at h; cases h
    rw [permInnerInt, if_neg (by omega)]
  | k + 1, j, pos, v, w, hp, h => by
    rw [permInner] at h
    obtain ⟨v', hs, h⟩ := mbind_ok_inv h
    obtain ⟨x, y, hx, hy, rfl⟩ := swapAt_inv hs
    rw [permInnerInt, if_pos (by omega)]
    have hstep : int32 (if (pos : Int) ≥ (e : Int) then (pos : Int) - ((e - st : Nat) : Int)
        else (pos : Int) + ((o - e : Nat) : Int)) =
        .ok (((if pos ≥ e then pos - (e - st) else pos + (o - e) : Nat)) : Int) := by
      by_cases hc : pos ≥ e
      · rw [if_pos (by omega), if_pos hc, int32_sub (by omega) (by omega)]
      · rw [if_neg (by omega), if_neg hc, int32_add (by omega)]
    rw [hstep, bind_ok, getInt_ok hx, bind_ok, getInt_ok hy, bind_ok,
      setInt_ok (List.getElem?_eq_some_iff.1 hx).1, bind_ok,
      setInt_ok (by rw [List.length_set]; exact (List.getElem?_eq_some_iff.1 hy).1), bind_ok]
    have hp' : (if pos ≥ e then pos - (e - st) else pos + (o - e)) < o := by split <;> omega
    have := permInner_int h1 h2 ho k (j + 1) _ _ w hp' h
    rw [show j + 1 + k = j + (k + 1) by omega] at this
    exact this

theorem permOuter_int {α : Type} {st e o cl : Nat} (h1 : st ≤ e) (h2 : e ≤ o) (ho : o ≤ 2147483647) :
    ∀ (k i : Nat) (v w : List α), e + i + k ≤ o → permOuter e (e - st) (o - e) cl k i v = .ok w →
      permOuterInt e ((e - st : Nat) : Int) ((o - e : Nat) : Int) cl ((i + k : Nat) : Int) i v = .ok w
  | 0, i, v, w, _, h => by
    rw [permOuter] at h; cases h
    rw [permOuterInt, if_neg (by omega)]
  | k + 1, i, v, w, hi, h => by
    rw [permOuter] at h
    obtain ⟨v', hs, h⟩ := mbind_ok_inv h
    rw [permOuterInt, if_pos (by omega), int32_add (by omega), bind_ok]
    have := permInner_int (c := e + i) h1 h2 ho cl 0 (e + i) v v' (by omega) hs
    rw [Nat.zero_add] at this
    rw [show (((0 : Nat) : Int)) = 0 from rfl] at this
    rw [this, bind_ok]
    have := permOuter_int h1 h2 ho k (i + 1) v' w (by omega) h
    rw [show i + 1 + k = i + (k + 1) by omega] at this
    exact this

/-- `permute_args` with `int` variables. -/
theorem permuteArgs_int {α : Type} {b e o : Nat} (h1 : b ≤ e) (h2 : e ≤ o) (ho : o ≤ 2147483647) {v w : List α}
    (h : permuteArgs b e o v = .ok w) : permuteArgsInt b e o v = .ok w := by
  rw [permuteArgs] at h
  simp only at h
  obtain ⟨g, hg, h⟩ := mbind_ok_inv h
  obtain ⟨hg0, hgle⟩ := gcdLoop_le _ _ _ hg
  rw [permuteArgsInt, int32_sub h1 (by omega), bind_ok, int32_sub h2 ho, bind_ok, gcdInt_ok hg, bind_ok,
    int32_sub (by omega) ho, bind_ok]
  have hd : divInt ((o - b : Nat) : Int) (g : Int) = .ok (((o - b) / g : Nat) : Int) := by
    unfold divInt
    rw [if_neg (by omega)]
    have : ((o - b : Nat) : Int).tdiv (g : Int) = (((o - b) / g : Nat) : Int) := rfl
    have hle : (o - b) / g ≤ o - b := Nat.div_le_self ..
    rw [this]
    generalize (o - b) / g = q at hle ⊢
    rw [int32_ok (by omega) (by omega)]
  rw [hd, bind_ok]
  have := permOuter_int h1 h2 ho g 0 v w (by omega) h
  rw [Nat.zero_add] at this
  exact this

/-- `InOrder` without the exception for a program that starts again. -/
structure Arranged (n : Nat) (g : GState) : Prop where
  length : g.nargv.length = n
  optind : g.optind ≤ n
  start : ∀ b, g.nonoptStart = some b → b ≤ g.optind
  fin : ∀ e, g.nonoptEnd = some e → e ≤ g.optind ∧ ∃ b, g.nonoptStart = some b ∧ b ≤ e

theorem Arranged.inOrder {n : Nat} {g : GState} (h : Arranged n g) (hp : g.place ≠ [] → g.optind < n) : InOrder n g :=
  ⟨h.length, h.optind, fun _ _ => hp, fun _ _ => h.start, fun _ _ => h.fin⟩

theorem orMinusOne_none {o : Option Nat} : orMinusOne o = -1 ↔ o = none := by
  cases o with
  | none => simp [orMinusOne]
  | some n => simp [orMinusOne]

theorem moveBack_int {i : IntState} {g : GState} (h : SameInts i g) {n : Nat} (ha : Arranged n g) (hn : n ≤ 2147483647) {b e : Nat}
    (hb : g.nonoptStart = some b) (he : g.nonoptEnd = some e) :
    moveBack i = .ok ((g.optind - (e - b) : Nat) : Int) := by
  obtain ⟨h1, b', hb', h2⟩ := ha.fin e he
  rw [hb] at hb'; cases hb'
  have := ha.optind
  rw [moveBack, h.nonoptEnd, h.nonoptStart, h.optind, hb, he]
  show (int32 ((e : Int) - (b : Int)) >>= _) = _
  rw [int32_sub h2 (by omega), bind_ok, int32_sub (by omega) (by omega)]

theorem permute_same {i : IntState} {g : GState} (h : SameInts i g) {n : Nat} (ha : Arranged n g) (hn : n ≤ 2147483647) {b e : Nat}
    (hb : g.nonoptStart = some b) (he : g.nonoptEnd = some e) {w : List CStr} (hw : permuteArgs b e g.optind g.nargv = .ok w) :
    permuteArgsInt i.nonoptStart i.nonoptEnd i.optind i.nargv = .ok w ∧ w.length = g.nargv.length := by
  obtain ⟨h1, b', hb', h2⟩ := ha.fin e he
  rw [hb] at hb'; cases hb'
  have := ha.optind
  refine ⟨?_, (permuteArgs_sub hw).1⟩
  rw [h.nonoptEnd, h.nonoptStart, h.optind, h.nargv, hb, he]
  exact permuteArgs_int h2 h1 (by omega) hw

/-- How the results of the first part of `getopt_internal` correspond. -/
def SameStartInt (n : Nat) : StartInt → Start → Prop
  | .ret c i, .ret c' g => c = c' ∧ SameInts i g ∧ Arranged n g ∧ g.place = []
  | .go i, .go g => SameInts i g ∧ Arranged n g ∧ g.optind < n
  | _, _ => False

theorem endOfArgs_int {i : IntState} {g : GState} (h : SameInts i g) {n : Nat} (ha : Arranged n g) (hn : n ≤ 2147483647) {r : Start}
    (hr : endOfArgs g = .ok r) : ∃ r', endOfArgsInt i = .ok r' ∧ SameStartInt n r' r := by
  unfold endOfArgs at hr
  unfold endOfArgsInt
  have h' : SameInts { i with place := [] } { g with place := [] } :=
    ⟨h.optind, h.opterr, h.optopt, h.optreset, h.optarg, rfl, h.nonoptStart, h.nonoptEnd, h.posixly, h.posixlySet, h.getoptval, h.nargv, h.stderr⟩
  have ha' : Arranged n { g with place := [] } := ⟨ha.length, ha.optind, ha.start, ha.fin⟩
  generalize hi1 : { i with place := [] } = i1 at h'
  generalize hg1 : { g with place := [] } = g1 at h' ha' hr
  dsimp only at hr ⊢
  have hopt := ha'.optind
  cases he : g1.nonoptEnd with
  | some e =>
    obtain ⟨h1, b, hb, h2⟩ := ha'.fin e he
    simp only [he, hb] at hr
    obtain ⟨w, hw, hr⟩ := mbind_ok_inv hr
    obtain ⟨p1, p2⟩ := permute_same h' ha' hn hb he hw
    cases hr
    rw [if_pos (by rw [h'.nonoptEnd, he]; simp [orMinusOne]), p1, bind_ok, moveBack_int h' ha' hn hb he, bind_ok]
    exact ⟨_, rfl, rfl, ⟨rfl, h'.opterr, h'.optopt, h'.optreset, h'.optarg, h'.place, rfl, rfl, h'.posixly, h'.posixlySet, h'.getoptval, rfl, h'.stderr⟩,
      ⟨by rw [← ha'.length]; exact p2, by dsimp only; omega, fun b hb => (by cases hb), fun b hb => (by cases hb)⟩, by rw [← hg1]⟩
  | none =>
    rw [if_neg (by rw [h'.nonoptEnd, he]; simp [orMinusOne])]
    cases hb : g1.nonoptStart with
    | some b =>
      simp only [he, hb] at hr
      cases hr
      have := ha'.start b hb
      rw [if_pos (by rw [h'.nonoptStart, hb]; simp [orMinusOne])]
      exact ⟨_, rfl, rfl, ⟨h'.nonoptStart.trans (by rw [hb]; rfl), h'.opterr, h'.optopt, h'.optreset, h'.optarg, h'.place, rfl, rfl, h'.posixly, h'.posixlySet, h'.getoptval, h'.nargv, h'.stderr⟩,
        ⟨ha'.length, by dsimp only; omega, fun b hb => (by cases hb), fun b hb => (by cases hb)⟩, by rw [← hg1]⟩
    | none =>
      simp only [he, hb] at hr
      cases hr
      rw [if_neg (by rw [h'.nonoptStart, hb]; simp [orMinusOne])]
      exact ⟨_, rfl, rfl, ⟨h'.optind, h'.opterr, h'.optopt, h'.optreset, h'.optarg, h'.place, rfl, rfl, h'.posixly, h'.posixlySet, h'.getoptval, h'.nargv, h'.stderr⟩,
        ⟨ha'.length, hopt, fun b hb => (by cases hb), fun b hb => (by cases hb)⟩, by rw [← hg1]⟩

theorem skipOperand_int {i : IntState} {g : GState} (h : SameInts i g) {n : Nat} (ha : Arranged n g) (hn : n ≤ 2147483647)
    (hlt : g.optind < n) {g' : GState} (hr : skipOperand g = .ok g') :
    ∃ i', skipOperandInt i = .ok i' ∧ SameInts i' g' ∧ Arranged n g' ∧ g'.place = g.place ∧ g'.optreset = g.optreset := by
  unfold skipOperand at hr
  unfold skipOperandInt
  have hi : int32 (i.optind + 1) = .ok ((g.optind + 1 : Nat) : Int) := by rw [h.optind]; exact int32_succ (by omega)
  cases hb : g.nonoptStart with
  | none =>
    simp only [hb] at hr
    cases hr
    rw [if_pos (by rw [h.nonoptStart, hb]; rfl), hi, bind_ok]
    refine ⟨_, rfl, ⟨rfl, h.opterr, h.optopt, h.optreset, h.optarg, h.place, h.optind, h.nonoptEnd, h.posixly, h.posixlySet, h.getoptval, h.nargv, h.stderr⟩,
        ⟨ha.length, hlt, fun b hb => (by cases hb; dsimp only; omega), fun e he => ?_⟩, rfl, rfl⟩
    obtain ⟨_, b, hb', _⟩ := ha.fin e he
    rw [hb] at hb'; cases hb'
  | some b =>
    have hsb := ha.start b hb
    rw [if_neg (by rw [h.nonoptStart, hb]; simp [orMinusOne])]
    cases he : g.nonoptEnd with
    | some e =>
      simp only [hb, he] at hr
      obtain ⟨w, hw, hr⟩ := mbind_ok_inv hr
      obtain ⟨p1, p2⟩ := permute_same h ha hn hb he hw
      cases hr
      rw [if_pos (by rw [h.nonoptEnd, he]; simp [orMinusOne]), p1, bind_ok, moveBack_int h ha hn hb he, bind_ok, hi, bind_ok]
      refine ⟨_, rfl, ⟨rfl, h.opterr, h.optopt, h.optreset, h.optarg, h.place, rfl, rfl, h.posixly, h.posixlySet, h.getoptval, rfl, h.stderr⟩,
        ⟨by rw [← ha.length]; exact p2, hlt, fun b hb => (by cases hb; dsimp only; omega), fun e he => (by cases he)⟩, rfl, rfl⟩
    | none =>
      simp only [hb, he] at hr
      cases hr
      rw [if_neg (by rw [h.nonoptEnd, he]; simp [orMinusOne]), hi, bind_ok]
      refine ⟨_, rfl, ⟨rfl, h.opterr, h.optopt, h.optreset, h.optarg, h.place, h.nonoptStart.trans (by rw [hb]), h.nonoptEnd.trans (by rw [he]), h.posixly, h.posixlySet, h.getoptval, h.nargv, h.stderr⟩,
        ⟨ha.length, hlt, fun b' hb' => ?_, fun e he' => ?_⟩, rfl, rfl⟩
      · have := ha.start b' (by simpa [hb] using hb'); dsimp only; omega
      · simp [he] at he'

theorem foundDashDash_int {i : IntState} {g : GState} (h : SameInts i g) {n : Nat} (ha : Arranged n g) (hn : n ≤ 2147483647)
    (hlt : g.optind < n) {r : Start} (hr : foundDashDash g = .ok r) : ∃ r', foundDashDashInt i = .ok r' ∧ SameStartInt n r' r := by
  unfold foundDashDash at hr
  unfold foundDashDashInt
  have hi : int32 (i.optind + 1) = .ok ((g.optind + 1 : Nat) : Int) := by rw [h.optind]; exact int32_succ (by omega)
  rw [hi, bind_ok]
  have h' : SameInts { i with optind := ((g.optind + 1 : Nat) : Int), place := [] } { g with optind := g.optind + 1, place := [] } :=
    ⟨rfl, h.opterr, h.optopt, h.optreset, h.optarg, rfl, h.nonoptStart, h.nonoptEnd, h.posixly, h.posixlySet, h.getoptval, h.nargv, h.stderr⟩
  have ha' : Arranged n { g with optind := g.optind + 1, place := [] } :=
    ⟨ha.length, hlt, fun b hb => Nat.le_succ_of_le (ha.start b hb), fun e he => ⟨Nat.le_succ_of_le (ha.fin e he).1, (ha.fin e he).2⟩⟩
  generalize hi1 : { i with optind := ((g.optind + 1 : Nat) : Int), place := [] } = i1 at h'
  generalize hg1 : { g with optind := g.optind + 1, place := [] } = g1 at h' ha' hr
  dsimp only at hr ⊢
  cases he : g1.nonoptEnd with
  | some e =>
    obtain ⟨h1, b, hb, h2⟩ := ha'.fin e he
    simp only [he, hb] at hr
    obtain ⟨w, hw, hr⟩ := mbind_ok_inv hr
    obtain ⟨p1, p2⟩ := permute_same h' ha' hn hb he hw
    cases hr
    rw [if_pos (by rw [h'.nonoptEnd, he]; simp [orMinusOne]), p1, bind_ok, moveBack_int h' ha' hn hb he, bind_ok]
    have := ha'.optind
    exact ⟨_, rfl, rfl, ⟨rfl, h'.opterr, h'.optopt, h'.optreset, h'.optarg, h'.place, rfl, rfl, h'.posixly, h'.posixlySet, h'.getoptval, rfl, h'.stderr⟩,
      ⟨by rw [← ha'.length]; exact p2, by dsimp only; omega, fun b hb => (by cases hb), fun b hb => (by cases hb)⟩, by rw [← hg1]⟩
  | none =>
    simp only [he] at hr
    cases hr
    rw [if_neg (by rw [h'.nonoptEnd, he]; simp [orMinusOne])]
    exact ⟨_, rfl, rfl, ⟨h'.optind, h'.opterr, h'.optopt, h'.optreset, h'.optarg, h'.place, rfl, rfl, h'.posixly, h'.posixlySet, h'.getoptval, h'.nargv, h'.stderr⟩,
      ⟨ha'.length, ha'.optind, fun b hb => (by cases hb), fun b hb => (by cases hb)⟩, by rw [← hg1]⟩

theorem scanStart_int {n : Nat} (hn : n ≤ 2147483647) {flags : Nat} {permute allargs : Bool} (hp : flags &&& 1 = 0 ↔ permute = false)
    (hall : flags &&& 2 ≠ 0 ↔ allargs = true) : ∀ (fuel : Nat) (i : IntState) (g : GState) (r : Start), n - g.optind < fuel →
      SameInts i g → Arranged n g → (g.optreset = false → g.place ≠ [] → g.optind < n) → scanStart n permute allargs g = .ok r →
      ∃ r', scanStartInt n flags fuel i = .ok r' ∧ SameStartInt n r' r
  | 0, _, _, _, hf, _, _, _, _ => by omega
  | fuel + 1, i, g, r, hf, h, ha, hpl, hr => by
    rw [scanStart] at hr
    rw [scanStartInt]
    by_cases hc : g.optreset = true ∨ g.place = []
    · rw [if_pos (by rcases hc with hc | hc <;> simp [hc])] at hr
      have hc' : i.optreset ≠ 0 ∨ i.place = [] := by
        rcases hc with hc | hc
        · exact .inl (h.optreset.2 hc)
        · exact .inr (h.place.trans hc)
      rw [if_pos hc']
      have h1 : SameInts { i with optreset := 0 } { g with optreset := false } :=
        ⟨h.optind, h.opterr, h.optopt, by simp, h.optarg, h.place, h.nonoptStart, h.nonoptEnd, h.posixly, h.posixlySet, h.getoptval, h.nargv, h.stderr⟩
      have ha1 : Arranged n { g with optreset := false } := ⟨ha.length, ha.optind, ha.start, ha.fin⟩
      dsimp only at hr ⊢
      by_cases hge : g.optind ≥ n
      · rw [dif_pos hge] at hr
        rw [if_pos (by rw [h.optind]; omega)]
        exact endOfArgs_int h1 ha1 hn hr
      · rw [dif_neg hge] at hr
        rw [if_neg (by rw [h.optind]; omega)]
        cases harg : g.nargv[g.optind]? with
        | none => rw [harg] at hr; cases hr
        | some arg =>
          rw [harg] at hr
          have hget : getInt i.nargv i.optind = .ok arg := by rw [h.nargv, h.optind]; exact getInt_ok harg
          rw [hget, bind_ok]
          simp only at hr
          by_cases hop : arg.head? ≠ some '-' ∨ arg.tail = []
          · rw [if_pos hop] at hr
            rw [if_pos hop]
            by_cases hal : allargs = true
            · rw [if_pos hal] at hr
              cases hr
              have hi : int32 (i.optind + 1) = .ok ((g.optind + 1 : Nat) : Int) := by rw [h.optind]; exact int32_succ (by omega)
              rw [if_pos (hall.2 hal), hi, bind_ok]
              exact ⟨_, rfl, rfl, ⟨rfl, h.opterr, h.optopt, by simp, rfl, rfl, h.nonoptStart, h.nonoptEnd, h.posixly, h.posixlySet, h.getoptval, h.nargv, h.stderr⟩,
                ⟨ha.length, by dsimp only; omega, fun b hb => Nat.le_succ_of_le (ha.start b hb), fun e he => ⟨Nat.le_succ_of_le (ha.fin e he).1, (ha.fin e he).2⟩⟩, rfl⟩
            · rw [if_neg hal] at hr
              rw [if_neg (fun hh => hal (hall.1 hh))]
              cases hpm : permute with
              | false =>
                rw [hpm] at hr
                rw [if_pos (hp.2 hpm)]
                cases hr
                exact ⟨_, rfl, rfl, ⟨h.optind, h.opterr, h.optopt, by simp, h.optarg, rfl, h.nonoptStart, h.nonoptEnd, h.posixly, h.posixlySet, h.getoptval, h.nargv, h.stderr⟩,
                  ⟨ha.length, ha.optind, ha.start, ha.fin⟩, rfl⟩
              | true =>
                rw [hpm] at hr
                rw [if_neg (fun hh => by rw [hp.1 hh] at hpm; cases hpm)]
                rw [if_neg (by decide)] at hr
                have h2 : SameInts { i with optreset := 0, place := [] } { g with optreset := false, place := [] } :=
                  ⟨h.optind, h.opterr, h.optopt, by simp, h.optarg, rfl, h.nonoptStart, h.nonoptEnd, h.posixly, h.posixlySet, h.getoptval, h.nargv, h.stderr⟩
                have ha2 : Arranged n { g with optreset := false, place := [] } := ⟨ha.length, ha.optind, ha.start, ha.fin⟩
                have hlt2 : ({ g with optreset := false, place := [] } : GState).optind < n := by dsimp only; omega
                have ho2 : ({ g with optreset := false, place := [] } : GState).optind = g.optind := rfl
                have hp2 : ({ g with optreset := false, place := [] } : GState).place = [] := rfl
                show ∃ r', (skipOperandInt { i with optreset := 0, place := [] } >>= _) = _ ∧ _
                generalize ({ g with optreset := false, place := [] } : GState) = g2 at h2 ha2 hlt2 ho2 hp2 hr
                generalize ({ i with optreset := 0, place := [] } : IntState) = i2 at h2 ⊢
                cases hs' : skipOperand g2 with
                | error e => split at hr <;> simp_all
                | ok s' =>
                  have hr' : scanStart n true allargs s' = .ok r := by
                    split at hr
                    · cases hr
                    · next s'' hs'' => rw [hs'] at hs''; cases hs''; exact hr
                  obtain ⟨i', e1, e2, e3, e4, e5⟩ := skipOperand_int h2 ha2 hn hlt2 hs'
                  have ho := skipOperand_optind hs'
                  rw [e1, bind_ok]
                  subst hpm
                  exact scanStart_int hn hp hall fuel i' s' r (by omega) e2 e3 (fun _ hne => absurd (e4.trans hp2) hne) hr'
          · rw [if_neg hop] at hr
            rw [if_neg hop]
            have hset : (i.nonoptStart ≠ -1 ∧ i.nonoptEnd = -1) ↔ (g.nonoptStart.isSome && g.nonoptEnd.isNone) = true := by
              rw [h.nonoptStart, h.nonoptEnd]
              cases g.nonoptStart <;> cases g.nonoptEnd <;> simp [orMinusOne]
            obtain ⟨i2, hi2, g2, hg2, h2, ha2, hplace, hopt2⟩ : ∃ i2, i2 = { (if i.nonoptStart ≠ -1 ∧ i.nonoptEnd = -1
                  then { i with optreset := 0, nonoptEnd := i.optind } else { i with optreset := 0 }) with place := arg.tail } ∧
                ∃ g2, g2 = { (if (g.nonoptStart.isSome && g.nonoptEnd.isNone) = true
                  then { g with optreset := false, nonoptEnd := some g.optind } else { g with optreset := false }) with place := arg.tail } ∧
                SameInts i2 g2 ∧ Arranged n g2 ∧ g2.place = arg.tail ∧ g2.optind = g.optind := by
              refine ⟨_, rfl, _, rfl, ?_⟩
              by_cases hs : (g.nonoptStart.isSome && g.nonoptEnd.isNone) = true
              · rw [if_pos hs, if_pos (hset.2 hs)]
                refine ⟨⟨h.optind, h.opterr, h.optopt, by simp, h.optarg, rfl, h.nonoptStart, h.optind, h.posixly, h.posixlySet, h.getoptval, h.nargv, h.stderr⟩,
                  ⟨ha.length, ha.optind, ha.start, fun e he => ?_⟩, rfl, rfl⟩
                cases he
                refine ⟨Nat.le_refl _, ?_⟩
                cases hb : g.nonoptStart with
                | none => rw [hb] at hs; cases hs
                | some b => exact ⟨b, rfl, ha.start b hb⟩
              · rw [if_neg hs, if_neg (fun hh => hs (hset.1 hh))]
                exact ⟨⟨h.optind, h.opterr, h.optopt, by simp, h.optarg, rfl, h.nonoptStart, h.nonoptEnd, h.posixly, h.posixlySet, h.getoptval, h.nargv, h.stderr⟩,
                  ⟨ha.length, ha.optind, ha.start, ha.fin⟩, rfl, rfl⟩
            simp only [← hi2]
            simp only [← hg2] at hr
            by_cases hdd : arg.tail = ['-']
            · rw [if_pos hdd] at hr
              rw [if_pos hdd]
              exact foundDashDash_int h2 ha2 hn (by omega) hr
            · rw [if_neg hdd] at hr
              rw [if_neg hdd]
              cases hr
              exact ⟨_, rfl, h2, ha2, by omega⟩
    · have hr1 : g.optreset = false := by
        cases hh : g.optreset with
        | false => rfl
        | true => exact absurd (.inl hh) hc
      have hp1 : g.place ≠ [] := fun hh => hc (.inr hh)
      rw [if_neg (by simp [hr1, hp1])] at hr
      rw [if_neg (by
        rintro (hh | hh)
        · exact hc (.inl (h.optreset.1 hh))
        · exact hp1 (h.place ▸ hh))]
      cases hr
      exact ⟨_, rfl, h, ha, hpl hr1 hp1⟩

/-! ### Long options -/

/-- The index and the option. -/
def SameMatch (longs : List LongOpt) (mi : Int) : Option LongOpt → Prop
  | none => mi = -1
  | some o => ∃ k : Nat, mi = k ∧ longs[k]? = some o

theorem longAt_end (longs : List LongOpt) : longAt longs (longs.length : Int) = .ok none := by
  unfold longAt; rw [if_pos rfl]

theorem longAt_ok {longs : List LongOpt} {k : Nat} {o : LongOpt} (h : longs[k]? = some o) : longAt longs k = .ok (some o) := by
  have := (List.getElem?_eq_some_iff.1 h).1
  unfold longAt
  rw [if_neg (by omega), getInt_ok h]; rfl

theorem matchLoop_int {cur : CStr} {len : Nat} {shortToo : Int} {st : Bool} (hst : shortToo ≠ 0 ↔ st = true) {flags : Nat} {only : Bool}
    (hfl : flags &&& 4 ≠ 0 ↔ only = true) {longs : List LongOpt} (hl : longs.length ≤ 2147483647) :
    ∀ (fuel k : Nat) (mi si : Int) (mo : Option LongOpt) (so : Bool), k + fuel = longs.length + 1 → k ≤ longs.length →
      SameMatch longs mi mo → (si ≠ 0 ↔ so = true) →
      ∃ mi' ei si', matchLoopInt cur len shortToo flags longs fuel k mi si = .ok (mi', ei, si') ∧
        SameMatch longs mi' (matchLoop cur len st only (longs.drop k) mo so).mtch ∧
        (ei ≠ 0 ↔ (matchLoop cur len st only (longs.drop k) mo so).exact = true) ∧
        (si' ≠ 0 ↔ (matchLoop cur len st only (longs.drop k) mo so).second = true)
  | 0, k, _, _, _, _, hf, hk, _, _ => by omega
  | fuel + 1, k, mi, si, mo, so, hf, hk, hm, hs => by
    rw [matchLoopInt]
    by_cases hkl : k = longs.length
    · subst hkl
      rw [longAt_end, bind_ok, List.drop_length]
      exact ⟨_, _, _, rfl, hm, by simp [matchLoop], hs⟩
    · have hlt : k < longs.length := by omega
      have ho : longs[k]? = some longs[k] := List.getElem?_eq_getElem hlt
      generalize longs[k] = o at ho
      rw [longAt_ok ho, bind_ok]
      have hd : longs.drop k = o :: longs.drop (k + 1) := by
        rw [List.drop_eq_getElem_cons hlt]
        rw [List.getElem?_eq_getElem hlt] at ho
        rw [Option.some.inj ho]
      rw [hd]
      simp only [matchLoop]
      have hnext := int32_succ (a := k) (by omega)
      have again := fun mi' si' mo' so' => matchLoop_int (cur := cur) (len := len) hst hfl hl fuel (k + 1) mi' si' mo' so' (by omega) (by omega)
      by_cases c1 : (!strncmpEq cur o.name len) = true
      · rw [if_pos c1, if_pos c1, hnext, bind_ok]
        exact again mi si mo so hm hs
      · rw [if_neg c1, if_neg c1]
        by_cases c2 : o.name.length = len
        · rw [if_pos c2, if_pos c2]
          exact ⟨_, _, _, rfl, ⟨k, rfl, ho⟩, by simp, hs⟩
        · rw [if_neg c2, if_neg c2]
          by_cases c3 : (st && len == 1) = true
          · rw [if_pos c3, if_pos (by simp at c3; exact ⟨hst.2 c3.1, c3.2⟩), hnext, bind_ok]
            exact again mi si mo so hm hs
          · rw [if_neg c3, if_neg (fun hh => c3 (by simp [hst.1 hh.1, hh.2]))]
            cases mo with
            | none =>
              rw [if_pos (show mi = -1 from hm), hnext, bind_ok]
              exact again k si (some o) so ⟨k, rfl, ho⟩ hs
            | some m =>
              obtain ⟨j, rfl, hj⟩ := hm
              rw [if_neg (by omega), getInt_ok hj, bind_ok, hnext, bind_ok]
              simp only
              by_cases c4 : (only || o.hasArg != m.hasArg || o.flag != m.flag || o.val != m.val) = true
              · rw [if_pos c4, if_pos (by simpa [hfl, or_assoc] using c4)]
                exact again j 1 (some m) true ⟨j, rfl, hj⟩ (by simp)
              · rw [if_neg c4, if_neg (fun hh => c4 (by simpa [hfl, or_assoc] using hh))]
                exact again j si (some m) so ⟨j, rfl, hj⟩ hs

theorem warn_optind (opts msg : CStr) (g : GState) : (warn opts msg g).optind = g.optind := by unfold warn; split <;> rfl

theorem warn_place (opts msg : CStr) (g : GState) : (warn opts msg g).place = g.place := by unfold warn; split <;> rfl

theorem warnInt_optind (opts msg : CStr) (i : IntState) : (warnInt opts msg i).optind = i.optind := by unfold warnInt; split <;> rfl

theorem warnInt_idx (opts msg : CStr) (i : IntState) : (warnInt opts msg i).idx = i.idx := by unfold warnInt; split <;> rfl

theorem bad_int {i : IntState} {g : GState} (h : SameInts i g) (opts msg : CStr) (x : Int) :
    SameInts { warnInt opts msg i with optopt := x } { warn opts msg g with optopt := x } := by
  unfold warnInt warn
  by_cases hc : (g.opterr && opts.head? != some ':') = true
  · have hc' : i.opterr ≠ 0 ∧ opts.head? ≠ some ':' := by
      simp at hc
      exact ⟨h.opterr.2 hc.1, hc.2⟩
    rw [if_pos hc, if_pos hc']
    exact ⟨h.optind, h.opterr, rfl, h.optreset, h.optarg, h.place, h.nonoptStart, h.nonoptEnd, h.posixly, h.posixlySet, h.getoptval, h.nargv, by rw [h.stderr]⟩
  · have hc' : ¬ (i.opterr ≠ 0 ∧ opts.head? ≠ some ':') := fun hh => hc (by simp [h.opterr.1 hh.1, hh.2])
    rw [if_neg hc, if_neg hc']
    exact ⟨h.optind, h.opterr, rfl, h.optreset, h.optarg, h.place, h.nonoptStart, h.nonoptEnd, h.posixly, h.posixlySet, h.getoptval, h.nargv, h.stderr⟩

theorem bad_arranged {n : Nat} {g : GState} (ha : Arranged n g) (opts msg : CStr) (x : Int) :
    Arranged n { warn opts msg g with optopt := x } := by
  unfold warn
  split
  · exact ⟨ha.length, ha.optind, ha.start, ha.fin⟩
  · exact ⟨ha.length, ha.optind, ha.start, ha.fin⟩

theorem argvAt_int {v : List CStr} {k : Nat} {a : Option CStr} (h : argvAt v k = .ok a) :
    argvInt v k = .ok a ∧ k ≤ v.length ∧ (a ≠ none → k < v.length) := by
  unfold argvAt at h
  unfold argvInt
  by_cases hk : k < v.length
  · rw [if_pos hk] at h
    have hg : v[k]? = some v[k] := List.getElem?_eq_getElem hk
    rw [hg] at h
    cases h
    rw [if_neg (by omega), getInt_ok hg]
    exact ⟨rfl, by omega, fun _ => hk⟩
  · rw [if_neg hk] at h
    by_cases hk' : k = v.length
    · rw [if_pos hk'] at h
      cases h
      rw [if_pos (by omega)]
      exact ⟨rfl, by omega, fun hh => absurd rfl hh⟩
    · rw [if_neg hk'] at h; cases h

theorem fetchLongArg_int {i : IntState} {g : GState} (h : SameInts i g) {n : Nat} (ha : Arranged n g) (hn : n < 2147483647)
    {o : LongOpt} {he : Option CStr} {g' : GState} (hr : fetchLongArg o he g = .ok g') :
    ∃ i', fetchLongArgInt o he i = .ok i' ∧ SameInts i' g' ∧ g'.nargv.length = n ∧ i'.idx = i.idx ∧ g.optind ≤ g'.optind ∧ g'.optind ≤ n + 1 ∧
      g'.nonoptStart = g.nonoptStart ∧ g'.nonoptEnd = g.nonoptEnd ∧ g'.place = g.place ∧
      (¬ (o.hasArg = 1 ∧ g'.optarg = none) → g'.optind ≤ n) := by
  unfold fetchLongArg at hr
  unfold fetchLongArgInt
  have hle := ha.optind
  by_cases c1 : o.hasArg = 1 ∨ o.hasArg = 2
  · rw [if_pos c1] at hr
    rw [if_pos c1]
    cases he with
    | some v =>
      cases hr
      exact ⟨_, rfl, ⟨h.optind, h.opterr, h.optopt, h.optreset, rfl, h.place, h.nonoptStart, h.nonoptEnd, h.posixly, h.posixlySet, h.getoptval, h.nargv, h.stderr⟩,
        ha.length, rfl, Nat.le_refl _, Nat.le_succ_of_le hle, rfl, rfl, rfl, fun _ => hle⟩
    | none =>
      simp only at hr ⊢
      by_cases c2 : o.hasArg = 1
      · rw [if_pos c2] at hr
        rw [if_pos c2]
        obtain ⟨v, hv, hr⟩ := mbind_ok_inv hr
        cases hr
        obtain ⟨e1, e2, e3⟩ := argvAt_int hv
        have hi : int32 (i.optind + 1) = .ok ((g.optind + 1 : Nat) : Int) := by rw [h.optind]; exact int32_succ (by omega)
        have hg : argvInt i.nargv i.optind = .ok v := by rw [h.nargv, h.optind]; exact e1
        rw [hg, bind_ok, hi, bind_ok]
        refine ⟨_, rfl, ⟨rfl, h.opterr, h.optopt, h.optreset, rfl, h.place, h.nonoptStart, h.nonoptEnd, h.posixly, h.posixlySet, h.getoptval, h.nargv, h.stderr⟩,
          ha.length, rfl, Nat.le_succ _, by dsimp only; omega, rfl, rfl, rfl, fun hh => ?_⟩
        have := e3 (fun hv => hh ⟨c2, hv⟩)
        rw [ha.length] at this
        exact this
      · rw [if_neg c2] at hr
        rw [if_neg c2]
        cases hr
        exact ⟨_, rfl, h, ha.length, rfl, Nat.le_refl _, by omega, rfl, rfl, rfl, fun _ => hle⟩
  · rw [if_neg c1] at hr
    rw [if_neg c1]
    cases hr
    exact ⟨_, rfl, h, ha.length, rfl, Nat.le_refl _, by omega, rfl, rfl, rfl, fun _ => hle⟩

/-- What `*idx` is afterwards: the option found, or the old value after a mistake. -/
def IdxAfter (options : CStr) (longs : List LongOpt) (idx : Bool) (m : Option LongOpt) (i : IntState) (r : Int) (i' : IntState) (g' : GState) : Prop :=
  (∃ (k : Nat) (l : LongOpt), m = some l ∧ longs[k]? = some l ∧ i'.idx = (if idx then (k : Int) else i.idx) ∧
    (if l.flag then r = 0 ∧ g'.getoptval = l.val else r = l.val)) ∨
  (i'.idx = i.idx ∧ (r = -1 ∨ r = BADCH ∨ r = BADARG options))

theorem parseLong_int {i : IntState} {g : GState} (h : SameInts i g) {n : Nat} (ha : Arranged n g) (hn : n < 2147483647)
    (hlt : g.optind < n) {options : CStr} {longs : List LongOpt} (hl : longs.length ≤ 2147483647) {idx : Bool}
    {shortToo : Int} {st : Bool} (hst : shortToo ≠ 0 ↔ st = true) {flags : Nat} {only : Bool}
    (hfl : flags &&& 4 ≠ 0 ↔ only = true) {dash : CStr} (hdash : dashText i.dashPrefix = dash) {r : Int} {g' : GState}
    (hr : parseLongOptions options longs st only dash g = .ok (r, g')) :
    ∃ i', parseLongOptionsInt options longs idx shortToo flags i = .ok (r, i') ∧ SameInts i' g' ∧ Arranged n g' ∧
      (r = -1 → g'.optind < n) ∧
      IdxAfter options longs idx (matchLoop g.place (curLen g.place) st only longs none false).mtch i r i' g' := by
  unfold parseLongOptions at hr
  unfold parseLongOptionsInt
  have hi : int32 (i.optind + 1) = .ok ((g.optind + 1 : Nat) : Int) := by rw [h.optind]; exact int32_succ (by omega)
  rw [hi, bind_ok]
  have h1 : SameInts { i with optind := ((g.optind + 1 : Nat) : Int) } { g with optind := g.optind + 1 } :=
    ⟨rfl, h.opterr, h.optopt, h.optreset, h.optarg, h.place, h.nonoptStart, h.nonoptEnd, h.posixly, h.posixlySet, h.getoptval, h.nargv, h.stderr⟩
  have ha1 : Arranged n { g with optind := g.optind + 1 } :=
    ⟨ha.length, hlt, fun b hb => Nat.le_succ_of_le (ha.start b hb), fun e he => ⟨Nat.le_succ_of_le (ha.fin e he).1, (ha.fin e he).2⟩⟩
  obtain ⟨mi, ei, si, e1, hm, hex, hsec⟩ := matchLoop_int (cur := g.place) (len := curLen g.place) hst hfl hl (longs.length + 1) 0 (-1) 0 none false
    (by omega) (by omega) rfl (by simp)
  rw [List.drop_zero] at hm hex hsec
  simp only [Nat.cast_zero] at e1
  have hopt1 : ({ g with optind := g.optind + 1 } : GState).optind = g.optind + 1 := rfl
  have hidx1 : ({ i with optind := ((g.optind + 1 : Nat) : Int) } : IntState).idx = i.idx := rfl
  have hpos : ∀ b, g.nonoptStart = some b → b ≤ g.optind := ha.start
  have hst1 : ({ g with optind := g.optind + 1 } : GState).nonoptStart = g.nonoptStart := rfl
  have hen1 : ({ g with optind := g.optind + 1 } : GState).nonoptEnd = g.nonoptEnd := rfl
  generalize ({ i with optind := ((g.optind + 1 : Nat) : Int) } : IntState) = i1 at h1 hidx1 ⊢
  generalize ({ g with optind := g.optind + 1 } : GState) = g1 at h1 ha1 hr hopt1 hst1 hen1
  simp only at hr ⊢
  rw [h.place, hdash, e1, bind_ok]
  simp only
  generalize matchLoop g.place (curLen g.place) st only longs none false = R at hm hex hsec hr ⊢
  by_cases c1 : (!R.exact && R.second) = true
  · rw [if_pos c1] at hr
    cases hr
    simp only [Bool.and_eq_true, Bool.not_eq_true'] at c1
    have q1 : ei = 0 := by
      by_contra hh
      rw [hex.1 hh] at c1; simp at c1
    rw [if_pos ⟨q1, hsec.2 c1.2⟩]
    exact ⟨_, rfl, bad_int h1 _ _ _, bad_arranged ha1 _ _ _, fun hh => (by cases hh), .inr ⟨(warnInt_idx _ _ _).trans hidx1, .inr (.inl rfl)⟩⟩
  · rw [if_neg c1] at hr
    rw [if_neg (by
      rintro ⟨q1, q2⟩
      apply c1
      rw [hsec.1 q2]
      cases hR : R.exact with
      | false => rfl
      | true => exact absurd q1 (hex.2 hR))]
    cases hmt : R.mtch with
    | some o =>
      rw [hmt] at hm hr
      obtain ⟨k, rfl, hk⟩ := hm
      rw [if_pos (by omega), getInt_ok hk, bind_ok]
      simp only at hr ⊢
      by_cases c2 : o.hasArg = 0 ∧ (hasEqual g.place).isSome
      · rw [if_pos c2] at hr
        rw [if_pos c2]
        cases hr
        refine ⟨_, rfl, ?_, ?_, fun hh => (by cases hh), .inr ⟨(warnInt_idx _ _ _).trans hidx1, .inr (.inl rfl)⟩⟩
        · have := bad_int h1 options (noargText dash (curLen g.place) g.place) (if o.flag = true then 0 else (o.val : Int))
          simpa using this
        · exact bad_arranged ha1 _ _ _
      · rw [if_neg c2] at hr
        rw [if_neg c2]
        obtain ⟨g2, hg2, hr⟩ := mbind_ok_inv hr
        obtain ⟨i2, f1, f2, f3, f4, f5, f6, f7, f8, f9, f10⟩ := fetchLongArg_int h1 ha1 hn hg2
        rw [f1, bind_ok]
        by_cases c3 : o.hasArg = 1 ∧ g2.optarg = none
        · rw [if_pos c3] at hr
          rw [if_pos (by rw [f2.optarg]; exact c3)]
          cases hr
          have hi2 : int32 (({ warnInt options (recargstring dash g.place) i2 with optopt := if o.flag then 0 else o.val } : IntState).optind - 1) =
              .ok ((g2.optind - 1 : Nat) : Int) := by
            dsimp only
            rw [warnInt_optind, f2.optind]
            exact int32_pred (by omega) (by omega)
          rw [hi2, bind_ok]
          have hb := bad_int f2 options (recargstring dash g.place) (if o.flag then 0 else o.val)
          refine ⟨_, rfl, ⟨rfl, hb.opterr, hb.optopt, hb.optreset, hb.optarg, hb.place, hb.nonoptStart, hb.nonoptEnd, hb.posixly, hb.posixlySet, hb.getoptval, hb.nargv, hb.stderr⟩,
            ?_, fun hh => ?_, .inr ⟨((warnInt_idx _ _ _).trans f4).trans hidx1, .inr (.inr rfl)⟩⟩
          · have hw : (warn options (recargstring dash g.place) g2).nargv = g2.nargv ∧
                (warn options (recargstring dash g.place) g2).nonoptStart = g2.nonoptStart ∧
                (warn options (recargstring dash g.place) g2).nonoptEnd = g2.nonoptEnd := by
              unfold warn; split <;> exact ⟨rfl, rfl, rfl⟩
            refine ⟨by dsimp only; rw [hw.1]; exact f3, by dsimp only; omega, fun b hb => ?_, fun e he => ?_⟩
            · dsimp only at hb ⊢
              rw [hw.2.1, f7, hst1] at hb
              have := ha.start b hb
              omega
            · dsimp only at he ⊢
              rw [hw.2.2, f8, hen1] at he
              rw [hw.2.1, f7, hst1]
              have := ha.fin e he
              exact ⟨by omega, this.2⟩
          · exfalso
            revert hh
            unfold BADARG
            split <;> decide
        · rw [if_neg c3] at hr
          rw [if_neg (by rw [f2.optarg]; exact c3)]
          have hle := f10 c3
          have ha2 : Arranged n g2 := ⟨f3, hle, fun b hb => (by
              rw [f7, hst1] at hb
              have := ha.start b hb
              omega), fun e he => (by
              rw [f8, hen1] at he
              rw [f7, hst1]
              have := ha.fin e he
              exact ⟨by omega, this.2⟩)⟩
          have f2' : SameInts (if idx = true then { i2 with idx := (k : Int) } else i2) g2 := by
            split
            · exact ⟨f2.optind, f2.opterr, f2.optopt, f2.optreset, f2.optarg, f2.place, f2.nonoptStart, f2.nonoptEnd, f2.posixly, f2.posixlySet, f2.getoptval, f2.nargv, f2.stderr⟩
            · exact f2
          have hix : (if idx = true then { i2 with idx := (k : Int) } else i2).idx = if idx then (k : Int) else i.idx := by
            split
            · rfl
            · rw [f4, hidx1]
          generalize (if idx = true then { i2 with idx := (k : Int) } else i2) = i3 at f2' hix ⊢
          by_cases c4 : o.flag = true
          · rw [if_pos c4] at hr
            rw [if_pos c4]
            cases hr
            exact ⟨_, rfl, ⟨f2'.optind, f2'.opterr, f2'.optopt, f2'.optreset, f2'.optarg, f2'.place, f2'.nonoptStart, f2'.nonoptEnd, f2'.posixly, f2'.posixlySet, rfl, f2'.nargv, f2'.stderr⟩,
              ⟨ha2.length, ha2.optind, ha2.start, ha2.fin⟩, fun hh => (by cases hh), .inl ⟨k, o, rfl, hk, hix, by rw [if_pos c4]; exact ⟨rfl, rfl⟩⟩⟩
          · rw [if_neg c4] at hr
            rw [if_neg c4]
            cases hr
            exact ⟨_, rfl, f2', ha2, fun hh => (by omega), .inl ⟨k, o, rfl, hk, hix, by rw [if_neg c4]⟩⟩
    | none =>
      rw [hmt] at hm hr
      rw [if_neg (by rw [show mi = -1 from hm]; simp)]
      simp only at hr
      by_cases c2 : st = true
      · rw [if_pos c2] at hr
        rw [if_pos (hst.2 c2)]
        cases hr
        have hi2 : int32 (i1.optind - 1) = .ok ((g1.optind - 1 : Nat) : Int) := by
          rw [h1.optind]; exact int32_pred (by omega) (by omega)
        rw [hi2, bind_ok]
        refine ⟨_, rfl, ⟨rfl, h1.opterr, h1.optopt, h1.optreset, h1.optarg, h1.place, h1.nonoptStart, h1.nonoptEnd, h1.posixly, h1.posixlySet, h1.getoptval, h1.nargv, h1.stderr⟩,
          ⟨ha1.length, by dsimp only; omega, fun b hb => ?_, fun e he => ?_⟩, fun _ => (by dsimp only; omega), .inr ⟨hidx1, .inl rfl⟩⟩
        · dsimp only at hb ⊢
          rw [hst1] at hb
          have := ha.start b hb
          omega
        · dsimp only at he ⊢
          rw [hen1] at he
          rw [hst1]
          have := ha.fin e he
          exact ⟨by omega, this.2⟩
      · rw [if_neg c2] at hr
        rw [if_neg (fun hh => c2 (hst.1 hh))]
        cases hr
        exact ⟨_, rfl, bad_int h1 _ _ _, bad_arranged ha1 _ _ _, fun hh => (by cases hh), .inr ⟨(warnInt_idx _ _ _).trans hidx1, .inr (.inl rfl)⟩⟩

/-- What `*idx` is after a call. -/
def IdxEnd (options : CStr) (longs : List LongOpt) (idx : Bool) (i : IntState) (r : Int) (i' : IntState) (g' : GState) : Prop :=
  (∃ (k : Nat) (l : LongOpt), longs[k]? = some l ∧ i'.idx = (if idx then (k : Int) else i.idx) ∧
    (if l.flag then r = 0 ∧ g'.getoptval = l.val else r = l.val)) ∨
  (i'.idx = i.idx ∧ (r = -1 ∨ r = BADCH ∨ r = BADARG options ∨ r = INORDER ∨ ∃ c ∈ options, r = charInt c))

theorem IdxAfter.ending {options : CStr} {longs : List LongOpt} {idx : Bool} {m : Option LongOpt} {i : IntState} {r : Int} {i' : IntState}
    {g' : GState} (h : IdxAfter options longs idx m i r i' g') {i0 : IntState} (h0 : i.idx = i0.idx) {i2 : IntState} (h2 : i2.idx = i'.idx)
    {g2 : GState} (h3 : g2.getoptval = g'.getoptval) : IdxEnd options longs idx i0 r i2 g2 := by
  rcases h with ⟨k, l, _, h4, h5, h6⟩ | ⟨h4, h5⟩
  · exact .inl ⟨k, l, h4, by rw [h2, h5, h0], by rw [h3]; exact h6⟩
  · refine .inr ⟨by rw [h2, h4, h0], ?_⟩
    rcases h5 with h5 | h5 | h5
    · exact .inl h5
    · exact .inr (.inl h5)
    · exact .inr (.inr (.inl h5))

theorem strchr_char {s t : CStr} {c : Char} (h : strchr s c = some t) : c ∈ s := by
  induction s with
  | nil => cases h
  | cons d s ih =>
    unfold strchr at h
    split at h
    · next hd => subst hd; exact List.mem_cons_self
    · exact List.mem_cons_of_mem _ (ih h)

theorem wStep_int {i : IntState} {g : GState} (h : SameInts i g) {n : Nat} (ha : Arranged n g) (hn : n < 2147483647)
    (hlt : g.optind < n) {options : CStr} {longs : List LongOpt} (hl : longs.length ≤ 2147483647) {idx : Bool}
    {shortToo : Int} {st : Bool} (hst : shortToo ≠ 0 ↔ st = true) {flags : Nat} {only : Bool}
    (hfl : flags &&& 4 ≠ 0 ↔ only = true) {dash : CStr} (hdash : dashText i.dashPrefix = dash) {r : Int} {g' : GState}
    (hr : (do
      let (r, s) ← parseLongOptions options longs st only dash g
      .ok (r, { s with place := [] })) = (.ok (r, g') : M _)) :
    ∃ i', (do
      let (r, s) ← parseLongOptionsInt options longs idx shortToo flags i
      .ok (r, { s with place := [] })) = (.ok (r, i') : M _) ∧ SameInts i' g' ∧ Arranged n g' ∧ g'.place = [] ∧
      IdxEnd options longs idx i r i' g' := by
  obtain ⟨⟨r1, g1⟩, h1, hr⟩ := mbind_ok_inv hr
  cases hr
  obtain ⟨i1, e1, e2, e3, _, e5⟩ := parseLong_int (idx := idx) h ha hn hlt hl hst hfl hdash h1
  rw [e1, bind_ok]
  exact ⟨_, rfl, ⟨e2.optind, e2.opterr, e2.optopt, e2.optreset, e2.optarg, rfl, e2.nonoptStart, e2.nonoptEnd, e2.posixly, e2.posixlySet, e2.getoptval, e2.nargv, e2.stderr⟩,
    ⟨e3.length, e3.optind, e3.start, e3.fin⟩, rfl, e5.ending rfl rfl rfl⟩

theorem shortPart_int {i : IntState} {g : GState} (h : SameInts i g) {n : Nat} (ha : Arranged n g) (hn : n < 2147483647)
    (hlt : g.optind < n) {options : CStr} {longs : Option (List LongOpt)} (hl : (longs.getD []).length ≤ 2147483647) {idx : Bool}
    {flags : Nat} {only : Bool} (hfl : flags &&& 4 ≠ 0 ↔ only = true) {r : Int} {g' : GState}
    (hr : shortPart n options longs only g = .ok (r, g')) :
    ∃ i', shortPartInt n options longs idx flags i = .ok (r, i') ∧ SameInts i' g' ∧ Arranged n g' ∧
      (g'.place ≠ [] → g'.optind < n) ∧ IdxEnd options (longs.getD []) idx i r i' g' := by
  unfold shortPart at hr
  unfold shortPartInt
  cases hp : g.place with
  | nil => rw [hp] at hr; cases hr
  | cons c place =>
    rw [hp] at hr
    rw [h.place, hp]
    have hi : int32 (i.optind + 1) = .ok ((g.optind + 1 : Nat) : Int) := by rw [h.optind]; exact int32_succ (by omega)
    have hstep : Arranged n { g with optind := g.optind + 1 } :=
      ⟨ha.length, hlt, fun b hb => Nat.le_succ_of_le (ha.start b hb), fun e he => ⟨Nat.le_succ_of_le (ha.fin e he).1, (ha.fin e he).2⟩⟩
    have hmay : int32 (if place = [] then i.optind + 1 else i.optind) = .ok ((if place = [] then g.optind + 1 else g.optind : Nat) : Int) := by
      split
      · exact hi
      · rw [h.optind, int32_ok (by omega) (by omega)]
    simp only at hr ⊢
    cases hf : (if c = ':' ∨ (c = '-' ∧ place ≠ []) then none else strchr options c) with
    | none =>
      rw [hf] at hr
      simp only at hr ⊢
      by_cases c1 : c = '-' ∧ place = []
      · rw [if_pos c1] at hr
        rw [if_pos c1]
        cases hr
        exact ⟨_, rfl, ⟨h.optind, h.opterr, h.optopt, h.optreset, h.optarg, rfl, h.nonoptStart, h.nonoptEnd, h.posixly, h.posixlySet, h.getoptval, h.nargv, h.stderr⟩,
          ⟨ha.length, ha.optind, ha.start, ha.fin⟩, fun _ => hlt, .inr ⟨rfl, .inl rfl⟩⟩
      · rw [if_neg c1] at hr
        rw [if_neg c1, hmay, bind_ok]
        have hpx : (i.posixly ≠ 0) ↔ (g.posixly ≠ some false) := by
          cases hx : g.posixly with
          | none => rw [h.posixly.2 hx]; simp
          | some b => rw [h.posixlySet b hx]; cases b <;> simp
        have h1 : SameInts { i with place := place, optind := ((if place = [] then g.optind + 1 else g.optind : Nat) : Int) }
            (if place = [] then { g with place := place, optind := g.optind + 1 } else { g with place := place }) := by
          split
          · exact ⟨rfl, h.opterr, h.optopt, h.optreset, h.optarg, rfl, h.nonoptStart, h.nonoptEnd, h.posixly, h.posixlySet, h.getoptval, h.nargv, h.stderr⟩
          · exact ⟨rfl, h.opterr, h.optopt, h.optreset, h.optarg, rfl, h.nonoptStart, h.nonoptEnd, h.posixly, h.posixlySet, h.getoptval, h.nargv, h.stderr⟩
        have ha1 : Arranged n (if place = [] then { g with place := place, optind := g.optind + 1 } else { g with place := place }) := by
          split
          · exact ⟨hstep.length, hstep.optind, hstep.start, hstep.fin⟩
          · exact ⟨ha.length, ha.optind, ha.start, ha.fin⟩
        have hpl : (if place = [] then { g with place := place, optind := g.optind + 1 } else { g with place := place }).place ≠ [] →
            (if place = [] then { g with place := place, optind := g.optind + 1 } else { g with place := place }).optind < n := by
          split
          · next hh => intro h0; exact absurd hh h0
          · intro _; exact hlt
        have hpe : (if place = [] then { g with place := place, optind := g.optind + 1 } else { g with place := place }).posixly = g.posixly := by
          split <;> rfl
        rw [hpe] at hr
        cases hr
        have hmsg : (if ({ i with place := place, optind := ((if place = [] then g.optind + 1 else g.optind : Nat) : Int) } : IntState).posixly ≠ 0
            then illoptchar c else gnuoptchar c) = (if g.posixly ≠ some false then illoptchar c else gnuoptchar c) := by
          by_cases hh : i.posixly ≠ 0
          · rw [if_pos hh, if_pos (hpx.1 hh)]
          · rw [if_neg hh, if_neg (fun h' => hh (hpx.2 h'))]
        rw [hmsg]
        refine ⟨_, rfl, bad_int h1 _ _ _, bad_arranged ha1 _ _ _, ?_, .inr ⟨warnInt_idx _ _ _, .inr (.inl rfl)⟩⟩
        dsimp only
        rw [warn_place, warn_optind]
        exact hpl
    | some oli =>
      rw [hf] at hr
      simp only at hr ⊢
      have hmem : c ∈ options := by
        split at hf
        · cases hf
        · exact strchr_char hf
      have hletter : ∀ (i' : IntState) (g' : GState), i'.idx = i.idx → IdxEnd options (longs.getD []) idx i (charInt c) i' g' :=
        fun i' g' hh => .inr ⟨hh, .inr (.inr (.inr (.inr ⟨c, hmem, rfl⟩)))⟩
      by_cases c1 : longs.isSome ∧ c = 'W' ∧ oli.tail.head? = some ';'
      · rw [if_pos c1] at hr
        rw [if_pos c1]
        by_cases c2 : place ≠ []
        · rw [if_pos c2] at hr
          rw [if_pos c2]
          have h1 : SameInts { i with place := place, dashPrefix := 2 } { g with place := place } :=
            ⟨h.optind, h.opterr, h.optopt, h.optreset, h.optarg, rfl, h.nonoptStart, h.nonoptEnd, h.posixly, h.posixlySet, h.getoptval, h.nargv, h.stderr⟩
          obtain ⟨i', e1, e2, e3, e4, e5⟩ := wStep_int (idx := idx) (shortToo := 0) h1 ⟨ha.length, ha.optind, ha.start, ha.fin⟩ hn hlt hl (by simp) hfl rfl hr
          exact ⟨i', e1, e2, e3, fun hh => absurd e4 hh, e5⟩
        · rw [if_neg c2] at hr
          rw [if_neg c2, hi, bind_ok]
          by_cases c3 : g.optind + 1 ≥ n
          · rw [if_pos c3] at hr
            cases hr
            rw [if_pos (by omega)]
            have h1 : SameInts { i with place := [], optind := ((g.optind + 1 : Nat) : Int) } { g with place := [], optind := g.optind + 1 } :=
              ⟨rfl, h.opterr, h.optopt, h.optreset, h.optarg, rfl, h.nonoptStart, h.nonoptEnd, h.posixly, h.posixlySet, h.getoptval, h.nargv, h.stderr⟩
            have ha1 : Arranged n { g with place := [], optind := g.optind + 1 } := ⟨hstep.length, hstep.optind, hstep.start, hstep.fin⟩
            refine ⟨_, rfl, bad_int h1 _ _ _, bad_arranged ha1 _ _ _, ?_, .inr ⟨warnInt_idx _ _ _, .inr (.inr (.inl rfl))⟩⟩
            dsimp only
            rw [warn_place]
            intro hh; exact absurd rfl hh
          · rw [if_neg c3] at hr
            rw [if_neg (by omega)]
            obtain ⟨v, hv, hr⟩ := mbind_ok_inv hr
            have hv' : argvInt i.nargv ((g.optind + 1 : Nat) : Int) = .ok v := by rw [h.nargv]; exact (argvAt_int hv).1
            rw [hv', bind_ok]
            cases v with
            | none => cases hr
            | some v =>
              have h1 : SameInts { i with place := v, optind := ((g.optind + 1 : Nat) : Int), dashPrefix := 2 } { g with place := v, optind := g.optind + 1 } :=
                ⟨rfl, h.opterr, h.optopt, h.optreset, h.optarg, rfl, h.nonoptStart, h.nonoptEnd, h.posixly, h.posixlySet, h.getoptval, h.nargv, h.stderr⟩
              have ha1 : Arranged n { g with place := v, optind := g.optind + 1 } := ⟨hstep.length, hstep.optind, hstep.start, hstep.fin⟩
              obtain ⟨i', e1, e2, e3, e4, e5⟩ := wStep_int (idx := idx) (shortToo := 0) h1 ha1 hn (by dsimp only; omega) hl (by simp) hfl rfl hr
              exact ⟨i', e1, e2, e3, fun hh => absurd e4 hh, e5⟩
      · rw [if_neg c1] at hr
        rw [if_neg c1]
        by_cases c2 : oli.tail.head? ≠ some ':'
        · rw [if_pos c2] at hr
          rw [if_pos c2, hmay, bind_ok]
          cases hr
          refine ⟨_, rfl, ?_, ?_, ?_, hletter _ _ rfl⟩
          · split
            · exact ⟨rfl, h.opterr, h.optopt, h.optreset, h.optarg, rfl, h.nonoptStart, h.nonoptEnd, h.posixly, h.posixlySet, h.getoptval, h.nargv, h.stderr⟩
            · exact ⟨rfl, h.opterr, h.optopt, h.optreset, h.optarg, rfl, h.nonoptStart, h.nonoptEnd, h.posixly, h.posixlySet, h.getoptval, h.nargv, h.stderr⟩
          · split
            · exact ⟨hstep.length, hstep.optind, hstep.start, hstep.fin⟩
            · exact ⟨ha.length, ha.optind, ha.start, ha.fin⟩
          · split
            · next hh => intro h0; exact absurd hh h0
            · intro _; exact hlt
        · rw [if_neg c2] at hr
          rw [if_neg c2]
          by_cases c3 : place ≠ []
          · rw [if_pos c3] at hr
            rw [if_pos c3, hi, bind_ok]
            cases hr
            exact ⟨_, rfl, ⟨rfl, h.opterr, h.optopt, h.optreset, rfl, rfl, h.nonoptStart, h.nonoptEnd, h.posixly, h.posixlySet, h.getoptval, h.nargv, h.stderr⟩,
              ⟨hstep.length, hstep.optind, hstep.start, hstep.fin⟩, fun hh => absurd rfl hh, hletter _ _ rfl⟩
          · rw [if_neg c3] at hr
            rw [if_neg c3]
            by_cases c4 : oli.tail.tail.head? ≠ some ':'
            · rw [if_pos c4] at hr
              rw [if_pos c4, hi, bind_ok]
              by_cases c5 : g.optind + 1 ≥ n
              · rw [if_pos c5] at hr
                cases hr
                rw [if_pos (by omega)]
                have h1 : SameInts { i with place := [], optarg := none, optind := ((g.optind + 1 : Nat) : Int) } { g with place := [], optarg := none, optind := g.optind + 1 } :=
                  ⟨rfl, h.opterr, h.optopt, h.optreset, rfl, rfl, h.nonoptStart, h.nonoptEnd, h.posixly, h.posixlySet, h.getoptval, h.nargv, h.stderr⟩
                have ha1 : Arranged n { g with place := [], optarg := none, optind := g.optind + 1 } := ⟨hstep.length, hstep.optind, hstep.start, hstep.fin⟩
                refine ⟨_, rfl, bad_int h1 _ _ _, bad_arranged ha1 _ _ _, ?_, .inr ⟨warnInt_idx _ _ _, .inr (.inr (.inl rfl))⟩⟩
                dsimp only
                rw [warn_place]
                intro hh; exact absurd rfl hh
              · rw [if_neg c5] at hr
                rw [if_neg (by omega)]
                obtain ⟨v, hv, hr⟩ := mbind_ok_inv hr
                have hv' : argvInt i.nargv ((g.optind + 1 : Nat) : Int) = .ok v := by rw [h.nargv]; exact (argvAt_int hv).1
                rw [hv', bind_ok, int32_succ (by omega), bind_ok]
                cases hr
                exact ⟨_, rfl, ⟨rfl, h.opterr, h.optopt, h.optreset, rfl, rfl, h.nonoptStart, h.nonoptEnd, h.posixly, h.posixlySet, h.getoptval, h.nargv, h.stderr⟩,
                  ⟨hstep.length, by dsimp only; omega, fun b hb => Nat.le_succ_of_le (hstep.start b hb), fun e he => ⟨Nat.le_succ_of_le (hstep.fin e he).1, (hstep.fin e he).2⟩⟩,
                  fun hh => absurd rfl hh, hletter _ _ rfl⟩
            · rw [if_neg c4] at hr
              rw [if_neg c4, hi, bind_ok]
              cases hr
              exact ⟨_, rfl, ⟨rfl, h.opterr, h.optopt, h.optreset, rfl, rfl, h.nonoptStart, h.nonoptEnd, h.posixly, h.posixlySet, h.getoptval, h.nargv, h.stderr⟩,
                ⟨hstep.length, hstep.optind, hstep.start, hstep.fin⟩, fun hh => absurd rfl hh, hletter _ _ rfl⟩

/-! ### One call -/

theorem dashCall_int {i : IntState} {g : GState} (h : SameInts i g) {n : Nat} (ha : Arranged n g) (hn : n < 2147483647)
    (hlt : g.optind < n) {options : CStr} {longs : List LongOpt} (hl : longs.length ≤ 2147483647) {idx : Bool}
    {shortToo : Int} {st : Bool} (hst : shortToo ≠ 0 ↔ st = true) {flags : Nat} {only : Bool}
    (hfl : flags &&& 4 ≠ 0 ↔ only = true) {dash : CStr} (hdash : dashText i.dashPrefix = dash) {r : Int} {g' : GState}
    (hr : (do
      let (optchar, s) ← parseLongOptions options longs st only dash g
      if optchar ≠ -1 then .ok (optchar, { s with place := [] })
      else shortPart n options (some longs) only s) = (.ok (r, g') : M _)) :
    ∃ i', (do
      let (optchar, s) ← parseLongOptionsInt options longs idx shortToo flags i
      if optchar ≠ -1 then .ok (optchar, { s with place := [] })
      else shortPartInt n options (some longs) idx flags s) = (.ok (r, i') : M _) ∧ SameInts i' g' ∧ Arranged n g' ∧
      (g'.place ≠ [] → g'.optind < n) ∧ IdxEnd options longs idx i r i' g' := by
  obtain ⟨⟨r1, g1⟩, h1, hr⟩ := mbind_ok_inv hr
  obtain ⟨i1, e1, e2, e3, e4, e5⟩ := parseLong_int (idx := idx) h ha hn hlt hl hst hfl hdash h1
  rw [e1, bind_ok]
  simp only at hr ⊢
  by_cases hc : r1 ≠ -1
  · rw [if_pos hc] at hr
    rw [if_pos hc]
    cases hr
    exact ⟨_, rfl, ⟨e2.optind, e2.opterr, e2.optopt, e2.optreset, e2.optarg, rfl, e2.nonoptStart, e2.nonoptEnd, e2.posixly, e2.posixlySet, e2.getoptval, e2.nargv, e2.stderr⟩,
      ⟨e3.length, e3.optind, e3.start, e3.fin⟩, fun hh => absurd rfl hh, e5.ending rfl rfl rfl⟩
  · rw [if_neg hc] at hr
    rw [if_neg hc]
    have hc' : r1 = -1 := by_contra hc
    obtain ⟨i2, f1, f2, f3, f4, f5⟩ := shortPart_int (idx := idx) e2 e3 hn (e4 hc') (longs := some longs) hl hfl hr
    refine ⟨i2, f1, f2, f3, f4, ?_⟩
    have hid : i1.idx = i.idx := by
      rcases e5 with ⟨k, l, _, _, _, q⟩ | ⟨q, _⟩
      · exfalso
        rw [hc'] at q
        split at q
        · omega
        · omega
      · exact q
    rcases f5 with ⟨k, l, q1, q2, q3⟩ | ⟨q1, q2⟩
    · exact .inl ⟨k, l, q1, by rw [q2, hid], q3⟩
    · exact .inr ⟨by rw [q1, hid], q2⟩

theorem goCall_int {i : IntState} {g : GState} (h : SameInts i g) {n : Nat} (ha : Arranged n g) (hn : n < 2147483647)
    (hlt : g.optind < n) {options : CStr} {longs : Option (List LongOpt)} (hl : (longs.getD []).length ≤ 2147483647) {idx : Bool}
    {flags : Nat} {only : Bool} (hfl : flags &&& 4 ≠ 0 ↔ only = true) {r : Int} {g' : GState}
    (hr : (match (generalizing := false) longs with
      | none => shortPart n options longs only g
      | some ls =>
        if g.place.head? = some '-' then
          let s := { g with place := g.place.tail }
          if s.place = [] then .ok (BADARG options, s)
          else do
            let (optchar, s) ← parseLongOptions options ls false only (cs "--") s
            if optchar ≠ -1 then .ok (optchar, { s with place := [] })
            else shortPart n options longs only s
        else if only then do
          let shortToo := match g.place.head? with
            | some c => c != ':' && (strchr options c).isSome
            | none => false
          let (optchar, s) ← parseLongOptions options ls shortToo only (cs "-") g
          if optchar ≠ -1 then .ok (optchar, { s with place := [] })
          else shortPart n options longs only s
        else shortPart n options longs only g) = (.ok (r, g') : M _)) :
    ∃ i', (match (generalizing := false) longs with
      | none => shortPartInt n options longs idx flags i
      | some ls =>
        if i.place.head? = some '-' ∨ flags &&& 4 ≠ 0 then
          let s := { i with dashPrefix := 0 }
          if s.place.head? = some '-' then
            let s := { s with place := s.place.tail }
            if s.place = [] then .ok (BADARG options, s)
            else do
              let (optchar, s) ← parseLongOptionsInt options ls idx 0 flags { s with dashPrefix := 1 }
              if optchar ≠ -1 then .ok (optchar, { s with place := [] })
              else shortPartInt n options longs idx flags s
          else do
            let shortToo := match s.place.head? with
              | some c => if c ≠ ':' ∧ (strchr options c).isSome then 1 else 0
              | none => 0
            let (optchar, s) ← parseLongOptionsInt options ls idx shortToo flags s
            if optchar ≠ -1 then .ok (optchar, { s with place := [] })
            else shortPartInt n options longs idx flags s
        else shortPartInt n options longs idx flags i) = (.ok (r, i') : M _) ∧ SameInts i' g' ∧ Arranged n g' ∧
      (g'.place ≠ [] → g'.optind < n) ∧ IdxEnd options (longs.getD []) idx i r i' g' := by
  cases longs with
  | none => exact shortPart_int h ha hn hlt hl hfl hr
  | some ls =>
    simp only at hr ⊢
    by_cases c1 : g.place.head? = some '-'
    · rw [if_pos c1] at hr
      rw [if_pos (.inl (by rw [h.place]; exact c1)), if_pos (by rw [h.place]; exact c1)]
      by_cases c2 : g.place.tail = []
      · rw [if_pos c2] at hr
        rw [if_pos (by rw [h.place]; exact c2)]
        cases hr
        exact ⟨_, rfl, ⟨h.optind, h.opterr, h.optopt, h.optreset, h.optarg, by rw [h.place], h.nonoptStart, h.nonoptEnd, h.posixly, h.posixlySet, h.getoptval, h.nargv, h.stderr⟩,
          ⟨ha.length, ha.optind, ha.start, ha.fin⟩, fun hh => absurd c2 hh, .inr ⟨rfl, .inr (.inr (.inl rfl))⟩⟩
      · rw [if_neg c2] at hr
        rw [if_neg (by rw [h.place]; exact c2)]
        have h1 : SameInts { i with place := i.place.tail, dashPrefix := 1 } { g with place := g.place.tail } :=
          ⟨h.optind, h.opterr, h.optopt, h.optreset, h.optarg, by rw [h.place], h.nonoptStart, h.nonoptEnd, h.posixly, h.posixlySet, h.getoptval, h.nargv, h.stderr⟩
        exact dashCall_int (shortToo := 0) h1 ⟨ha.length, ha.optind, ha.start, ha.fin⟩ hn hlt hl (by simp) hfl rfl hr
    · rw [if_neg c1] at hr
      by_cases c2 : only = true
      · rw [if_pos c2] at hr
        rw [if_pos (.inr (hfl.2 c2)), if_neg (by rw [h.place]; exact c1)]
        have h1 : SameInts { i with dashPrefix := 0 } g :=
          ⟨h.optind, h.opterr, h.optopt, h.optreset, h.optarg, h.place, h.nonoptStart, h.nonoptEnd, h.posixly, h.posixlySet, h.getoptval, h.nargv, h.stderr⟩
        refine dashCall_int h1 ha hn hlt hl ?_ hfl rfl hr
        rw [h.place]
        cases g.place.head? with
        | none => simp
        | some c =>
          simp only
          by_cases hc : c ≠ ':' ∧ (strchr options c).isSome = true
          · rw [if_pos hc]; simp [hc.1, hc.2]
          · rw [if_neg hc]
            simp only [ne_eq, not_true_eq_false, false_iff]
            intro hh
            simp at hh
            exact hc hh
      · rw [if_neg c2] at hr
        rw [if_neg (by
          rintro (hh | hh)
          · exact c1 (h.place ▸ hh)
          · exact c2 (hfl.1 hh))]
        exact shortPart_int h ha hn hlt (longs := some ls) hl hfl hr

/-- `*idx` is not touched, and the code is -1 or 1. -/
def QuietStart (s : IntState) : StartInt → Prop
  | .ret c s' => s'.idx = s.idx ∧ (c = -1 ∨ c = INORDER)
  | .go s' => s'.idx = s.idx

theorem endOfArgsInt_quiet {s : IntState} {r : StartInt} (h : endOfArgsInt s = .ok r) : QuietStart s r := by
  unfold endOfArgsInt at h
  simp only at h
  split at h
  · obtain ⟨_, _, h⟩ := mbind_ok_inv h
    obtain ⟨_, _, h⟩ := mbind_ok_inv h
    cases h; exact ⟨rfl, .inl rfl⟩
  · split at h
    · cases h; exact ⟨rfl, .inl rfl⟩
    · cases h; exact ⟨rfl, .inl rfl⟩

theorem foundDashDashInt_quiet {s : IntState} {r : StartInt} (h : foundDashDashInt s = .ok r) : QuietStart s r := by
  unfold foundDashDashInt at h
  obtain ⟨_, _, h⟩ := mbind_ok_inv h
  simp only at h
  split at h
  · obtain ⟨_, _, h⟩ := mbind_ok_inv h
    obtain ⟨_, _, h⟩ := mbind_ok_inv h
    cases h; exact ⟨rfl, .inl rfl⟩
  · cases h; exact ⟨rfl, .inl rfl⟩

theorem skipOperandInt_idx {s s' : IntState} (h : skipOperandInt s = .ok s') : s'.idx = s.idx := by
  unfold skipOperandInt at h
  split at h
  · obtain ⟨_, _, h⟩ := mbind_ok_inv h
    cases h; rfl
  · split at h
    · obtain ⟨_, _, h⟩ := mbind_ok_inv h
      obtain ⟨_, _, h⟩ := mbind_ok_inv h
      obtain ⟨_, _, h⟩ := mbind_ok_inv h
      cases h; rfl
    · obtain ⟨_, _, h⟩ := mbind_ok_inv h
      cases h; rfl

theorem scanStartInt_quiet {n : Int} {flags : Nat} : ∀ (fuel : Nat) (s : IntState) (r : StartInt), scanStartInt n flags fuel s = .ok r → QuietStart s r
  | 0, _, _, h => by cases h
  | fuel + 1, s, r, h => by
    rw [scanStartInt] at h
    split at h
    · simp only at h
      split at h
      · exact endOfArgsInt_quiet (s := { s with optreset := 0 }) h
      · obtain ⟨arg, _, h⟩ := mbind_ok_inv h
        split at h
        · split at h
          · obtain ⟨_, _, h⟩ := mbind_ok_inv h
            cases h; exact ⟨rfl, .inr rfl⟩
          · split at h
            · cases h; exact ⟨rfl, .inl rfl⟩
            · obtain ⟨s', h1, h⟩ := mbind_ok_inv h
              have h2 := skipOperandInt_idx h1
              have h3 := scanStartInt_quiet fuel _ _ h
              cases r with
              | ret c s2 => exact ⟨h3.1.trans h2, h3.2⟩
              | go s2 => exact Eq.trans h3 h2
        · have hq : (if s.nonoptStart ≠ -1 ∧ s.nonoptEnd = -1 then { s with optreset := 0, nonoptEnd := s.optind }
              else { s with optreset := 0 } : IntState).idx = s.idx := by split <;> rfl
          split at h
          · have h3 := foundDashDashInt_quiet h
            cases r with
            | ret c s2 => exact ⟨h3.1.trans hq, h3.2⟩
            | go s2 => exact Eq.trans h3 hq
          · cases h; exact hq
    · cases h; exact rfl

theorem getoptInternal_int {i : IntState} {g : GState} (h : SameInts i g) {n : Nat} (ho : InOrder n g) (h1n : 1 ≤ n) (hn : n < 2147483647)
    (env : Bool) {options : CStr} {longs : Option (List LongOpt)} (hl : (longs.getD []).length ≤ 2147483647) {idx : Bool}
    {flags : Nat} {permute only : Bool}
    (hfl : (flags = 0 ∧ permute = false ∧ only = false) ∨ (flags = 1 ∧ permute = true ∧ only = false) ∨ (flags = 5 ∧ permute = true ∧ only = true))
    {r : Int} {g' : GState} (hr : getoptInternal env n options longs permute only g = .ok (r, g')) :
    ∃ i', getoptInternalInt env n options longs idx flags i = .ok (r, i') ∧ SameInts i' g' ∧ InOrder n g' ∧
      IdxEnd (Getopt.bare options) (longs.getD []) idx i r i' g' := by
  unfold getoptInternal at hr
  unfold getoptInternalInt
  -- `optind` 0
  obtain ⟨i1, hi1, g1, hg1, s1, q1, q2, q3, q4, q5, q6⟩ : ∃ i1, (if i.optind = 0 then { i with optind := 1, optreset := 1 } else i) = i1 ∧
      ∃ g1, (if g.optind = 0 then { g with optind := 1, optreset := true } else g) = g1 ∧ SameInts i1 g1 ∧ g1.nargv.length = n ∧ g1.optind ≤ n ∧
      (g1.optreset = false → g1.place ≠ [] → g1.optind < n) ∧ (g1.optreset = false → ∀ b, g1.nonoptStart = some b → b ≤ g1.optind) ∧
      (g1.optreset = false → ∀ e, g1.nonoptEnd = some e → e ≤ g1.optind ∧ ∃ b, g1.nonoptStart = some b ∧ b ≤ e) ∧ i1.idx = i.idx := by
    refine ⟨_, rfl, _, rfl, ?_⟩
    by_cases h0 : g.optind = 0
    · rw [if_pos h0, if_pos (by rw [h.optind, h0]; rfl)]
      exact ⟨⟨rfl, h.opterr, h.optopt, by simp, h.optarg, h.place, h.nonoptStart, h.nonoptEnd, h.posixly, h.posixlySet, h.getoptval, h.nargv, h.stderr⟩,
        ho.length, h1n, fun hh => (by cases hh), fun hh => (by cases hh), fun hh => (by cases hh), rfl⟩
    · rw [if_neg h0, if_neg (by rw [h.optind]; omega)]
      exact ⟨h, ho.length, ho.optind, fun hh => ho.place hh h0, fun hh => ho.start hh h0, fun hh => ho.fin hh h0, rfl⟩
  rw [hi1]
  rw [hg1] at hr
  clear hi1 hg1
  simp only at hr ⊢
  -- POSIXLY_CORRECT
  obtain ⟨px, hpx⟩ : ∃ px, (if g1.posixly = none ∨ g1.optreset = true then env else g1.posixly.getD env) = px := ⟨_, rfl⟩
  obtain ⟨i2, hi2, s2, q7, q8⟩ : ∃ i2, (if i1.posixly = -1 ∨ i1.optreset ≠ 0 then { i1 with posixly := if env = true then 1 else 0 } else i1) = i2 ∧
      SameInts i2 { g1 with posixly := some px } ∧ i2.idx = i.idx ∧ (i2.posixly ≠ 0 ↔ px = true) := by
    refine ⟨_, rfl, ?_⟩
    by_cases hc : g1.posixly = none ∨ g1.optreset = true
    · rw [if_pos hc] at hpx
      subst hpx
      rw [if_pos (by
        rcases hc with hc | hc
        · exact .inl (s1.posixly.2 hc)
        · exact .inr (s1.optreset.2 hc))]
      refine ⟨⟨s1.optind, s1.opterr, s1.optopt, s1.optreset, s1.optarg, s1.place, s1.nonoptStart, s1.nonoptEnd, ?_, ?_, s1.getoptval, s1.nargv, s1.stderr⟩, q6, ?_⟩
      · cases env <;> simp
      · intro b hb; cases hb; cases env <;> simp
      · cases env <;> simp
    · rw [if_neg hc] at hpx
      rw [if_neg (by
        rintro (hh | hh)
        · exact hc (.inl (s1.posixly.1 hh))
        · exact hc (.inr (s1.optreset.1 hh)))]
      cases hx : g1.posixly with
      | none => exact absurd (.inl hx) hc
      | some b =>
        rw [hx] at hpx
        have : b = px := hpx
        subst this
        have hne : i1.posixly ≠ -1 := fun hh => hc (.inl (s1.posixly.1 hh))
        refine ⟨⟨s1.optind, s1.opterr, s1.optopt, s1.optreset, s1.optarg, s1.place, s1.nonoptStart, s1.nonoptEnd, ?_, ?_, s1.getoptval, s1.nargv, s1.stderr⟩, q6, s1.posixlySet _ hx⟩
        · simp [hne]
        · intro b hb; cases hb; exact s1.posixlySet _ hx
  rw [hi2]
  rw [hpx] at hr
  clear hi2 hpx
  -- the flags
  obtain ⟨fl, hfl', pm, hpm, r1, r2, r3⟩ : ∃ fl, (if options.head? = some '-' then flags ||| 2
      else if i2.posixly ≠ 0 ∨ options.head? = some '+' then flags &&& 6 else flags) = fl ∧
      ∃ pm, (if options.head? = some '-' then permute else if px = true ∨ options.head? = some '+' then false else permute) = pm ∧
      (fl &&& 1 = 0 ↔ pm = false) ∧ (fl &&& 2 ≠ 0 ↔ decide (options.head? = some '-') = true) ∧ (fl &&& 4 ≠ 0 ↔ only = true) := by
    refine ⟨_, rfl, _, rfl, ?_⟩
    by_cases hd : options.head? = some '-'
    · rw [if_pos hd, if_pos hd]
      rcases hfl with ⟨rfl, rfl, rfl⟩ | ⟨rfl, rfl, rfl⟩ | ⟨rfl, rfl, rfl⟩ <;> simp [hd]
    · rw [if_neg hd, if_neg hd]
      by_cases hp : px = true ∨ options.head? = some '+'
      · rw [if_pos hp, if_pos (by rw [q8]; exact hp)]
        rcases hfl with ⟨rfl, rfl, rfl⟩ | ⟨rfl, rfl, rfl⟩ | ⟨rfl, rfl, rfl⟩ <;> simp [hd]
      · rw [if_neg hp, if_neg (by rw [q8]; exact hp)]
        rcases hfl with ⟨rfl, rfl, rfl⟩ | ⟨rfl, rfl, rfl⟩ | ⟨rfl, rfl, rfl⟩ <;> simp [hd]
  rw [hfl']
  rw [hpm] at hr
  clear hfl' hpm
  obtain ⟨i3, hi3, g3, hg3, s3, a3, p3, q9⟩ : ∃ i3, (if i2.optreset ≠ 0 then { i2 with optarg := none, nonoptStart := -1, nonoptEnd := -1 }
        else { i2 with optarg := none }) = i3 ∧
      ∃ g3, (if g1.optreset = true then { g1 with posixly := some px, optarg := none, nonoptStart := none, nonoptEnd := none }
        else { g1 with posixly := some px, optarg := none }) = g3 ∧ SameInts i3 g3 ∧ Arranged n g3 ∧
      (g3.optreset = false → g3.place ≠ [] → g3.optind < n) ∧ i3.idx = i.idx := by
    refine ⟨_, rfl, _, rfl, ?_⟩
    by_cases hc : g1.optreset = true
    · rw [if_pos hc, if_pos (s2.optreset.2 hc)]
      exact ⟨⟨s2.optind, s2.opterr, s2.optopt, s2.optreset, rfl, s2.place, rfl, rfl, s2.posixly, s2.posixlySet, s2.getoptval, s2.nargv, s2.stderr⟩,
        ⟨q1, q2, fun b hb => (by cases hb), fun b hb => (by cases hb)⟩, fun hh => (by rw [hc] at hh; cases hh), q7⟩
    · rw [if_neg hc, if_neg (fun hh => hc (s2.optreset.1 hh))]
      have hc' : g1.optreset = false := by simpa using hc
      exact ⟨⟨s2.optind, s2.opterr, s2.optopt, s2.optreset, rfl, s2.place, s2.nonoptStart, s2.nonoptEnd, s2.posixly, s2.posixlySet, s2.getoptval, s2.nargv, s2.stderr⟩,
        ⟨q1, q2, q4 hc', q5 hc'⟩, fun _ => q3 hc', q7⟩
  rw [hi3]
  rw [hg3] at hr
  clear hi3 hg3
  have hb : (if options.head? = some '+' ∨ options.head? = some '-' then options.tail else options) = Getopt.bare options := rfl
  rw [hb] at hr ⊢
  obtain ⟨r1', hs, hr⟩ := mbind_ok_inv hr
  obtain ⟨r2', e1, e2⟩ := scanStart_int (by omega) r1 r2 (n + 1) i3 g3 r1' (by omega) s3 a3 p3 hs
  have e1' : scanStartInt (↑n) fl ((n : Int).toNat + 1) i3 = .ok r2' := e1
  rw [e1', bind_ok]
  cases r1' with
  | ret c gr =>
    cases r2' with
    | go _ => exact e2.elim
    | ret c' ir =>
      obtain ⟨rfl, t1, t2, t3⟩ := e2
      cases hr
      obtain ⟨v1, v2⟩ := scanStartInt_quiet _ _ _ e1
      refine ⟨_, rfl, t1, t2.inOrder (fun hh => absurd t3 hh), .inr ⟨v1.trans q9, ?_⟩⟩
      rcases v2 with v2 | v2
      · exact .inl v2
      · exact .inr (.inr (.inr (.inl v2)))
  | go gg =>
    cases r2' with
    | ret _ _ => exact e2.elim
    | go ig =>
      obtain ⟨t1, t2, t3⟩ := e2
      obtain ⟨i', u1, u2, u3, u4, u5⟩ := goCall_int (idx := idx) (options := Getopt.bare options) (longs := longs) (only := only) (r := r) (g' := g') t1 t2 hn t3 hl r3 hr
      have v1 : ig.idx = i3.idx := scanStartInt_quiet _ _ _ e1
      refine ⟨i', u1, u2, u3.inOrder u4, ?_⟩
      rcases u5 with ⟨k, l, w1, w2, w3⟩ | ⟨w1, w2⟩
      · exact .inl ⟨k, l, w1, by rw [w2, v1, q9], w3⟩
      · exact .inr ⟨by rw [w1, v1, q9], w2⟩

end Argtable
