import Verif.Proofs.Exchanges

/-!
# Command lines with the most exchanges: proofs
-/

namespace Argtable

open Spec

variable {α σ : Type}

theorem permuteArgsX_blocks (P N O R : List α) (hN : N ≠ []) (hO : O ≠ []) :
    permuteArgsX P.length (P.length + N.length) (P.length + N.length + O.length) (P ++ N ++ O ++ R) =
      .ok (P ++ O ++ N ++ R, N.length + O.length) := by
  have h1 := permuteArgsX_fst P.length (P.length + N.length) (P.length + N.length + O.length) (P ++ N ++ O ++ R)
  rw [permuteArgs_blocks P N O R hN hO] at h1
  cases h : permuteArgsX P.length (P.length + N.length) (P.length + N.length + O.length) (P ++ N ++ O ++ R) with
  | error e => rw [h] at h1; cases h1
  | ok r =>
    rw [h] at h1
    have h2 := (permuteArgsX_count (by omega) (by omega) h).1
    have h3 : r.1 = P ++ O ++ N ++ R := by injection h1
    rw [← h3, show N.length + O.length = r.2 by omega]

section
variable {n : Nat} {s : GState}

theorem scan_operand {r : Start × Nat} {x : CStr} (hp : s.place = []) (hlt : s.optind < n ) (hx : s.nargv[s.optind]? = some x)
    (hop : x.head? ≠ some '-' ∨ x.tail = []) (h : scanStartX n true false s = .ok r) :
    ∃ a q, skipOperandX { s with optreset := false, place := [] } = .ok a ∧ scanStartX n true false a.1 = .ok q ∧ r = (q.1, a.2 + q.2) := by
  rw [scanStartX, if_pos (by simp [hp]), dif_neg (by omega)] at h
  dsimp only at h
  rw [hx] at h
  dsimp only at h
  rw [if_pos hop, if_neg (by simp), if_neg (by simp)] at h
  split at h
  · cases h
  · next a ha =>
    split at h
    · cases h
    · next q hq => cases h; exact ⟨a, q, ha, hq, rfl⟩

theorem scan_option {c : Char} (hp : s.place = []) (hlt : s.optind < n) (hx : s.nargv[s.optind]? = some ['-', c]) (hc : c ≠ '-')
    {b : Nat} (hb : s.nonoptStart = some b) (he : s.nonoptEnd = none) :
    scanStartX n true false s = .ok (.go { s with optreset := false, nonoptEnd := some s.optind, place := [c] }, 0) := by
  rw [scanStartX, if_pos (by simp [hp]), dif_neg (by omega)]
  dsimp only
  rw [hx]
  dsimp only
  rw [if_neg (by simp), hb, he]
  simp [hc]

theorem scan_end {b e : Nat} {r : Start × Nat} (hp : s.place = []) (hge : n ≤ s.optind) (hb : s.nonoptStart = some b) (he : s.nonoptEnd = some e)
    (h1 : b ≤ e) (h2 : e ≤ s.optind) (h : scanStartX n true false s = .ok r) : r.2 = s.optind - b ∧ ∃ s', r.1 = .ret (-1) s' := by
  rw [scanStartX, if_pos (by simp [hp]), dif_pos hge] at h
  unfold endOfArgsX at h
  dsimp only at h
  rw [he, hb] at h
  obtain ⟨a, ha, h⟩ := mbind_ok_inv h
  cases h
  exact ⟨(permuteArgsX_count h1 h2 ha).1, _, rfl⟩
end

theorem getoptX_next {n : Nat} {options : CStr} {ls : List LongOpt} {s : GState} {r : (Int × GState) × Nat}
    (ho : options.head? = some ':') (hi : s.optind ≠ 0) (hr : s.optreset = false) (hx : s.posixly = some false)
    (h : getoptInternalX false n options (some ls) true false s = .ok r) :
    ∃ a, scanStartX n true false { s with optarg := none } = .ok a ∧ getoptRest n options (some ls) false a.1 = .ok r.1 ∧ r.2 = a.2 := by
  unfold getoptInternalX at h
  dsimp only at h
  obtain ⟨a, ha, h⟩ := mbind_ok_inv h
  obtain ⟨q, hq, h⟩ := mbind_ok_inv h
  cases h
  rw [ho] at ha hq
  refine ⟨a, ?_, by simpa using hq, rfl⟩
  simp only [if_neg hi, hr, hx] at ha
  rw [← ha]
  congr 1
  simp [hx, hr]

theorem getoptX_first {n : Nat} {options : CStr} {ls : List LongOpt} {s : GState} {r : (Int × GState) × Nat}
    (ho : options.head? = some ':') (hi : s.optind = 0)
    (h : getoptInternalX false n options (some ls) true false s = .ok r) :
    ∃ a, scanStartX n true false { s with optind := 1, optreset := true, posixly := some false, optarg := none, nonoptStart := none, nonoptEnd := none } = .ok a ∧
      getoptRest n options (some ls) false a.1 = .ok r.1 ∧ r.2 = a.2 := by
  unfold getoptInternalX at h
  dsimp only at h
  obtain ⟨a, ha, h⟩ := mbind_ok_inv h
  obtain ⟨q, hq, h⟩ := mbind_ok_inv h
  cases h
  rw [ho] at ha hq
  refine ⟨a, ?_, by simpa using hq, rfl⟩
  simp only [if_pos hi] at ha
  rw [← ha]
  congr 1 <;> simp

/-- A letter that is a flag. -/
def FlagLetter (so : CStr) (c : Char) : Prop :=
  c ≠ '-' ∧ c ≠ ':' ∧ c ≠ '\xff' ∧ ∃ oli, strchr so c = some oli ∧ oli.tail.head? ≠ some ':' ∧ oli.tail.head? ≠ some ';'

theorem rest_flag {n : Nat} {so : CStr} {ls : List LongOpt} {s : GState} {c : Char} (hc : FlagLetter so c) (hp : s.place = [c]) :
    getoptRest n so (some ls) false (.go s) = .ok (charInt c, { s with place := [], optind := s.optind + 1 }) ∧ charInt c ≠ -1 := by
  obtain ⟨h1, h2, h3, oli, h4, h5, h6⟩ := hc
  refine ⟨?_, charInt_ne (d := '\xff') h3⟩
  unfold getoptRest
  dsimp only
  rw [if_neg (by rw [hp]; simpa using h1), if_neg (by simp)]
  unfold shortPart
  rw [hp]
  dsimp only
  rw [if_neg (by simp [h1, h2]), h4]
  dsimp only
  rw [if_neg (fun h => h6 h.2.2), if_pos h5, if_pos rfl]

/-- Where things are when `j + 1` of the options have been read and `m` pairs are left. -/
structure Alt (p x : CStr) (c : Char) (j m : Nat) (s : GState) : Prop where
  argv : s.nargv = (p :: List.replicate j ['-', c]) ++ List.replicate (j + 1) x ++ [['-', c]] ++ (List.replicate m [x, ['-', c]]).flatten
  optind : s.optind = 2 * j + 3
  start : s.nonoptStart = some (j + 1)
  stop : s.nonoptEnd = some (2 * j + 2)
  place : s.place = []
  reset : s.optreset = false
  posix : s.posixly = some false

theorem alt_step {p x : CStr} {c : Char} {so : CStr} {ls : List LongOpt} {j m : Nat} {s : GState} {r : (Int × GState) × Nat}
    (ho : so.head? = some ':') (hc : FlagLetter so c) (hop : x.head? ≠ some '-' ∨ x.tail = []) (hs : Alt p x c j (m + 1) s)
    (h : getoptInternalX false (2 * j + 3 + 2 * (m + 1)) so (some ls) true false s = .ok r) :
    r.2 = j + 2 ∧ r.1.1 ≠ -1 ∧ Alt p x c (j + 1) m r.1.2 := by
  obtain ⟨a, ha, hq, hr⟩ := getoptX_next ho (by rw [hs.optind]; omega) hs.reset hs.posix h
  have hx : s.nargv[s.optind]? = some x := by
    rw [hs.argv, hs.optind, List.getElem?_append_right (by simp; omega)]
    simp only [List.length_append, List.length_cons, List.length_replicate, List.length_nil, List.replicate_succ, List.flatten_cons]
    rw [show 2 * j + 3 - (j + 1 + (j + 1) + (0 + 1)) = 0 by omega]
    rfl
  obtain ⟨b, q, hb, hq2, rfl⟩ := scan_operand (s := { s with optarg := none }) (n := 2 * j + 3 + 2 * (m + 1)) (by exact hs.place) (by have := hs.optind; show s.optind < _; omega) hx hop ha
  have hsk : skipOperandX { s with optarg := none, optreset := false, place := [] } =
      .ok ({ s with optarg := none, optreset := false, place := [], nonoptStart := some (j + 2), nonoptEnd := none, optind := 2 * j + 4, nargv := (p :: List.replicate j ['-', c]) ++ [['-', c]] ++ List.replicate (j + 1) x ++ (List.replicate (m + 1) [x, ['-', c]]).flatten }, j + 2) := by
    unfold skipOperandX
    dsimp only
    rw [hs.start, hs.stop]
    dsimp only
    have := permuteArgsX_blocks (p :: List.replicate j ['-', c]) (List.replicate (j + 1) x) [['-', c]] (List.replicate (m + 1) [x, ['-', c]]).flatten
      (by simp) (by simp)
    simp only [List.length_cons, List.length_replicate, List.length_nil] at this
    rw [hs.argv, hs.optind, show 2 * j + 2 = j + 1 + (j + 1) by omega, show 2 * j + 3 = j + 1 + (j + 1) + (0 + 1) by omega, this, bind_ok, show j + 1 + (j + 1) + (0 + 1) - (j + 1 + (j + 1) - (j + 1)) = j + 2 by omega,
      show j + 1 + (j + 1) + (0 + 1) + 1 = 2 * j + 4 by omega]
  rw [hsk] at hb
  cases hb
  have hx2 : ((p :: List.replicate j ['-', c]) ++ [['-', c]] ++ List.replicate (j + 1) x ++ (List.replicate (m + 1) [x, ['-', c]]).flatten)[2 * j + 4]? = some ['-', c] := by
    rw [List.getElem?_append_right (by simp; omega)]
    simp only [List.length_append, List.length_cons, List.length_replicate, List.length_nil, List.replicate_succ, List.flatten_cons]
    rw [show 2 * j + 4 - (j + 1 + (0 + 1) + (j + 1)) = 1 by omega]
    rfl
  rw [scan_option rfl (by dsimp only; omega) hx2 hc.1 rfl rfl] at hq2
  cases hq2
  obtain ⟨f1, f2⟩ := rest_flag (n := 2 * j + 3 + 2 * (m + 1)) (ls := ls) hc (s := { s with optarg := none, optreset := false, place := [c], nonoptStart := some (j + 2), nonoptEnd := some (2 * j + 4), optind := 2 * j + 4, nargv := (p :: List.replicate j ['-', c]) ++ [['-', c]] ++ List.replicate (j + 1) x ++ (List.replicate (m + 1) [x, ['-', c]]).flatten }) rfl
  rw [show getoptRest _ so (some ls) false _ = _ from f1] at hq
  have hq := Except.ok.inj hq
  rw [← hq, hr]
  refine ⟨rfl, f2, ⟨?_, by dsimp only; omega, rfl, rfl, rfl, rfl, hs.posix⟩⟩
  dsimp only
  rw [List.replicate_succ (n := m), List.replicate_succ' (n := j) (a := ['-', c]), List.replicate_succ' (n := j + 1) (a := x)]
  simp

theorem alt_end {p x : CStr} {c : Char} {so : CStr} {ls : List LongOpt} {j : Nat} {s : GState} {r : (Int × GState) × Nat}
    (ho : so.head? = some ':') (hs : Alt p x c j 0 s) (h : getoptInternalX false (2 * j + 3) so (some ls) true false s = .ok r) :
    r.2 = j + 2 ∧ r.1.1 = -1 := by
  obtain ⟨a, ha, hq, hr⟩ := getoptX_next ho (by rw [hs.optind]; omega) hs.reset hs.posix h
  obtain ⟨h1, s', h2⟩ := scan_end (s := { s with optarg := none }) (n := 2 * j + 3) (by exact hs.place) (by have := hs.optind; show _ ≤ s.optind; omega) hs.start hs.stop (by omega)
    (by have := hs.optind; show _ ≤ s.optind; omega) ha
  rw [h2] at hq
  have hq : ((-1 : Int), s') = r.1 := by injection hq
  rw [← hq, hr, h1]
  have := hs.optind
  exact ⟨by show s.optind - _ = _; omega, rfl⟩

theorem alt_first {p x : CStr} {c : Char} {so : CStr} {ls : List LongOpt} {m : Nat} {s : GState} {r : (Int × GState) × Nat}
    (ho : so.head? = some ':') (hc : FlagLetter so c) (hop : x.head? ≠ some '-' ∨ x.tail = [])
    (hv : s.nargv = p :: (List.replicate (m + 1) [x, ['-', c]]).flatten) (hi : s.optind = 0)
    (h : getoptInternalX false (3 + 2 * m) so (some ls) true false s = .ok r) :
    r.2 = 0 ∧ r.1.1 ≠ -1 ∧ Alt p x c 0 m r.1.2 := by
  obtain ⟨a, ha, hq, hr⟩ := getoptX_first ho hi h
  rw [scanStartX, if_pos (by simp), dif_neg (by dsimp only; omega)] at ha
  dsimp only at ha
  rw [hv] at ha
  rw [show (p :: (List.replicate (m + 1) [x, ['-', c]]).flatten)[1]? = some x by simp [List.replicate_succ]] at ha
  dsimp only at ha
  rw [if_pos hop, if_neg (by simp), if_neg (by simp)] at ha
  have hx2 : (p :: (List.replicate (m + 1) [x, ['-', c]]).flatten)[2]? = some ['-', c] := by simp [List.replicate_succ]
  split at ha
  · cases ha
  · next b hb =>
    cases hb
    rw [scan_option rfl (by dsimp only; omega) hx2 hc.1 rfl rfl] at ha
    cases ha
    obtain ⟨f1, f2⟩ := rest_flag (n := 3 + 2 * m) (ls := ls) hc (s := { s with optarg := none, optreset := false, posixly := some false, place := [c], nonoptStart := some 1, nonoptEnd := some 2, optind := 2, nargv := p :: (List.replicate (m + 1) [x, ['-', c]]).flatten }) rfl
    rw [show getoptRest _ so (some ls) false _ = _ from f1] at hq
    have hq := Except.ok.inj hq
    rw [← hq, hr]
    exact ⟨rfl, f2, ⟨by simp [List.replicate_succ], rfl, rfl, rfl, rfl, rfl, rfl⟩⟩

theorem alt_loop {p x : CStr} {c : Char} {so : CStr} {ls : List LongOpt} (ho : so.head? = some ':') (hc : FlagLetter so c)
    (hop : x.head? ≠ some '-' ∨ x.tail = []) : ∀ (fuel j m : Nat) (s : GState) (t : Table σ) (r : (GState × Table σ) × Nat),
    Alt p x c j m s → taggedLoopX false (2 * j + 3 + 2 * m) so ls fuel s t = .ok r →
    2 * r.2 = (m + 1) * (2 * j + 4) + m * (m + 1) := by
  intro fuel
  induction fuel with
  | zero => intro j m s t r _ h; cases h
  | succ fuel ih =>
    intro j m s t r hs h
    rw [taggedLoopX] at h
    obtain ⟨a, ha, h⟩ := mbind_ok_inv h
    cases m with
    | zero =>
      obtain ⟨h1, h2⟩ := alt_end ho hs ha
      rw [if_pos h2] at h
      cases h
      rw [h1]; omega
    | succ m =>
      obtain ⟨h1, h2, h3⟩ := alt_step ho hc hop hs ha
      rw [if_neg h2] at h
      obtain ⟨t', _, h⟩ := mbind_ok_inv h
      obtain ⟨q, hq, h⟩ := mbind_ok_inv h
      cases h
      rw [show 2 * j + 3 + 2 * (m + 1) = 2 * (j + 1) + 3 + 2 * m by omega] at hq
      have := ih _ _ _ _ _ h3 hq
      dsimp only
      rw [h1, Nat.mul_add, this]
      ring

theorem argParseX_worst {f k : Nat} {p x : CStr} {c : Char} {i : Nat} {t : Table σ} {g : GState} {r : (Nat × Table σ × GState) × Nat}
    (hwf : WF (t.entries.map declOf)) (hc : c ≠ '-') (hl : shortLookup c (t.entries.map declOf) 0 = some (i, .no)) (hop : isOperand x = true)
    (h : argParseX false f (p :: (List.replicate k [x, ['-', c]]).flatten) t g = .ok r) : 2 * r.2 = k * (k + 3) := by
  have hop : x.head? ≠ some '-' ∨ x.tail = [] := by
    unfold isOperand at hop
    split at hop
    · cases hop
    · next hn =>
      cases x with
      | nil => simp
      | cons a x =>
        cases x with
        | nil => simp
        | cons b x => exact .inl fun ha => hn b x (by simp at ha; rw [ha])
  rcases argParseX_inv h with ⟨h1, -⟩ | ⟨t0, a, -, h2, h3, h4⟩
  · cases h1
  · have hd := argReset_decls h2
    rw [← hd] at hwf hl
    unfold parseTaggedX at h3
    rw [allocLongoptions_ok _ hwf, allocShortoptions_ok] at h3
    simp only [bind_ok] at h3
    have hw := shortLookup_wf hwf hl
    have hso := sopts_ok t0.entries hwf
    have hlk := hso.look c hw.2.1
    rw [hl] at hlk
    obtain ⟨oli, ho, hk⟩ := hlk
    have hsemi : oli.tail.head? ≠ some ';' := by
      intro hh
      have : ';' ∈ oli := by
        cases oli with
        | nil => simp at hh
        | cons x y => exact List.mem_cons_of_mem _ (List.mem_of_mem_head? (by simpa using hh))
      exact hso.semi (strchr_mem ho this)
    have hfl : FlagLetter (':' :: t0.entries.flatMap shortChars) c :=
      ⟨hc, hw.2.1, hw.2.2.2.2, oli, by rw [strchr, if_neg (fun h => hw.2.1 h.symm)]; exact ho, hk, hsemi⟩
    rw [h4]
    cases k with
    | zero =>
      have hf : ∀ o ∈ (longTable (t0.entries.map declOf) 0).map toLongOpt, o.flag = true := by
        intro o ho
        obtain ⟨l, _, rfl⟩ := List.mem_map.1 ho
        rfl
      obtain ⟨b1, b2, b3, -, b5⟩ := taggedLoopX_bounded (n := 1) rfl hf (letters_ok _ hwf) (Nat.le_refl _) f 0 _ _ _ (.inr ⟨rfl, rfl, rfl⟩) h3
      rw [show a.1.1.optind = 1 by omega] at b5
      simp [sq] at b5
      omega
    | succ m =>
      cases f with
      | zero => cases h3
      | succ f =>
        rw [taggedLoopX] at h3
        obtain ⟨b, hb, h3⟩ := mbind_ok_inv h3
        have hlen : (p :: (List.replicate (m + 1) [x, ['-', c]]).flatten).length = 3 + 2 * m := by
          simp [List.length_flatten]; omega
        rw [hlen] at hb h3
        obtain ⟨q1, q2, q3⟩ := alt_first rfl hfl hop rfl rfl hb
        rw [if_neg q2] at h3
        obtain ⟨t', _, h3⟩ := mbind_ok_inv h3
        obtain ⟨q, hq, h3⟩ := mbind_ok_inv h3
        cases h3
        have := alt_loop rfl hfl hop f 0 m _ _ _ q3 (by simpa using hq)
        dsimp only
        rw [q1, Nat.zero_add, this]
        ring

end Argtable
