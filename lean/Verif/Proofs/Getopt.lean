import Verif.Proofs.Permute
import Verif.Proofs.Tables
import Verif.Model.Parse
/-!
# Simulation of getopt by the specification's tokenizer
-/

namespace Argtable
open Spec

variable {σ : Type}

/-- The rest of `getopt_internal` (called from `getopt_long`) after the `start:` part. -/
def afterStart (nargc : Nat) (options : CStr) (ls : List LongOpt) : Start → M (Int × GState)
  | .ret code s => .ok (code, s)
  | .go s =>
    if s.place.head? = some '-' then
      if s.place.tail = [] then .ok (BADARG options, { s with place := s.place.tail })
      else do
        let (optchar, s) ← parseLongOptions options ls false false (cs "--") { s with place := s.place.tail }
        if optchar ≠ -1 then .ok (optchar, { s with place := [] })
        else shortPart nargc options (some ls) false s
    else shortPart nargc options (some ls) false s

theorem getoptLong_eq (env : Bool) (nargc : Nat) (so : CStr) (ls : List LongOpt) (g : GState)
    (posix : Bool) (h0 : g.optind ≠ 0) (hr : g.optreset = false) (hp : g.posixly = some posix) :
    getoptLong env nargc (':' :: so) ls g =
      (scanStart nargc (!posix) false { g with optarg := none } >>= afterStart nargc (':' :: so) ls) := by
  unfold getoptLong getoptInternal
  simp only [h0, if_false, hr, hp, List.head?_cons]
  have e : ({ g with posixly := some posix, optreset := false, optarg := none } : GState)
      = { g with optarg := none } := by
    cases g; simp at hp hr; simp [hp, hr]
  simp [hr]
  rw [e]
  cases hs : scanStart nargc (!posix) false { g with optarg := none } with
  | error e => simp
  | ok st =>
    cases st with
    | ret code s => simp [afterStart]
    | go s =>
      simp [afterStart]

/-- Layout of the argument vector between and during calls of getopt: `P` is finished, `N` are the
operands skipped so far, `O` the options read since, `R` what is still to be read. -/
structure Lay (posix : Bool) (log : List CStr) (tot : List CStr) (g : GState)
    (P N O R : List CStr) : Prop where
  argv : g.nargv = P ++ N ++ O ++ R
  optind : g.optind = P.length + N.length + O.length
  pos : P ≠ []
  reset : g.optreset = false
  posixly : g.posixly = some posix
  mode : (N = [] ∧ O = [] ∧ g.nonoptStart = none ∧ g.nonoptEnd = none) ∨
    (N ≠ [] ∧ O = [] ∧ g.nonoptStart = some P.length ∧ g.nonoptEnd = none) ∨
    (N ≠ [] ∧ g.nonoptStart = some P.length ∧ g.nonoptEnd = some (P.length + N.length))
  err : g.stderr = log
  perm : g.nargv.Perm tot
  head : P.head? = tot.head?
  px : posix = true → N = []

/-- State when getopt has returned −1: the operands `ops` start at `optind`. -/
def Final (log : List CStr) (tot : List CStr) (g : GState) (ops : List CStr) : Prop :=
  ∃ X, g.nargv = X ++ ops ∧ g.optind = X.length ∧ X ≠ [] ∧ g.stderr = log ∧ g.nargv.Perm tot ∧
    X.head? = tot.head?

section
variable {posix : Bool} {log : List CStr} {tot : List CStr}

theorem Lay.optind_ne {g : GState} {P N O R : List CStr} (h : Lay posix log tot g P N O R) :
    g.optind ≠ 0 := by
  have := List.length_pos_iff.2 h.pos
  rw [h.optind]; omega

theorem Lay.getElem {g : GState} {P N O R : List CStr} {a : CStr}
    (h : Lay posix log tot g P N O (a :: R)) : g.nargv[g.optind]? = some a := by
  rw [h.argv, h.optind, ← List.length_append, ← List.length_append]
  simp

theorem Lay.lt {g : GState} {P N O R : List CStr} {a : CStr}
    (h : Lay posix log tot g P N O (a :: R)) : g.optind < g.nargv.length := by
  rw [h.argv, h.optind]; simp; omega

/-- changing fields that do not matter -/
theorem Lay.congr {g g' : GState} {P N O R : List CStr} (h : Lay posix log tot g P N O R)
    (h1 : g'.nargv = g.nargv) (h2 : g'.optind = g.optind) (h3 : g'.optreset = g.optreset)
    (h4 : g'.posixly = g.posixly) (h5 : g'.nonoptStart = g.nonoptStart)
    (h6 : g'.nonoptEnd = g.nonoptEnd) (h7 : g'.stderr = g.stderr) :
    Lay posix log tot g' P N O R where
  argv := by rw [h1, h.argv]
  optind := by rw [h2, h.optind]
  pos := h.pos
  reset := by rw [h3, h.reset]
  posixly := by rw [h4, h.posixly]
  mode := by rw [h5, h6]; exact h.mode
  err := by rw [h7, h.err]
  perm := by rw [h1]; exact h.perm
  head := h.head
  px := h.px

theorem head_append {P X : List CStr} (h : P ≠ []) : (P ++ X).head? = P.head? := by
  cases P with
  | nil => exact absurd rfl h
  | cons a P => rfl

/-- Consuming `A` (one option and possibly its value). -/
theorem Lay.advance {g g' : GState} {P N O R A : List CStr}
    (h : Lay posix log tot g P N O (A ++ R)) (hA : A ≠ [])
    (hm : N = [] ∨ g.nonoptEnd ≠ none)
    (h1 : g'.nargv = g.nargv) (h2 : g'.optind = g.optind + A.length) (h3 : g'.optreset = g.optreset)
    (h4 : g'.posixly = g.posixly) (h5 : g'.nonoptStart = g.nonoptStart)
    (h6 : g'.nonoptEnd = g.nonoptEnd) (h7 : g'.stderr = g.stderr) :
    ∃ P' O', Lay posix log tot g' P' N O' R ∧ (g'.nonoptEnd = none ∨ O' ≠ []) := by
  by_cases hN : N = []
  · subst hN
    have hmode : O = [] ∧ g.nonoptStart = none ∧ g.nonoptEnd = none := by
      rcases h.mode with m | m | m
      · exact m.2
      · exact absurd rfl m.1
      · exact absurd rfl m.1
    obtain ⟨rfl, m1, m2⟩ := hmode
    refine ⟨P ++ A, [], ⟨?_, ?_, ?_, ?_, ?_, ?_, ?_, ?_, ?_, ?_⟩, Or.inl (by rw [h6, m2])⟩
    · rw [h1, h.argv]; simp
    · rw [h2, h.optind]; simp
    · simp [h.pos]
    · rw [h3, h.reset]
    · rw [h4, h.posixly]
    · exact Or.inl ⟨rfl, rfl, by rw [h5, m1], by rw [h6, m2]⟩
    · rw [h7, h.err]
    · rw [h1]; exact h.perm
    · rw [head_append h.pos, h.head]
    · exact h.px
  · have hne : g.nonoptEnd ≠ none := by
      rcases hm with m | m
      · exact absurd m hN
      · exact m
    have hmode : g.nonoptStart = some P.length ∧ g.nonoptEnd = some (P.length + N.length) := by
      rcases h.mode with m | m | m
      · exact absurd m.1 hN
      · exact absurd m.2.2.2 hne
      · exact m.2
    refine ⟨P, O ++ A, ⟨?_, ?_, ?_, ?_, ?_, ?_, ?_, ?_, ?_, ?_⟩, Or.inr (by simp [hA])⟩
    · rw [h1, h.argv]; simp
    · rw [h2, h.optind]; simp; omega
    · exact h.pos
    · rw [h3, h.reset]
    · rw [h4, h.posixly]
    · exact Or.inr (Or.inr ⟨hN, by rw [h5, hmode.1], by rw [h6, hmode.2]⟩)
    · rw [h7, h.err]
    · rw [h1]; exact h.perm
    · exact h.head
    · exact h.px

theorem perm_blocks (P N O R : List CStr) :
    (P ++ O ++ N ++ R).Perm (P ++ N ++ O ++ R) := by
  refine List.Perm.append_right R ?_
  simp only [List.append_assoc]
  exact List.Perm.append_left P List.perm_append_comm

theorem endOfArgs_lay {g : GState} {P N O : List CStr} (h : Lay posix log tot g P N O [])
    (hset : g.nonoptEnd = none ∨ O ≠ []) :
    ∃ gf, endOfArgs g = .ok (.ret (-1) gf) ∧ Final log tot gf N := by
  rcases h.mode with ⟨rfl, rfl, m1, m2⟩ | ⟨hN, rfl, m1, m2⟩ | ⟨hN, m1, m2⟩
  · refine ⟨{ g with place := [], nonoptStart := none, nonoptEnd := none },
      by simp only [endOfArgs, m1, m2], P, ?_, ?_, h.pos, h.err, h.perm, h.head⟩
    · simpa using h.argv
    · simpa using h.optind
  · refine ⟨{ g with place := [], optind := P.length, nonoptStart := none, nonoptEnd := none },
      by simp only [endOfArgs, m1, m2], P, ?_, rfl, h.pos, h.err, h.perm, h.head⟩
    simpa using h.argv
  · have hO : O ≠ [] := by
      rcases hset with hs | hs
      · rw [m2] at hs; cases hs
      · exact hs
    have hp : permuteArgs P.length (P.length + N.length) g.optind g.nargv
        = .ok (P ++ O ++ N ++ []) := by
      rw [h.optind, h.argv]; exact permuteArgs_blocks P N O [] hN hO
    refine ⟨{ g with place := [], nargv := P ++ O ++ N ++ [],
                      optind := g.optind - (P.length + N.length - P.length),
                      nonoptStart := none, nonoptEnd := none },
      by simp only [endOfArgs, m1, m2, hp, bind_ok], P ++ O, ?_, ?_, ?_, h.err, ?_, ?_⟩
    · simp
    · simp only [h.optind, List.length_append]; omega
    · simp [h.pos]
    · refine List.Perm.trans ?_ h.perm
      rw [h.argv]; exact perm_blocks P N O []
    · rw [head_append h.pos, h.head]

theorem foundDashDash_lay {g : GState} {P N O R : List CStr} {a : CStr}
    (h : Lay posix log tot g P N O (a :: R)) (hm : N = [] ∨ g.nonoptEnd ≠ none) :
    ∃ gf, foundDashDash g = .ok (.ret (-1) gf) ∧ Final log tot gf (N ++ R) := by
  rcases h.mode with ⟨rfl, rfl, m1, m2⟩ | ⟨hN, rfl, m1, m2⟩ | ⟨hN, m1, m2⟩
  · refine ⟨{ g with place := [], optind := g.optind + 1, nonoptStart := none, nonoptEnd := none },
      by simp only [foundDashDash, m2], P ++ [a], ?_, ?_, by simp, h.err, h.perm, ?_⟩
    · simpa using h.argv
    · simp [h.optind]
    · rw [head_append h.pos, h.head]
  · rcases hm with hm | hm
    · exact absurd hm hN
    · exact absurd m2 hm
  · have hp : permuteArgs P.length (P.length + N.length) (g.optind + 1) g.nargv
        = .ok (P ++ (O ++ [a]) ++ N ++ R) := by
      have := permuteArgs_blocks P N (O ++ [a]) R hN (by simp)
      rw [h.optind, h.argv, ← this]
      congr 1
      · simp; omega
      · simp
    refine ⟨{ g with place := [], nargv := P ++ (O ++ [a]) ++ N ++ R,
                      optind := g.optind + 1 - (P.length + N.length - P.length),
                      nonoptStart := none, nonoptEnd := none },
      by simp only [foundDashDash, m1, m2, hp, bind_ok], P ++ (O ++ [a]), ?_, ?_, ?_,
      h.err, ?_, ?_⟩
    · simp
    · simp only [h.optind, List.length_append, List.length_cons, List.length_nil]; omega
    · simp
    · refine List.Perm.trans ?_ h.perm
      rw [h.argv, show P ++ N ++ O ++ a :: R = P ++ N ++ (O ++ [a]) ++ R by simp]
      exact perm_blocks P N (O ++ [a]) R
    · rw [head_append h.pos, h.head]

theorem skipOperand_lay {g : GState} {P N O R : List CStr} {a : CStr}
    (h : Lay posix log tot g P N O (a :: R)) (hset : g.nonoptEnd = none ∨ O ≠ [])
    (hpx : posix = false) :
    ∃ g' P', skipOperand g = .ok g' ∧ Lay posix log tot g' P' (N ++ [a]) [] R ∧
      g'.place = g.place ∧ g'.nonoptEnd = none ∧ g'.optarg = g.optarg ∧
      g'.nargv.length = g.nargv.length := by
  have hpx' : posix = true → N ++ [a] = [] := by rw [hpx]; intro h; cases h
  rcases h.mode with ⟨rfl, rfl, m1, m2⟩ | ⟨hN, rfl, m1, m2⟩ | ⟨hN, m1, m2⟩
  · refine ⟨{ g with nonoptStart := some g.optind, optind := g.optind + 1 }, P,
      by simp only [skipOperand, m1], ⟨?_, ?_, h.pos, h.reset, h.posixly, ?_, h.err,
      h.perm, h.head, hpx'⟩, rfl, m2, rfl, rfl⟩
    · simpa using h.argv
    · simp only [h.optind]; simp
    · exact Or.inr (Or.inl ⟨by simp, rfl, by simp only [h.optind]; simp, m2⟩)
  · refine ⟨{ g with optind := g.optind + 1 }, P,
      by simp only [skipOperand, m1, m2], ⟨?_, ?_, h.pos, h.reset, h.posixly, ?_, h.err,
      h.perm, h.head, hpx'⟩, rfl, m2, rfl, rfl⟩
    · simpa using h.argv
    · simp only [h.optind]; simp; omega
    · exact Or.inr (Or.inl ⟨by simp, rfl, m1, m2⟩)
  · have hO : O ≠ [] := by
      rcases hset with hs | hs
      · rw [m2] at hs; cases hs
      · exact hs
    have hp : permuteArgs P.length (P.length + N.length) g.optind g.nargv
        = .ok (P ++ O ++ N ++ (a :: R)) := by
      rw [h.optind, h.argv]; exact permuteArgs_blocks P N O (a :: R) hN hO
    refine ⟨{ g with nargv := P ++ O ++ N ++ (a :: R),
                      nonoptStart := some (g.optind - (P.length + N.length - P.length)),
                      nonoptEnd := none, optind := g.optind + 1 }, P ++ O,
      by simp only [skipOperand, m1, m2, hp, bind_ok], ⟨?_, ?_, ?_, h.reset,
      h.posixly, ?_, h.err, ?_, ?_, hpx'⟩, rfl, rfl, rfl, ?_⟩
    · simp
    · simp only [h.optind, List.length_append, List.length_cons, List.length_nil]; omega
    · simp [h.pos]
    · refine Or.inr (Or.inl ⟨by simp, rfl, ?_, rfl⟩)
      simp only [h.optind, List.length_append, Option.some.injEq]; omega
    · refine List.Perm.trans ?_ h.perm
      rw [h.argv]; exact perm_blocks P N O (a :: R)
    · rw [head_append h.pos, h.head]
    · rw [h.argv]; simp; omega

/-! ### the `start:` part -/

theorem scanStart_end {g : GState} {P N O : List CStr} (h : Lay posix log tot g P N O [])
    (hp : g.place = []) (hset : g.nonoptEnd = none ∨ O ≠ []) (permute : Bool) :
    ∃ gf, scanStart g.nargv.length permute false g = .ok (.ret (-1) gf) ∧ Final log tot gf N := by
  obtain ⟨gf, e, f⟩ := endOfArgs_lay (g := { g with optreset := false })
    (h.congr rfl rfl h.reset.symm rfl rfl rfl rfl) hset
  refine ⟨gf, ?_, f⟩
  rw [scanStart]
  have : g.optind ≥ g.nargv.length := by rw [h.argv, h.optind]; simp; omega
  simp only [hp, List.isEmpty_nil, Bool.or_true, if_true, this, dite_true]
  exact e

theorem isOperand_iff (a : CStr) : isOperand a = true ↔ (a.head? ≠ some '-' ∨ a.tail = []) := by
  cases a with
  | nil => simp [isOperand]
  | cons c t =>
    cases t with
    | nil => simp [isOperand]
    | cons d t =>
      by_cases hc : c = '-'
      · subst hc; simp [isOperand]
      · simp only [List.head?_cons, Option.some.injEq, List.tail_cons, reduceCtorEq, or_false]
        unfold isOperand
        split
        · next heq => cases heq; exact absurd rfl hc
        · simp [hc]

theorem scanStart_posix_operand {g : GState} {P N O R : List CStr} {a : CStr}
    (h : Lay posix log tot g P N O (a :: R)) (hp : g.place = []) (ha : isOperand a = true)
    (hpx : posix = true) :
    ∃ gf, scanStart g.nargv.length false false g = .ok (.ret (-1) gf) ∧
      Final log tot gf (N ++ a :: R) := by
  have hlt := h.lt
  have hN := h.px hpx
  subst hN
  have hO : O = [] := by
    rcases h.mode with m | m | m
    · exact m.2.1
    · exact absurd rfl m.1
    · exact absurd rfl m.1
  subst hO
  rw [scanStart]
  have hcond := (isOperand_iff a).1 ha
  simp only [hp, List.isEmpty_nil, Bool.or_true, if_true, ge_iff_le, Nat.not_le.2 hlt, dite_false,
    h.getElem, hcond, Bool.not_false, Bool.false_eq_true, if_false]
  refine ⟨_, rfl, P, ?_, ?_, h.pos, h.err, h.perm, h.head⟩
  · simpa using h.argv
  · simpa using h.optind

theorem scanStart_operand {g : GState} {P N O R : List CStr} {a : CStr}
    (h : Lay posix log tot g P N O (a :: R)) (hp : g.place = []) (ha : isOperand a = true)
    (hset : g.nonoptEnd = none ∨ O ≠ []) (hpx : posix = false) :
    ∃ g' P', scanStart g.nargv.length true false g = scanStart g.nargv.length true false g' ∧
      Lay posix log tot g' P' (N ++ [a]) [] R ∧ g'.place = [] ∧ g'.nonoptEnd = none ∧
      g'.optarg = g.optarg ∧ g'.nargv.length = g.nargv.length := by
  obtain ⟨g', P', e, l, p1, p2, p3, p4⟩ :=
    skipOperand_lay (g := { g with optreset := false, place := [] })
    (h.congr rfl rfl h.reset.symm rfl rfl rfl rfl) hset hpx
  refine ⟨g', P', ?_, l, p1, p2, p3, p4⟩
  have hlt := h.lt
  conv_lhs => rw [scanStart]
  have hcond := (isOperand_iff a).1 ha
  simp only [hp, List.isEmpty_nil, Bool.or_true, if_true, ge_iff_le, Nat.not_le.2 hlt, dite_false,
    h.getElem, hcond, Bool.not_true, Bool.false_eq_true, if_false]
  split
  · next e' he => rw [e] at he; cases he
  · next s' he => rw [e] at he; cases he; rfl

/-- the state in which a new option argument is being read -/
def enter (g : GState) (cl : CStr) : GState :=
  { g with optreset := false, place := cl,
           nonoptEnd := if g.nonoptStart.isSome && g.nonoptEnd.isNone then some g.optind
                        else g.nonoptEnd }

theorem enter_lay {g : GState} {P N O R : List CStr} {a : CStr} {cl : CStr}
    (h : Lay posix log tot g P N O (a :: R)) :
    Lay posix log tot (enter g cl) P N O (a :: R) ∧
      (N = [] ∨ (enter g cl).nonoptEnd ≠ none) := by
  rcases h.mode with ⟨rfl, rfl, m1, m2⟩ | ⟨hN, rfl, m1, m2⟩ | ⟨hN, m1, m2⟩
  · refine ⟨⟨h.argv, h.optind, h.pos, rfl, h.posixly, ?_, h.err, h.perm, h.head, h.px⟩, Or.inl rfl⟩
    exact Or.inl ⟨rfl, rfl, m1, by simp [enter, m1, m2]⟩
  · refine ⟨⟨h.argv, h.optind, h.pos, rfl, h.posixly, ?_, h.err, h.perm, h.head, h.px⟩, ?_⟩
    · refine Or.inr (Or.inr ⟨hN, m1, ?_⟩)
      simp [enter, m1, m2, h.optind]
    · exact Or.inr (by simp [enter, m1, m2])
  · refine ⟨⟨h.argv, h.optind, h.pos, rfl, h.posixly, ?_, h.err, h.perm, h.head, h.px⟩, ?_⟩
    · exact Or.inr (Or.inr ⟨hN, m1, by simp [enter, m2]⟩)
    · exact Or.inr (by simp [enter, m2])

theorem scanStart_option {g : GState} {P N O R : List CStr} {a : CStr}
    (h : Lay posix log tot g P N O (a :: R)) (hp : g.place = []) (ha : isOperand a = false)
    (permute : Bool) :
    scanStart g.nargv.length permute false g =
      if a.tail = ['-'] then foundDashDash (enter g a.tail) else .ok (.go (enter g a.tail)) := by
  have hlt := h.lt
  rw [scanStart]
  have hcond : ¬ (a.head? ≠ some '-' ∨ a.tail = []) := by
    rw [← isOperand_iff, ha]; decide
  simp only [hp, List.isEmpty_nil, Bool.or_true, if_true, ge_iff_le, Nat.not_le.2 hlt, dite_false,
    h.getElem, hcond]
  unfold enter
  cases hs : (g.nonoptStart.isSome && g.nonoptEnd.isNone) <;> simp [hs]

theorem scanStart_place {g : GState} (hr : g.optreset = false) (hp : g.place ≠ [])
    (nargc : Nat) (permute : Bool) : scanStart nargc permute false g = .ok (.go g) := by
  rw [scanStart]
  have : (g.optreset || g.place.isEmpty) = false := by
    rw [hr]; cases hg : g.place with
    | nil => exact absurd hg hp
    | cons => rfl
  simp [this]

end

end Argtable
