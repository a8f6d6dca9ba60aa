import Mathlib.Data.List.Basic
import Mathlib.Tactic.Linarith
import Verif.Spec.WellFormed
/-!
# The option tables built from an argument table
-/

namespace Argtable
open Spec

variable {σ : Type}

@[simp] theorem bind_ok {α β : Type} (a : α) (f : α → M β) : ((Except.ok a : M α) >>= f) = f a := rfl
@[simp] theorem bind_err {α β : Type} (e : Fault) (f : α → M β) :
    ((Except.error e : M α) >>= f) = .error e := rfl

/-! ### names -/

theorem splitNames_nil : splitNames [] = [] := by rw [splitNames]; simp

theorem splitNames_cons (c : Char) (s : CStr) :
    splitNames (c :: s) = (c :: s).takeWhile (· != ',') ::
      splitNames (((c :: s).dropWhile (· != ',')).tail) := by
  rw [splitNames]; simp

theorem namesOf_cons {c : Char} (hc : c ≠ ',') (s : CStr) :
    namesOf (c :: s) = match namesOf s with
      | [] => [[c]]
      | n :: ns => (c :: n) :: ns := by
  exact namesOf.eq_3 c s hc

theorem splitNames_eq (s : CStr) : splitNames s = namesOf s := by
  induction s with
  | nil => rw [splitNames_nil]; rfl
  | cons c s ih =>
    rw [splitNames_cons]
    by_cases hc : c = ','
    · subst hc
      simp [namesOf, ih]
    · have hne : (c != ',') = true := by simp [hc]
      rw [List.takeWhile_cons, List.dropWhile_cons]
      simp only [hne, if_true]
      rw [namesOf_cons hc, ← ih]
      cases s with
      | nil => simp [splitNames_nil]
      | cons d s =>
        rw [splitNames_cons]

theorem countLongopts_cons (c : Char) (t : CStr) :
    countLongopts (c :: t) = .ok (1 + t.count ',') := by
  have key : ∀ (n : Nat) (t : CStr), t.length ≤ n → ∀ c, countLongopts (c :: t) = .ok (1 + t.count ',') := by
    intro n
    induction n with
    | zero =>
      intro t ht c
      have : t = [] := List.length_eq_zero_iff.1 (by omega)
      subst this
      rw [countLongopts]; simp [strchr]
    | succ n ih =>
      intro t ht c
      rw [countLongopts]
      split
      · next h =>
        have : ∀ t, strchr t ',' = none → t.count ',' = 0 := by
          intro t
          induction t with
          | nil => simp
          | cons d t iht =>
            intro h
            simp only [strchr] at h
            split at h
            · cases h
            · next hd => rw [List.count_cons_of_ne (by simpa using hd), iht h]
        rw [this _ h]
      · next r h =>
        have : ∀ t r, strchr t ',' = some r → ∃ r', r = ',' :: r' ∧ t.count ',' = 1 + r'.count ',' ∧
            r'.length < t.length := by
          intro t
          induction t with
          | nil => simp [strchr]
          | cons d t iht =>
            intro r h
            simp only [strchr] at h
            split at h
            · next hd =>
              cases h; subst hd
              exact ⟨t, rfl, by simp [Nat.add_comm], by simp⟩
            · next hd =>
              obtain ⟨r', h1, h2, h3⟩ := iht r h
              refine ⟨r', h1, ?_, by simp; omega⟩
              rw [List.count_cons_of_ne (by simpa using hd), h2]
        obtain ⟨r', rfl, h2, h3⟩ := this t r h
        rw [ih r' (by omega) ',']
        simp [h2]; omega
  exact key t.length t (le_refl _) c

theorem namesOf_length (s : CStr) : (namesOf s).length ≤ s.count ',' + 1 := by
  induction s with
  | nil => simp [namesOf]
  | cons c s ih =>
    by_cases hc : c = ','
    · subst hc; simp [namesOf]; exact ih
    · rw [List.count_cons_of_ne (by simpa using hc), namesOf_cons hc]
      split
      · simp
      · next h => rw [h] at ih; simpa using ih

/-- bytes needed to store a list of names -/
def storeLen (l : List CStr) : Nat := (l.map (fun n => n.length + 1)).sum

theorem namesOf_store (s : CStr) : storeLen (namesOf s) ≤ s.length + 1 := by
  have : storeLen (namesOf s) ≤ s.length + 1 ∧ (s = [] → storeLen (namesOf s) = 0) := by
    induction s with
    | nil => simp [namesOf, storeLen]
    | cons c s ih =>
      refine ⟨?_, by simp⟩
      by_cases hc : c = ','
      · subst hc
        simp only [namesOf, storeLen, List.map_cons, List.sum_cons, List.length_cons] at *
        have := ih.1
        simp
        omega
      · rw [namesOf_cons hc]
        split
        · next h => simp [storeLen]
        · next h =>
          rw [h] at ih
          simp only [storeLen, List.map_cons, List.sum_cons, List.length_cons] at *
          omega
  exact this.1

/-- number for a value kind -/
def kindNum : ValKind → Nat
  | .no => 0
  | .req => 1
  | .opt => 2

/-- the C representation of a long option -/
def toLongOpt (l : Long) : LongOpt := ⟨l.name, kindNum l.kind, true, l.entry⟩

theorem hasArgOf_eq (h : Hdr σ) : hasArgOf h = kindNum (declOf h).longKind := by
  unfold hasArgOf Decl.longKind declOf
  cases h.hasOptValue <;> cases h.hasValue <;> rfl

/-- names of an entry -/
def hNames (h : Hdr σ) : List CStr := (h.longopts.map namesOf).getD []

theorem hNames_eq (h : Hdr σ) :
    entryNames h = hNames h := by
  unfold hNames entryNames
  cases h.longopts <;> simp [splitNames_eq]

theorem storeNames_ok (cap storeCap val hasArg : Nat) :
    ∀ (ns : List CStr) (opts : List LongOpt) (used : Nat),
      opts.length + ns.length ≤ cap → used + storeLen ns ≤ storeCap →
      storeNames cap storeCap val hasArg ns opts used =
        .ok (opts ++ ns.map (⟨·, hasArg, true, val⟩), used + storeLen ns) := by
  intro ns
  induction ns with
  | nil => intro opts used _ _; simp [storeNames, storeLen]
  | cons n ns ih =>
    intro opts used h1 h2
    simp only [storeLen, List.map_cons, List.sum_cons, List.length_cons] at h1 h2
    rw [storeNames, if_pos (by omega), ih _ _ (by simp; omega) (by unfold storeLen; omega)]
    simp [storeLen]; omega

/-- total number of names / bytes -/
def totNames (es : List (Hdr σ)) : Nat := (es.map fun h => (hNames h).length).sum
def totStore (es : List (Hdr σ)) : Nat := (es.map fun h => storeLen (hNames h)).sum

theorem fillPass_ok (cap storeCap : Nat) :
    ∀ (es : List (Hdr σ)) (i : Nat) (opts : List LongOpt) (used : Nat),
      opts.length + totNames es < cap → used + totStore es ≤ storeCap →
      fillPass cap storeCap es i opts used =
        .ok (opts ++ (longTable (es.map declOf) i).map toLongOpt) := by
  intro es
  induction es with
  | nil => intro i opts used h1 _; simp [fillPass, longTable, totNames] at *; omega
  | cons h t ih =>
    intro i opts used h1 h2
    simp only [totNames, totStore, List.map_cons, List.sum_cons] at h1 h2
    rw [fillPass, hNames_eq, storeNames_ok _ _ _ _ _ _ _ (by omega) (by omega)]
    simp only [bind_ok]
    rw [ih _ _ _ (by simp; unfold totNames; omega) (by unfold totStore; omega)]
    simp only [List.map_cons, longTable, List.map_append, List.append_assoc, List.map_map,
      hasArgOf_eq]
    rfl

theorem countPass_ok :
    ∀ (es : List (Hdr σ)) (n l : Nat),
      (∀ e ∈ es, ∀ s, e.longopts = some s → s ≠ [] ∧ s.head? ≠ some ',') →
      ∃ n' l', countPass es n l = .ok (n', l') ∧ n + totNames es ≤ n' ∧ l + totStore es < l' := by
  intro es
  induction es with
  | nil => intro n l _; exact ⟨n, l + 1, rfl, by simp [totNames], by simp [totStore]⟩
  | cons h t ih =>
    intro n l hwf
    have hwt : ∀ e ∈ t, ∀ s, e.longopts = some s → s ≠ [] ∧ s.head? ≠ some ',' :=
      fun e he => hwf e (List.mem_cons_of_mem _ he)
    have hwh := hwf h List.mem_cons_self
    simp only [totNames, totStore, List.map_cons, List.sum_cons]
    unfold countPass
    cases hl : h.longopts with
    | none =>
      obtain ⟨n', l', e, h1, h2⟩ := ih n (l + 1) hwt
      have hN : hNames h = [] := by simp [hNames, hl]
      simp only [totNames, totStore] at h1 h2
      rw [hN]
      refine ⟨n', l', e, ?_, ?_⟩
      · simp only [List.length_nil]; omega
      · rw [show storeLen [] = 0 from rfl]; omega
    | some s =>
      obtain ⟨hne, hcomma⟩ := hwh s hl
      obtain ⟨c, s', rfl⟩ := List.exists_cons_of_ne_nil hne
      have hc : c ≠ ',' := by simpa using hcomma
      simp only [countLongopts_cons, bind_ok]
      obtain ⟨n', l', e, h1, h2⟩ := ih (n + (1 + s'.count ',')) (l + (c :: s').length + 1) hwt
      have hN : hNames h = namesOf (c :: s') := by simp [hNames, hl]
      rw [hN]
      refine ⟨n', l', e, ?_, ?_⟩
      · have := namesOf_length (c :: s')
        rw [List.count_cons_of_ne (by simpa using hc)] at this
        simp only [totNames] at h1
        omega
      · have := namesOf_store (c :: s')
        simp only [totStore] at h2
        omega

theorem allocLongoptions_ok' (es : List (Hdr σ))
    (hwf : ∀ e ∈ es, ∀ s, e.longopts = some s → s ≠ [] ∧ s.head? ≠ some ',') :
    allocLongoptions es = .ok ((longTable (es.map declOf) 0).map toLongOpt) := by
  obtain ⟨n', l', e, h1, h2⟩ := countPass_ok es 1 0 hwf
  unfold allocLongoptions
  rw [e]
  simp only [bind_ok]
  rw [fillPass_ok _ _ _ _ _ _ (by simp; omega) (by omega)]
  simp

theorem allocLongoptions_ok (es : List (Hdr σ)) (hwf : WF (es.map declOf)) :
    allocLongoptions es = .ok ((longTable (es.map declOf) 0).map toLongOpt) :=
  allocLongoptions_ok' es fun e he s hs =>
    (hwf (declOf e) (List.mem_map_of_mem he)).long s hs

/-! ### short options -/

theorem shortChars_length (h : Hdr σ) :
    (shortChars h).length ≤ 3 * (h.shortopts.getD []).length := by
  unfold shortChars
  induction h.shortopts.getD [] with
  | nil => simp
  | cons c s ih =>
    rw [List.flatMap_cons, List.length_append]
    have : (c :: ((if h.hasValue then [':'] else []) ++
        (if h.hasOptValue then [':'] else []) : List Char)).length ≤ 3 := by
      cases h.hasValue <;> cases h.hasOptValue <;> simp
    simp only [List.length_cons] at *
    omega

theorem allocShortoptions_ok (es : List (Hdr σ)) :
    allocShortoptions es = .ok (':' :: es.flatMap shortChars) := by
  unfold allocShortoptions
  have : ∀ (es : List (Hdr σ)) n, n + (es.flatMap shortChars).length ≤
      es.foldl (fun n h => n + 3 * (h.shortopts.getD []).length) n := by
    intro es
    induction es with
    | nil => simp
    | cons h t ih =>
      intro n
      rw [List.flatMap_cons, List.length_append, List.foldl_cons]
      have h1 := ih (n + 3 * (h.shortopts.getD []).length)
      have h2 := shortChars_length h
      omega
  have := this es 2
  rw [if_pos (by simp only [List.length_cons]; omega)]

theorem strchr_isSome (s : CStr) (c : Char) : (strchr s c).isSome = true ↔ c ∈ s := by
  induction s with
  | nil => simp [strchr]
  | cons d t ih =>
    simp only [strchr]
    split
    · next h => simp [h]
    · next h => rw [ih]; simp [Ne.symm h]

theorem strchr_eq_none (s : CStr) (c : Char) : strchr s c = none ↔ c ∉ s := by
  rw [← strchr_isSome]; simp

theorem findShortoption_eq (c : Char) :
    ∀ (es : List (Hdr σ)) (i : Nat),
      findShortoption c es i = (shortLookup c (es.map declOf) i).map (·.1) := by
  intro es
  induction es with
  | nil => intro i; rfl
  | cons h t ih =>
    intro i
    simp only [findShortoption, List.map_cons, shortLookup]
    cases hs : h.shortopts with
    | none => simp [declOf, hs, ih]
    | some s =>
      simp only [declOf, hs, Option.getD_some, strchr_isSome, ih]
      split <;> simp

/-- What getopt sees behind an option character. -/
def OliOK (oli : CStr) : ValKind → Prop
  | .no => oli.tail.head? ≠ some ':'
  | .req => oli.tail.head? = some ':' ∧ oli.tail.tail.head? ≠ some ':'
  | .opt => oli.tail.head? = some ':' ∧ oli.tail.tail.head? = some ':'

theorem flatMap_head_colon (es : List (Hdr σ)) (hwf : WF (es.map declOf)) :
    (es.flatMap shortChars).head? ≠ some ':' := by
  induction es with
  | nil => simp
  | cons h t ih =>
    have hwt : WF (t.map declOf) := fun d hd => hwf d (by simp at hd ⊢; exact Or.inr hd)
    have hwh : (declOf h).WF := hwf _ (by simp)
    rw [List.flatMap_cons]
    cases hs : h.shortopts with
    | none => simp [shortChars, hs]; simpa using ih hwt
    | some s =>
      cases s with
      | nil => simp [shortChars, hs]; simpa using ih hwt
      | cons c s =>
        have := (hwh.short (c :: s) (by simp [declOf, hs]) c (by simp)).2.1
        simp [shortChars, hs, this]

theorem colons_skip (h : Hdr σ) (c : Char) (hc : c ≠ ':') (X : CStr) :
    strchr (((if h.hasValue then [':'] else []) ++
      (if h.hasOptValue then [':'] else []) : List Char) ++ X) c = strchr X c := by
  have : ':' ≠ c := Ne.symm hc
  cases h.hasValue <;> cases h.hasOptValue <;> simp [strchr, this]

theorem strchr_entry (h : Hdr σ) (c : Char) (hc : c ≠ ':')
    (hw : ∀ d ∈ h.shortopts.getD [], d ≠ ':') (X : CStr) (hX : X.head? ≠ some ':') :
    (c ∈ h.shortopts.getD [] → ∃ oli, strchr (shortChars h ++ X) c = some oli ∧
        OliOK oli (declOf h).shortKind) ∧
    (c ∉ h.shortopts.getD [] → strchr (shortChars h ++ X) c = strchr X c) := by
  unfold shortChars
  revert hw
  induction h.shortopts.getD [] with
  | nil => intro _; simp
  | cons d s ih =>
    intro hw
    have ih' := ih (fun d hd => hw d (by simp [hd]))
    have hd := hw d (by simp)
    have hfm : (s.flatMap fun c => c :: ((if h.hasValue then [':'] else []) ++
        (if h.hasOptValue then [':'] else []) : List Char)).head? ≠ some ':' := by
      cases s with
      | nil => simp
      | cons e s => simpa using hw e (by simp)
    have hYX : ((s.flatMap fun c => c :: ((if h.hasValue then [':'] else []) ++
        (if h.hasOptValue then [':'] else []) : List Char)) ++ X).head? ≠ some ':' := by
      rw [List.head?_append]
      cases hh : (s.flatMap fun c => c :: ((if h.hasValue then [':'] else []) ++
        (if h.hasOptValue then [':'] else []) : List Char)).head? with
      | none => simpa using hX
      | some y => rw [hh] at hfm; simpa using hfm
    rw [List.flatMap_cons, List.append_assoc]
    set Y := (s.flatMap fun c => c :: ((if h.hasValue then [':'] else []) ++
        (if h.hasOptValue then [':'] else []) : List Char)) ++ X with hY
    by_cases hdc : d = c
    · subst hdc
      refine ⟨fun _ => ?_, by simp⟩
      simp only [List.cons_append, strchr, if_true]
      refine ⟨_, rfl, ?_⟩
      unfold Decl.shortKind declOf
      cases h.hasValue <;> cases h.hasOptValue <;> simp [OliOK, hYX]
    · have hmem : (c ∈ d :: s) ↔ c ∈ s := by simp [Ne.symm hdc]
      rw [hmem]
      simp only [List.cons_append, strchr, if_neg hdc, colons_skip h c hc]
      exact ih'

theorem strchr_sopts (c : Char) (hc : c ≠ ':') :
    ∀ (es : List (Hdr σ)) (i : Nat), WF (es.map declOf) →
      match shortLookup c (es.map declOf) i with
      | none => strchr (es.flatMap shortChars) c = none
      | some (_, k) => ∃ oli, strchr (es.flatMap shortChars) c = some oli ∧ OliOK oli k := by
  intro es
  induction es with
  | nil => intro i _; simp [shortLookup, strchr]
  | cons h t ih =>
    intro i hwf
    have hwt : WF (t.map declOf) := fun d hd => hwf d (by simp at hd ⊢; exact Or.inr hd)
    have hwh : (declOf h).WF := hwf _ (by simp)
    have hw : ∀ d ∈ h.shortopts.getD [], d ≠ ':' := by
      intro d hd
      cases hs : h.shortopts with
      | none => simp [hs] at hd
      | some s => exact (hwh.short s (by simp [declOf, hs]) d (by simpa [hs] using hd)).2.1
    have key := strchr_entry h c hc hw (t.flatMap shortChars) (flatMap_head_colon t hwt)
    rw [List.flatMap_cons, List.map_cons, shortLookup,
      show (declOf h).short = h.shortopts from rfl]
    by_cases hm : c ∈ h.shortopts.getD []
    · rw [if_pos hm]
      exact key.1 hm
    · rw [if_neg hm, key.2 hm]
      exact ih (i + 1) hwt

/-- no `;` in the option string, so `-W` is never special -/
theorem sopts_no_semicolon (es : List (Hdr σ)) (hwf : WF (es.map declOf)) :
    ';' ∉ (':' :: es.flatMap shortChars) := by
  simp only [List.mem_cons, List.mem_flatMap, not_or, not_exists, not_and]
  refine ⟨by decide, ?_⟩
  intro h hh hmem
  have hwh : (declOf h).WF := hwf _ (List.mem_map_of_mem hh)
  unfold shortChars at hmem
  rw [List.mem_flatMap] at hmem
  obtain ⟨c, hc, hx⟩ := hmem
  cases hs : h.shortopts with
  | none => simp [hs] at hc
  | some s =>
    have := (hwh.short s (by simp [declOf, hs]) c (by simpa [hs] using hc)).2.2.1
    cases h1 : h.hasValue <;> cases h2 : h.hasOptValue <;> simp [h1, h2, Ne.symm this] at hx

theorem strchr_mem {s r : CStr} {c d : Char} (h : strchr s c = some r) (hd : d ∈ r) : d ∈ s := by
  induction s with
  | nil => simp [strchr] at h
  | cons e t ih =>
    simp only [strchr] at h
    split at h
    · cases h; exact hd
    · exact List.mem_cons_of_mem _ (ih h)

theorem strchr_head {s r : CStr} {c : Char} (h : strchr s c = some r) : r.head? = some c := by
  induction s with
  | nil => simp [strchr] at h
  | cons e t ih =>
    simp only [strchr] at h
    split at h
    · next he => cases h; simp [he]
    · exact ih h

/-! ### long option matching -/

/-- `strncmp` with the length of a prefix -/
theorem strncmpEq_iff (cur name : CStr) (len : Nat) (hlen : len ≤ cur.length) :
    strncmpEq cur name len = (cur.take len).isPrefixOf name := by
  unfold strncmpEq
  rw [Bool.eq_iff_iff, beq_iff_eq, List.isPrefixOf_iff_prefix]
  constructor
  · intro h; rw [h]; exact List.take_prefix _ _
  · intro h
    rw [List.prefix_iff_eq_take] at h
    rw [List.length_take, Nat.min_eq_left hlen] at h
    exact h

/-- The match loop restated on specification-level long options. -/
theorem matchLoop_spec (cur : CStr) (len : Nat) (hlen : len ≤ cur.length) :
    ∀ (ls : List Long) (m : Option Long) (second : Bool),
      (∀ l ∈ ls, ∀ m' , m = some m' → l.entry = m'.entry → l.kind = m'.kind) →
      (∀ l ∈ ls, ∀ l' ∈ ls, l.entry = l'.entry → l.kind = l'.kind) →
      let r := matchLoop cur len false false (ls.map toLongOpt) (m.map toLongOpt) second
      let p := cur.take len
      match ls.find? (fun l => l.name == p) with
      | some l => r.exact = true ∧ r.mtch = some (toLongOpt l)
      | none => r.exact = false ∧
        match m with
        | some m => r.mtch = some (toLongOpt m) ∧
            r.second = (second || !(ls.filter (fun l => p.isPrefixOf l.name)).all
              (fun l => l.entry == m.entry))
        | none =>
          match ls.filter (fun l => p.isPrefixOf l.name) with
          | [] => r.mtch = none ∧ r.second = second
          | l :: rest => r.mtch = some (toLongOpt l) ∧
              r.second = (second || !rest.all (fun k => k.entry == l.entry)) := by
  intro ls
  induction ls with
  | nil =>
    intro m second _ _
    cases m <;> simp [matchLoop]
  | cons l ls ih =>
    intro m second hm hls
    have hls' : ∀ a ∈ ls, ∀ b ∈ ls, a.entry = b.entry → a.kind = b.kind :=
      fun a ha b hb => hls a (by simp [ha]) b (by simp [hb])
    have hm' : ∀ a ∈ ls, ∀ m', m = some m' → a.entry = m'.entry → a.kind = m'.kind :=
      fun a ha => hm a (by simp [ha])
    intro r p
    have hr : r = matchLoop cur len false false ((l :: ls).map toLongOpt) (m.map toLongOpt) second := rfl
    rw [List.map_cons, matchLoop.eq_def] at hr
    dsimp only at hr
    rw [strncmpEq_iff _ _ _ hlen] at hr
    have hplen : p.length = len := by simp [p, hlen]
    have hname : (toLongOpt l).name = l.name := rfl
    rw [hname] at hr
    by_cases hpre : p.isPrefixOf l.name = true
    · rw [show (cur.take len) = p from rfl, hpre] at hr
      simp only [Bool.not_true, Bool.false_eq_true, if_false, Bool.false_and] at hr
      by_cases hex : l.name.length = len
      · -- exact match
        have hnp : l.name = p := by
          rw [List.isPrefixOf_iff_prefix] at hpre
          exact (hpre.eq_of_length (by rw [hplen, hex])).symm
        rw [if_pos hex] at hr
        have : List.find? (fun l => l.name == p) (l :: ls) = some l := by
          simp [hnp]
        rw [this]
        simp [hr]
      · have hnp : (l.name == p) = false := by
          rw [beq_eq_false_iff_ne]; intro h; exact hex (by rw [h, hplen])
        rw [if_neg hex] at hr
        rw [List.find?_cons_of_neg (by simpa using hnp)]
        rw [List.filter_cons_of_pos (by exact hpre)]
        cases m with
        | none =>
          simp only [Option.map_none] at hr
          have := ih (some l) second
            (fun a ha m' h1 h2 => by cases h1; exact hls a (by simp [ha]) l (by simp) h2) hls'
          simp only [Option.map_some] at this
          rw [← hr] at this
          exact this
        | some m0 =>
          simp only [Option.map_some] at hr
          have hk := hm l (by simp) m0 rfl
          by_cases hent : l.entry = m0.entry
          · have hcond : ((toLongOpt l).hasArg != (toLongOpt m0).hasArg ||
                (toLongOpt l).flag != (toLongOpt m0).flag ||
                (toLongOpt l).val != (toLongOpt m0).val) = false := by
              simp [toLongOpt, hent, hk hent]
            rw [Bool.false_or, hcond] at hr
            simp only [Bool.false_eq_true, if_false] at hr
            have := ih (some m0) second hm' hls'
            simp only [Option.map_some] at this
            rw [← hr] at this
            simpa [hent] using this
          · have hcond : ((toLongOpt l).hasArg != (toLongOpt m0).hasArg ||
                (toLongOpt l).flag != (toLongOpt m0).flag ||
                (toLongOpt l).val != (toLongOpt m0).val) = true := by
              simp [toLongOpt, hent]
            rw [Bool.false_or, hcond] at hr
            simp only [if_true] at hr
            have := ih (some m0) true hm' hls'
            simp only [Option.map_some] at this
            rw [← hr] at this
            have hbe : (l.entry == m0.entry) = false := by simpa using hent
            simp only [List.all_cons, hbe, Bool.false_and, Bool.not_false, Bool.or_true]
            simp only [Bool.true_or] at this
            exact this
    · have hpf : p.isPrefixOf l.name = false := by rw [← Bool.not_eq_true]; exact hpre
      rw [show (cur.take len) = p from rfl, hpf] at hr
      simp only [Bool.not_false, if_true] at hr
      have hnp : (l.name == p) = false := by
        rw [beq_eq_false_iff_ne]; intro h
        rw [h] at hpf
        have : p.isPrefixOf p = true := by rw [List.isPrefixOf_iff_prefix]; exact List.prefix_rfl
        rw [this] at hpf; exact absurd hpf (by decide)
      rw [List.find?_cons_of_neg (by simpa using hnp)]
      rw [List.filter_cons_of_neg (by rw [hpf]; decide)]
      have := ih m second hm' hls'
      rw [← hr] at this
      exact this

theorem longTable_kind (ds : List Decl) : ∀ (i : Nat),
    (∀ l ∈ longTable ds i, i ≤ l.entry) ∧
    (∀ l ∈ longTable ds i, ∀ l' ∈ longTable ds i, l.entry = l'.entry → l.kind = l'.kind) := by
  induction ds with
  | nil => intro i; simp [longTable]
  | cons d ds ih =>
    intro i
    obtain ⟨h1, h2⟩ := ih (i + 1)
    have hmem : ∀ l, l ∈ longTable (d :: ds) i →
        (l.entry = i ∧ l.kind = d.longKind) ∨ l ∈ longTable ds (i + 1) := by
      intro l hl
      rw [longTable, List.mem_append, List.mem_map] at hl
      rcases hl with ⟨n, _, rfl⟩ | hl
      · exact Or.inl ⟨rfl, rfl⟩
      · exact Or.inr hl
    constructor
    · intro l hl
      rcases hmem l hl with h | h
      · omega
      · have := h1 l h; omega
    · intro l hl l' hl' he
      rcases hmem l hl with h | h <;> rcases hmem l' hl' with h' | h'
      · rw [h.2, h'.2]
      · have := h1 l' h'; omega
      · have := h1 l h; omega
      · exact h2 l h l' h' he

theorem longTable_entry_lt (ds : List Decl) : ∀ (i : Nat),
    ∀ l ∈ longTable ds i, ∃ d, ds[l.entry - i]? = some d ∧ l.kind = d.longKind ∧ i ≤ l.entry := by
  induction ds with
  | nil => intro i l hl; simp [longTable] at hl
  | cons d ds ih =>
    intro i l hl
    rw [longTable, List.mem_append, List.mem_map] at hl
    rcases hl with ⟨n, _, rfl⟩ | hl
    · exact ⟨d, by simp, rfl, le_refl _⟩
    · obtain ⟨d', h1, h2, h3⟩ := ih (i + 1) l hl
      refine ⟨d', ?_, h2, by omega⟩
      rw [show l.entry - i = (l.entry - (i + 1)) + 1 by omega]
      simpa using h1

/-- The match loop computes `resolve`. -/
theorem matchLoop_resolve (ds : List Decl) (cur : CStr) (len : Nat) (hlen : len ≤ cur.length) :
    let r := matchLoop cur len false false ((longTable ds 0).map toLongOpt) none false
    (if !r.exact && r.second then none else r.mtch)
      = (resolve (longTable ds 0) (cur.take len)).map toLongOpt ∧
    (r.exact = false ∧ r.second = true → resolve (longTable ds 0) (cur.take len) = none) := by
  intro r
  have h := matchLoop_spec cur len hlen (longTable ds 0) none false (by simp)
    (longTable_kind ds 0).2
  simp only [Option.map_none] at h
  unfold resolve
  split at h
  · next l hl => rw [hl]; simp [r, h.1, h.2]
  · next hl =>
    rw [hl]
    obtain ⟨h1, h2⟩ := h
    simp only [r, h1, Bool.not_false, Bool.true_and]
    split at h2
    · next hf => rw [hf]; simp [h2.1, h2.2]
    · next l rest hf =>
      rw [hf, h2.1, h2.2]
      by_cases hall : (rest.all fun k => k.entry == l.entry) = true
      · simp only [hall]; simp
      · rw [Bool.not_eq_true] at hall
        simp only [hall]; simp

end Argtable
