import Verif.Proofs.OnlySpec
import Verif.Proofs.Context
import Verif.Proofs.Lawful
/-!
# Command lines in a build with `ARG_LONG_ONLY`, in context
-/

namespace Argtable
open Spec

variable {σ : Type}

theorem readsAsOnly_of_tokenize {env : Bool} {t : Table σ} {m : Nat} (hend : EndOK m t.fin)
    (hwf : WF (t.entries.map declOf)) {argv : List CStr} (hargs : CArgs argv.tail) {evs : List Ev}
    {ops : List CStr} (htok : tokenizeOnly (t.entries.map declOf) env argv.tail = some (evs, ops)) :
    ReadsAsOnly env t m argv evs ops := by
  intro g
  obtain ⟨N, h⟩ := argParse_specOnly env t m hend hwf argv hargs g htok
  have := h N (Nat.le_refl _)
  cases hm : meaning t.entries evs ops with
  | ok q =>
    rw [hm] at this
    obtain ⟨r, h1, h2⟩ := this
    exact ⟨r, ⟨N, h1⟩, h2⟩
  | error f =>
    rw [hm] at this
    cases f with
    | ub w => exact ⟨N, this⟩
    | fuel => trivial

theorem sameEffectOnly_of_tokenize (env : Bool) (t : Table σ) (m : Nat) (hend : EndOK m t.fin)
    (hwf : WF (t.entries.map declOf)) (argv argv' : List CStr) (hargs : CArgs argv.tail)
    (hargs' : CArgs argv'.tail)
    (h : tokenizeOnly (t.entries.map declOf) env argv.tail
      = tokenizeOnly (t.entries.map declOf) env argv'.tail) : SameEffectOnly env t argv argv' := by
  have key : ∀ (argv argv' : List CStr), CArgs argv.tail → CArgs argv'.tail →
      tokenizeOnly (t.entries.map declOf) env argv.tail
      = tokenizeOnly (t.entries.map declOf) env argv'.tail → ∀ g g' r, ReturnsOnly env argv t g r →
      ∃ r', ReturnsOnly env argv' t g' r' ∧ observe r' = observe r := by
    intro argv argv' hargs hargs' h g g' r hr
    cases htok : tokenizeOnly (t.entries.map declOf) env argv.tail with
    | none => exact absurd hr (argParse_hungOnly env t hwf argv hargs g htok r)
    | some p =>
      obtain ⟨evs, ops⟩ := p
      obtain ⟨es, errs, hm, hs⟩ := returns_invOnly env t m hend hwf argv hargs g htok hr
      obtain ⟨r', h1, h2⟩ := argParse_returnsOnly env t m hend hwf argv' hargs' g' (h ▸ htok) hm
      exact ⟨r', h1, by rw [observe_of_shows hs, observe_of_shows h2]⟩
  exact fun g g' => ⟨fun r => key argv argv' hargs hargs' h g g' r,
    fun r => key argv' argv hargs' hargs h.symm g' g r⟩

theorem sameInBoth_of_tokenize (env : Bool) (t : Table σ) (m : Nat) (hend : EndOK m t.fin)
    (hwf : WF (t.entries.map declOf)) (argv : List CStr) (hargs : CArgs argv.tail)
    (h : tokenizeOnly (t.entries.map declOf) env argv.tail
      = tokenize (t.entries.map declOf) env argv.tail) : SameInBoth env t argv := by
  intro g g'
  constructor
  · intro r hr
    cases htok : tokenize (t.entries.map declOf) env argv.tail with
    | none => exact absurd hr (argParse_hung env t hwf argv hargs g htok r)
    | some p =>
      obtain ⟨evs, ops⟩ := p
      obtain ⟨es, errs, hm, hs⟩ := returns_inv env t m hend hwf argv hargs g htok hr
      obtain ⟨r', h1, h2⟩ := argParse_returnsOnly env t m hend hwf argv hargs g' (h.trans htok) hm
      exact ⟨r', h1, by rw [observe_of_shows hs, observe_of_shows h2]⟩
  · intro r hr
    cases htok : tokenizeOnly (t.entries.map declOf) env argv.tail with
    | none => exact absurd hr (argParse_hungOnly env t hwf argv hargs g' htok r)
    | some p =>
      obtain ⟨evs, ops⟩ := p
      obtain ⟨es, errs, hm, hs⟩ := returns_invOnly env t m hend hwf argv hargs g' htok hr
      obtain ⟨r', h1, h2⟩ := argParse_returns env t m hend hwf argv hargs g (h.symm.trans htok) hm
      exact ⟨r', h1, by rw [observe_of_shows hs, observe_of_shows h2]⟩

theorem completeOnly_congr {env : Bool} {ds : List Decl} {pre : List CStr} (h : CompleteOnly env ds pre)
    {rest rest' : List CStr} (he : tokenizeOnly ds env rest = tokenizeOnly ds env rest') :
    tokenizeOnly ds env (pre ++ rest) = tokenizeOnly ds env (pre ++ rest') := by
  induction h with
  | nil => exact he
  | @operand a pre ho hn _ ih =>
    have e : ∀ r, tokenizeOnly ds env (a :: r) = (tokenizeOnly ds env r).map fun x => (x.1, a :: x.2) := by
      intro r
      rw [tokenizeOnly, if_neg (by rintro rfl; simp [isOperand] at ho), if_pos ho, if_neg (by simp [hn])]
    rw [List.cons_append, List.cons_append, e, e, ih]
  | @option a pre evs ho hr _ ih =>
    unfold isOption at ho
    simp only [Bool.and_eq_true, Bool.not_eq_true', bne_iff_ne, ne_eq] at ho
    have e : ∀ r, tokenizeOnly ds env (a :: r) = (tokenizeOnly ds env r).map fun x => (evs ++ x.1, x.2) := by
      intro r
      rw [tokenizeOnly, if_neg ho.2, if_neg (by simp [ho.1]), hr]
    rw [List.cons_append, List.cons_append, e, e, ih]
  | @withValue a v pre evs ho hr _ ih =>
    unfold isOption at ho
    simp only [Bool.and_eq_true, Bool.not_eq_true', bne_iff_ne, ne_eq] at ho
    have e : ∀ r, tokenizeOnly ds env (a :: v :: r) = (tokenizeOnly ds env r).map fun x => (evs ++ x.1, x.2) := by
      intro r
      rw [tokenizeOnly, if_neg ho.2, if_neg (by simp [ho.1]), List.head?_cons, hr]
    rw [List.cons_append, List.cons_append, List.cons_append, List.cons_append, e, e, ih]

/-! ### full names -/

theorem takeWhile_fullName {n v : CStr} (h : '=' ∉ n) : (n ++ '=' :: v).takeWhile (· ≠ '=') = n := by
  induction n with
  | nil => simp
  | cons c n ih =>
    simp only [List.mem_cons, not_or] at h
    rw [List.cons_append, List.takeWhile_cons_of_pos (by simpa using Ne.symm h.1), ih h.2]

theorem dropWhile_fullName {n v : CStr} (h : '=' ∉ n) : (n ++ '=' :: v).dropWhile (· ≠ '=') = '=' :: v := by
  induction n with
  | nil => simp
  | cons c n ih =>
    simp only [List.mem_cons, not_or] at h
    rw [List.cons_append, List.dropWhile_cons_of_pos (by simpa using Ne.symm h.1), ih h.2]

theorem takeWhile_noeq {n : CStr} (h : '=' ∉ n) : n.takeWhile (· ≠ '=') = n := by
  induction n with
  | nil => rfl
  | cons c n ih =>
    simp only [List.mem_cons, not_or] at h
    rw [List.takeWhile_cons_of_pos (by simpa using Ne.symm h.1), ih h.2]

/-- A long option under its full name is read as such, whatever else is declared. -/
theorem fullName_read {ds : List Decl} {l : Long} (hl : (longTable ds 0).find? (fun k => k.name == l.name) = some l)
    (heq : '=' ∉ l.name) {body : CStr} {post : List CStr} (hb : FullName l body post) :
    ∃ evs u, ∀ (whole : CStr) (letter : Bool), readNameOnly ds whole post.head? letter body = some (evs, u) := by
  have hn : ∀ letter, namedOnly (longTable ds 0) letter l.name = .option l := by
    intro letter; unfold namedOnly; rw [hl]
  have hemp : ∀ {v : CStr} (w : CStr), v ≠ [] → emptyValueError ds l.entry v w = [] := by
    intro v w hv
    unfold emptyValueError
    rw [if_neg (fun h => hv h.1)]
  obtain ⟨nm, i, k⟩ := l
  cases hb with
  | bare _ h =>
    refine ⟨[.deliver i none], false, fun whole letter => ?_⟩
    unfold readNameOnly
    rw [takeWhile_noeq heq, hn]
    simp only [if_neg heq]
  | attached v _ h hv =>
    refine ⟨[.deliver i (some v)], false, fun whole letter => ?_⟩
    unfold readNameOnly
    rw [takeWhile_fullName heq, hn, dropWhile_fullName heq]
    simp only [List.mem_append, List.mem_cons, true_or, or_true, if_true, List.tail_cons]
    cases k with
    | no => exact absurd rfl h
    | req => simp only [hemp _ hv, List.nil_append]
    | opt => simp only [hemp _ hv, List.nil_append]
  | separate v post h hv =>
    refine ⟨[.deliver i (some v)], true, fun whole letter => ?_⟩
    unfold readNameOnly
    rw [takeWhile_noeq heq, hn]
    simp only at h
    subst h
    simp only [if_neg heq, List.head?_cons, hemp _ hv, List.nil_append]

theorem readClusterOnly_of_name {ds : List Decl} {a : CStr} {n : Option CStr} {c : Char} {tl : CStr} (hc : c ≠ '-')
    {r : List Ev × Bool} (h : ∀ letter, readNameOnly ds a n letter (c :: tl) = some r) :
    readClusterOnly ds a n (c :: tl) = some r := by
  rw [readClusterOnly, if_neg hc]
  cases hl : shortLookup c ds 0 with
  | none => simp only [mustNameOnly, h, Option.getD_some]
  | some p => simp only [h]

theorem fullName_swap {ds : List Decl} {env : Bool} {l : Long}
    (hl : (longTable ds 0).find? (fun k => k.name == l.name) = some l)
    (heq : '=' ∉ l.name) (hne : l.name ≠ []) (hd : l.name.head? ≠ some '-') {body : CStr} {post : List CStr}
    (hb : FullName l body post) :
    tokenizeOnly ds env (('-' :: body) :: post) = tokenizeOnly ds env (('-' :: '-' :: body) :: post) := by
  obtain ⟨evs, u, hr⟩ := fullName_read hl heq hb
  obtain ⟨c, tl, rfl⟩ : ∃ c tl, body = c :: tl := by
    cases hb with
    | bare => exact List.exists_cons_of_ne_nil hne
    | attached v => exact List.exists_cons_of_ne_nil (by simp)
    | separate v => exact List.exists_cons_of_ne_nil hne
  have hc : c ≠ '-' := by
    rintro rfl
    apply hd
    generalize hx : '-' :: tl = body at hb
    cases hb with
    | bare => rw [← hx]; rfl
    | separate v => rw [← hx]; rfl
    | attached v =>
      cases hnm : l.name with
      | nil => exact absurd hnm hne
      | cons d n =>
        rw [hnm] at hx
        simp only [List.cons_append, List.cons.injEq] at hx
        rw [← hx.1]; rfl
  have h1 := readClusterOnly_of_name (a := '-' :: c :: tl) hc (fun letter => hr ('-' :: c :: tl) letter)
  have h2 : readClusterOnly ds ('-' :: '-' :: c :: tl) post.head? ('-' :: c :: tl) = some (evs, u) := by
    rw [readClusterOnly, if_pos rfl, if_neg (by simp), mustNameOnly, hr]
    rfl
  rw [tokenizeOnly, tokenizeOnly, if_neg (by simp [hc]), if_neg (by simp [isOperand]), if_neg (by simp),
    if_neg (by simp [isOperand])]
  simp only [List.tail_cons, h1, h2]

/-! ### where the builds agree -/

theorem mustNameOnly_eq {ds : List Decl} {whole body : CStr} {n : Option CStr}
    (h : (∃ l ∈ longTable ds 0, l.name = body.takeWhile (· ≠ '=')) ∨
      ((longTable ds 0).filter (fun l => (body.takeWhile (· ≠ '=')).isPrefixOf l.name)).length ≤ 1) :
    mustNameOnly ds whole n body = readLong ds whole n body := by
  unfold mustNameOnly readNameOnly readLong namedOnly resolve
  dsimp only
  cases hf : (longTable ds 0).find? (fun l => l.name == body.takeWhile (· ≠ '=')) with
  | some l =>
    obtain ⟨nm, i, k⟩ := l
    dsimp only
    cases (if '=' ∈ body then some (body.dropWhile (· ≠ '=')).tail else none : Option CStr) <;> cases k <;> try rfl
    cases n <;> rfl
  | none =>
    have hle : ((longTable ds 0).filter (fun l => (body.takeWhile (· ≠ '=')).isPrefixOf l.name)).length ≤ 1 := by
      rcases h with ⟨l, hl, he⟩ | h
      · rw [List.find?_eq_none] at hf
        exact absurd (by simpa using he) (hf l hl)
      · exact h
    simp only [Bool.false_eq_true, false_and, if_false]
    cases hF : (longTable ds 0).filter (fun l => (body.takeWhile (· ≠ '=')).isPrefixOf l.name) with
    | nil => rfl
    | cons l rest =>
      rw [hF] at hle
      cases rest with
      | cons m rest => simp at hle
      | nil =>
        obtain ⟨nm, i, k⟩ := l
        simp only [List.all_nil, if_true]
        cases (if '=' ∈ body then some (body.dropWhile (· ≠ '=')).tail else none : Option CStr) <;> cases k <;> try rfl
        cases n <;> rfl

theorem letters_cluster {ds : List Decl} {whole : CStr} {n : Option CStr} : ∀ {cl : CStr}, Letters ds cl →
    readClusterOnly ds whole n cl = readCluster ds whole n cl := by
  intro cl
  induction cl with
  | nil => intro _; rfl
  | cons c tl ih =>
    intro h
    obtain ⟨hc, hu, i, k, hl, hrec⟩ := h
    have hn : readNameOnly ds whole n true (c :: tl) = none := by
      unfold readNameOnly; rw [hu]
    rw [readClusterOnly, readCluster, if_neg hc, if_neg hc, hl]
    simp only [hn]
    cases k with
    | no => simp only [ih (hrec rfl)]
    | req => rfl
    | opt => rfl

theorem plain_cluster {ds : List Decl} {a : CStr} (ho : isOption a = true) (h : Dashes ds a ∨ Letters ds a.tail)
    (n : Option CStr) : readClusterOnly ds a n a.tail = readCluster ds a n a.tail := by
  rcases h with ⟨body, rfl, hb⟩ | hle
  · simp only [List.tail_cons]
    have : body ≠ [] := by rintro rfl; exact absurd ho (by decide)
    rw [readClusterOnly, readCluster, if_pos rfl, if_pos rfl, if_neg this, if_neg this, mustNameOnly_eq hb]
  · exact letters_cluster hle

theorem tokenizeOnly_eq {env : Bool} {ds : List Decl} {args : List CStr} (h : Plain env ds args) :
    tokenizeOnly ds env args = tokenize ds env args := by
  induction h with
  | nil => rfl
  | dashDash rest => rw [tokenizeOnly, tokenize, if_pos rfl, if_pos rfl]
  | @operand a rest ho _ ih =>
    have hd : a ≠ ['-', '-'] := by rintro rfl; simp [isOperand] at ho
    rw [tokenizeOnly, tokenize, if_neg hd, if_neg hd, if_pos ho, if_pos ho]
    cases env with
    | true => rfl
    | false => rw [ih rfl]
  | @option a rest ho ha hu _ ih =>
    have ho' := ho
    unfold isOption at ho'
    simp only [Bool.and_eq_true, Bool.not_eq_true', bne_iff_ne, ne_eq] at ho'
    rcases hu with hu | rfl
    · rw [tokenize_option _ ho hu, tokenizeOnly, if_neg ho'.2, if_neg (by simp [ho'.1]), plain_cluster ho ha,
        usesNext_false hu rest.head?, ih]
      cases readCluster ds a none a.tail with
      | none => rfl
      | some p => rfl
    · rw [tokenizeOnly, tokenize, if_neg ho'.2, if_neg ho'.2, if_neg (by simp [ho'.1]), if_neg (by simp [ho'.1]),
        plain_cluster ho ha, ih]
      rfl
  | @withValue a v rest ho ha hu _ ih =>
    obtain ⟨evs, he⟩ := usesNext_true hu v
    have ho' := ho
    unfold isOption at ho'
    simp only [Bool.and_eq_true, Bool.not_eq_true', bne_iff_ne, ne_eq] at ho'
    rw [tokenize_option_val _ ho he, tokenizeOnly, if_neg ho'.2, if_neg (by simp [ho'.1]), plain_cluster ho ha,
      List.head?_cons, he, ← ih]

/-! ### what is delivered -/

theorem readNameOnly_evOK (ds : List Decl) (a : CStr) (n : Option CStr) (letter : Bool) (body : CStr) {evs : List Ev}
    {u : Bool} (h : readNameOnly ds a n letter body = some (evs, u)) : EvOK ds evs := by
  unfold readNameOnly at h
  split at h
  · cases h
  · cases h; exact evOK_fail _ _
  · rename_i nm i kind hres
    have hmem : (⟨nm, i, kind⟩ : Long) ∈ longTable ds 0 := by
      unfold namedOnly at hres
      split at hres
      · next hf => cases hres; exact List.mem_of_find?_eq_some hf
      · split at hres
        · cases hres
        · split at hres
          · cases hres
          · next l' hf =>
            cases hres
            have : (⟨nm, i, kind⟩ : Long) ∈ (longTable ds 0).filter (fun l => (body.takeWhile (· ≠ '=')).isPrefixOf l.name) := by
              rw [hf]; simp
            exact List.mem_of_mem_filter this
          · cases hres
    obtain ⟨d, hd1, _⟩ := longTable_entry_lt ds 0 _ hmem
    have hlt : i < ds.length := by
      by_contra hc
      simp only [Nat.sub_zero] at hd1
      rw [List.getElem?_eq_none (by omega)] at hd1; cases hd1
    split at h
    · cases h; exact evOK_fail _ _
    · cases h; exact (evOK_empty _ _ _).append (evOK_deliver hlt _)
    · split at h
      · cases h; exact evOK_fail _ _
      · cases h; exact (evOK_empty _ _ _).append (evOK_deliver hlt _)
    · cases h; exact evOK_deliver hlt _

theorem mustNameOnly_evOK (ds : List Decl) (a : CStr) (n : Option CStr) (body : CStr) :
    EvOK ds (mustNameOnly ds a n body).1 := by
  unfold mustNameOnly
  cases h : readNameOnly ds a n false body with
  | none => exact evOK_fail _ _
  | some p => exact readNameOnly_evOK ds a n false body (evs := p.1) (u := p.2) h

theorem readClusterOnly_evOK (ds : List Decl) (a : CStr) (n : Option CStr) :
    ∀ (cl : CStr) (evs : List Ev) (u : Bool), readClusterOnly ds a n cl = some (evs, u) →
      EvOK ds evs := by
  intro cl
  induction cl with
  | nil => intro evs u h; cases h; exact evOK_nil
  | cons c tl ih =>
    intro evs u h
    rw [readClusterOnly] at h
    split at h
    · split at h
      · cases h
      · have := mustNameOnly_evOK ds a n tl
        rw [Option.some.inj h] at this; exact this
    · split at h
      · have := mustNameOnly_evOK ds a n (c :: tl)
        rw [Option.some.inj h] at this; exact this
      · rename_i i kind hl
        have hlt : i < ds.length := by have := shortLookup_lt hl; omega
        split at h
        · rename_i r hr
          cases h
          exact readNameOnly_evOK _ _ _ _ _ hr
        · split at h
          · cases hr : readClusterOnly ds a n tl with
            | none => rw [hr] at h; cases h
            | some p =>
              rw [hr] at h; cases h
              exact (evOK_deliver hlt _).append (ih _ _ hr)
          · split at h
            · cases h; exact evOK_deliver hlt _
            · split at h
              · cases h; exact evOK_fail _ _
              · cases h; exact evOK_deliver hlt _
          · cases h; exact evOK_deliver hlt _

theorem tokenizeOnly_evOK (ds : List Decl) (posix : Bool) :
    ∀ (m : Nat) (args : List CStr), args.length ≤ m → ∀ (evs : List Ev) (ops : List CStr),
      tokenizeOnly ds posix args = some (evs, ops) → EvOK ds evs := by
  intro m
  induction m with
  | zero =>
    intro args hl evs ops h
    have : args = [] := List.length_eq_zero_iff.1 (by omega)
    subst this; cases h; exact evOK_nil
  | succ m ih =>
    intro args hl evs ops h
    cases args with
    | nil => cases h; exact evOK_nil
    | cons a rest =>
      have hl' : rest.length ≤ m := by simpa using hl
      rw [tokenizeOnly] at h
      split at h
      · cases h; exact evOK_nil
      · split at h
        · split at h
          · cases h; exact evOK_nil
          · cases hr : tokenizeOnly ds posix rest with
            | none => rw [hr] at h; cases h
            | some p => rw [hr] at h; cases h; exact ih rest hl' _ _ hr
        · split at h
          · cases h
          · rename_i evs1 hrc
            cases hr : tokenizeOnly ds posix rest with
            | none => rw [hr] at h; cases h
            | some p =>
              rw [hr] at h; cases h
              exact (readClusterOnly_evOK _ _ _ _ _ _ hrc).append (ih rest hl' _ _ hr)
          · rename_i evs1 hrc
            cases rest with
            | nil => cases h; exact readClusterOnly_evOK _ _ _ _ _ _ hrc
            | cons b rest =>
              simp only at h
              cases hr : tokenizeOnly ds posix rest with
              | none => rw [hr] at h; cases h
              | some p =>
                rw [hr] at h; cases h
                exact (readClusterOnly_evOK _ _ _ _ _ _ hrc).append
                  (ih rest (by simp at hl'; omega) _ _ hr)

end Argtable
