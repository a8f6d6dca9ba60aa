import Verif.Spec.Entered
import Verif.Proofs.Reading
import Verif.Proofs.Stored
import Verif.Proofs.RegexExact
/-!
# Command lines without errors (C57)
-/

namespace Argtable

open Spec

variable {δ : Type} {lc : Libc δ} {R : CStr → Prop}

/-! ### the grammar -/

section
variable {ds : List Decl}

/-- The event of a given value. -/
def dlv (g : Nat × Option CStr) : Ev := .deliver g.1 g.2

theorem emptyValueError_nil {i : Nat} {v w : CStr} : emptyValueError ds i v w = [] ↔ Filled ds i v := by
  unfold emptyValueError Filled
  split
  · rename_i h
    simp only [List.cons_ne_nil, false_iff]
    exact fun hf => hf h.1 h.2
  · rename_i h
    simp only [true_iff]
    exact fun h1 h2 => h ⟨h1, h2⟩

theorem readLong_split {name rest : CStr} (heq : '=' ∉ name) (hr : rest = [] ∨ ∃ v, rest = '=' :: v) (w : CStr)
    (n : Option CStr) : readLong ds w n (name ++ rest) =
      match resolve (longTable ds 0) name with
      | none => ([.fail ARG_ELONGOPT (some w)], false)
      | some l =>
        match (if rest = [] then none else some rest.tail : Option CStr), l.kind with
        | some _, .no => ([.fail ARG_ELONGOPT (some w)], false)
        | some v, _ => (emptyValueError ds l.entry v w ++ [.deliver l.entry (some v)], false)
        | none, .req =>
          match n with
          | none => ([.fail ARG_EMISSARG (some w)], false)
          | some v => (emptyValueError ds l.entry v v ++ [.deliver l.entry (some v)], true)
        | none, _ => ([.deliver l.entry none], false) := by
  obtain ⟨h1, h2⟩ := takeWhile_name heq rest hr
  unfold readLong
  dsimp only
  rw [h1, h2]
  have hv : (if '=' ∈ name ++ rest then some rest.tail else none : Option CStr)
      = if rest = [] then none else some rest.tail := by
    rcases hr with rfl | ⟨v, rfl⟩ <;> simp [heq]
  rw [hv]
  cases resolve (longTable ds 0) name with
  | none => rfl
  | some l =>
    cases l with
    | mk a b c =>
      generalize (if rest = [] then none else some rest.tail : Option CStr) = x
      cases x <;> cases c <;> cases n <;> rfl

/-- The name and the value part of the text after `--`. -/
theorem long_split (b : CStr) : ∃ name rest, b = name ++ rest ∧ '=' ∉ name ∧ (rest = [] ∨ ∃ v, rest = '=' :: v) := by
  induction b with
  | nil => exact ⟨[], [], rfl, by simp, Or.inl rfl⟩
  | cons c b ih =>
    by_cases hc : c = '='
    · subst hc; exact ⟨[], '=' :: b, rfl, by simp, Or.inr ⟨b, rfl⟩⟩
    · obtain ⟨name, rest, rfl, h1, h2⟩ := ih
      exact ⟨c :: name, rest, rfl, by simp [h1, Ne.symm hc], h2⟩

theorem body_read {body : CStr} {gs : List (Nat × Option CStr)} {sep : Option CStr} (hb : Body ds body gs sep) (w : CStr) :
    ∀ next, (∀ v, sep = some v → next = some v) → readCluster ds w next body = some (gs.map dlv, sep.isSome) := by
  induction hb with
  | stop => intro n _; rfl
  | flag hc hl _ ih =>
    intro n hn
    rw [readCluster, if_neg hc, hl]
    dsimp only
    rw [ih n hn]
    rfl
  | @attached c i k v hc hl hk hv =>
    intro n hn
    rw [readCluster, if_neg hc, hl]
    cases k with
    | no => exact absurd rfl hk
    | req => dsimp only; rw [if_pos hv]; rfl
    | opt => dsimp only; rw [if_neg hv]; rfl
  | separate hc hl =>
    intro n hn
    rw [readCluster, if_neg hc, hl, hn _ rfl]
    rfl
  | bare hc hl =>
    intro n hn
    rw [readCluster, if_neg hc, hl]
    rfl
  | @long p l hp heq hd hk =>
    intro n hn
    rw [readCluster, if_pos rfl, if_neg hp]
    have := readLong_split (ds := ds) heq (rest := []) (Or.inl rfl) w n
    rw [List.append_nil] at this
    rw [this, resolve_eq_some hd]
    dsimp only
    rw [if_pos rfl]
    cases h : l.kind with
    | req => exact absurd h hk
    | no => rfl
    | opt => rfl
  | @longValue p v l heq hd hk hf =>
    intro n hn
    rw [readCluster, if_pos rfl, if_neg (by simp), readLong_split heq (Or.inr ⟨v, rfl⟩), resolve_eq_some hd]
    dsimp only
    rw [if_neg (by simp), List.tail_cons]
    cases h : l.kind with
    | no => exact absurd h hk
    | req => dsimp only; rw [emptyValueError_nil.2 hf]; rfl
    | opt => dsimp only; rw [emptyValueError_nil.2 hf]; rfl
  | @longSeparate p v l hp heq hd hk hf =>
    intro n hn
    rw [readCluster, if_pos rfl, if_neg hp]
    have := readLong_split (ds := ds) heq (rest := []) (Or.inl rfl) w n
    rw [List.append_nil] at this
    rw [this, resolve_eq_some hd]
    dsimp only
    rw [if_pos rfl, hk, hn _ rfl]
    dsimp only
    rw [emptyValueError_nil.2 hf]
    rfl

def NoFail (evs : List Ev) : Prop := ∀ c v, Ev.fail c v ∉ evs

theorem emptyValueError_noFail {i : Nat} {v w : CStr} {e : List Ev} (h : NoFail (emptyValueError ds i v w ++ e)) :
    Filled ds i v := by
  rw [← emptyValueError_nil (w := w)]
  unfold emptyValueError at h ⊢
  split
  · rename_i h0
    rw [if_pos h0] at h
    exact absurd (by simp) (h ARG_EMISSARG (some w))
  · rfl

theorem read_body (w : CStr) (next : Option CStr) : ∀ (body : CStr) (evs : List Ev) (u : Bool),
    readCluster ds w next body = some (evs, u) → NoFail evs →
    ∃ gs sep, evs = gs.map dlv ∧ Body ds body gs sep ∧ u = sep.isSome ∧ (sep = none ∨ sep = next) := by
  intro body
  induction body with
  | nil => intro evs u h _; cases h; exact ⟨[], none, rfl, .stop, rfl, Or.inl rfl⟩
  | cons c tl ih =>
    intro evs u h hno
    rw [readCluster] at h
    by_cases hc : c = '-'
    · rw [if_pos hc] at h
      subst hc
      by_cases ht : tl = []
      · rw [if_pos ht] at h; cases h
      rw [if_neg ht] at h
      obtain ⟨name, rest, rfl, h1, h2⟩ := long_split tl
      rw [readLong_split h1 h2] at h
      have hr := resolve_denotes ds name
      cases hl : resolve (longTable ds 0) name with
      | none => rw [hl] at h; cases h; exact absurd (by simp) (hno ARG_ELONGOPT (some w))
      | some l =>
        rw [hl] at h hr
        dsimp only at h hr
        rcases h2 with rfl | ⟨v, rfl⟩
        · rw [if_pos rfl] at h
          rw [List.append_nil] at ht ⊢
          cases hk : l.kind with
          | no =>
            rw [hk] at h; cases h
            exact ⟨[(l.entry, none)], none, rfl, .long ht h1 hr (by rw [hk]; decide), rfl, Or.inl rfl⟩
          | opt =>
            rw [hk] at h; cases h
            exact ⟨[(l.entry, none)], none, rfl, .long ht h1 hr (by rw [hk]; decide), rfl, Or.inl rfl⟩
          | req =>
            rw [hk] at h
            cases next with
            | none => cases h; exact absurd (by simp) (hno ARG_EMISSARG (some w))
            | some v =>
              cases h
              have hf := emptyValueError_noFail hno
              rw [emptyValueError_nil.2 hf]
              exact ⟨[(l.entry, some v)], some v, rfl, .longSeparate ht h1 hr hk hf, rfl, Or.inr rfl⟩
        · rw [if_neg (by simp), List.tail_cons] at h
          cases hk : l.kind with
          | no => rw [hk] at h; cases h; exact absurd (by simp) (hno ARG_ELONGOPT (some w))
          | opt =>
            rw [hk] at h; cases h
            have hf := emptyValueError_noFail hno
            rw [emptyValueError_nil.2 hf]
            exact ⟨[(l.entry, some v)], none, rfl, .longValue h1 hr (by rw [hk]; decide) hf, rfl, Or.inl rfl⟩
          | req =>
            rw [hk] at h; cases h
            have hf := emptyValueError_noFail hno
            rw [emptyValueError_nil.2 hf]
            exact ⟨[(l.entry, some v)], none, rfl, .longValue h1 hr (by rw [hk]; decide) hf, rfl, Or.inl rfl⟩
    · rw [if_neg hc] at h
      cases hl : shortLookup c ds 0 with
      | none =>
        rw [hl] at h
        obtain ⟨x, hx, he⟩ := Option.map_eq_some_iff.1 h
        cases he
        exact absurd (by simp) (hno (charInt c) none)
      | some ik =>
        obtain ⟨i, k⟩ := ik
        rw [hl] at h
        cases k with
        | no =>
          obtain ⟨⟨e, u'⟩, hx, he⟩ := Option.map_eq_some_iff.1 h
          cases he
          obtain ⟨gs, sep, rfl, h1, h2, h3⟩ := ih _ _ hx fun c v hm => hno c v (by simp [hm])
          exact ⟨(i, none) :: gs, sep, rfl, .flag hc hl h1, h2, h3⟩
        | req =>
          dsimp only at h
          by_cases ht : tl = []
          · subst ht
            rw [if_neg (by simp)] at h
            cases next with
            | none => cases h; exact absurd (by simp) (hno ARG_EMISSARG (some w))
            | some v => cases h; exact ⟨[(i, some v)], some v, rfl, .separate hc hl, rfl, Or.inr rfl⟩
          · rw [if_pos ht] at h
            cases h
            exact ⟨[(i, some tl)], none, rfl, .attached hc hl (by decide) ht, rfl, Or.inl rfl⟩
        | opt =>
          dsimp only at h
          cases h
          by_cases ht : tl = []
          · subst ht
            exact ⟨[(i, none)], none, rfl, .bare hc hl, rfl, Or.inl rfl⟩
          · rw [if_neg ht]
            exact ⟨[(i, some tl)], none, rfl, .attached hc hl (by decide) ht, rfl, Or.inl rfl⟩

theorem Spec.Body.ne_dash {gs : List (Nat × Option CStr)} {sep : Option CStr} {body : CStr} (h : Body ds body gs sep) :
    body ≠ ['-'] := by
  intro e
  cases h with
  | stop => cases e
  | flag h => cases e; exact h rfl
  | attached h => cases e; exact h rfl
  | separate h => cases e; exact h rfl
  | bare h => cases e; exact h rfl
  | long h => cases e; exact h rfl
  | longValue => simp at e
  | longSeparate h => cases e; exact h rfl

theorem body_option {body : CStr} {gs : List (Nat × Option CStr)} {sep : Option CStr} (h : Body ds body gs sep)
    (hne : body ≠ []) : isOption ('-' :: body) = true := by
  cases body with
  | nil => exact absurd rfl hne
  | cons c b =>
    have := h.ne_dash
    simp only [isOption, isOperand, Bool.not_false, Bool.true_and, bne_iff_ne, ne_eq, List.cons.injEq, true_and]
    intro h
    exact this (by rw [h.1, h.2])

theorem line_tokenize {posix : Bool} {args : List CStr} {gs : List (Nat × Option CStr)} {ops : List CStr}
    (h : Line ds posix args gs ops) : tokenize ds posix args = some (gs.map dlv, ops) := by
  induction h with
  | done => rfl
  | dashes ops => rw [tokenize, if_pos rfl]; rfl
  | @operand a rest gs ops ho hp _ ih =>
    have hne : ¬ a = ['-', '-'] := by rintro rfl; cases ho
    rw [tokenize.eq_def]
    dsimp only
    rw [if_neg hne, if_pos ho, if_neg (by simp [hp]), ih]
    rfl
  | @posix a rest ho hp =>
    have hne : ¬ a = ['-', '-'] := by rintro rfl; cases ho
    rw [tokenize.eq_def]
    dsimp only
    rw [if_neg hne, if_pos ho, if_pos hp]
    rfl
  | @option body rest g gs ops hb h1 _ ih =>
    have hu : usesNext ds ('-' :: body) = false := by
      unfold usesNext
      rw [List.tail_cons, body_read h1 _ _ (by simp)]
      rfl
    rw [tokenize_option _ (body_option h1 hb) hu, ih, List.tail_cons, body_read h1 _ _ (by simp)]
    simp
  | @optionValue body v rest g gs ops h1 _ ih =>
    have hb : body ≠ [] := by rintro rfl; cases h1
    rw [tokenize_option_val _ (body_option h1 hb) (body_read h1 _ _ (by simp)), ih]
    simp

theorem tokenize_line {posix : Bool} : ∀ (n : Nat) (args : List CStr) (evs : List Ev) (ops : List CStr), args.length ≤ n →
    tokenize ds posix args = some (evs, ops) → NoFail evs → ∃ gs, evs = gs.map dlv ∧ Line ds posix args gs ops := by
  intro n
  induction n with
  | zero =>
    intro args evs ops hn h _
    cases args with
    | nil => cases h; exact ⟨[], rfl, .done⟩
    | cons a as => simp at hn
  | succ n ih =>
    intro args evs ops hn h hno
    cases args with
    | nil => cases h; exact ⟨[], rfl, .done⟩
    | cons a rest =>
      have hlen : rest.length ≤ n := by simpa using hn
      rw [tokenize.eq_def] at h
      dsimp only at h
      by_cases hd : a = ['-', '-']
      · rw [if_pos hd] at h; cases h; subst hd; exact ⟨[], rfl, .dashes _⟩
      rw [if_neg hd] at h
      by_cases ho : isOperand a = true
      · rw [if_pos ho] at h
        by_cases hp : posix = true
        · rw [if_pos hp] at h; cases h; exact ⟨[], rfl, .posix _ ho hp⟩
        · rw [if_neg hp] at h
          obtain ⟨⟨e, o⟩, h1, h2⟩ := Option.map_eq_some_iff.1 h
          cases h2
          obtain ⟨gs, rfl, h3⟩ := ih rest _ _ hlen h1 hno
          exact ⟨gs, rfl, .operand ho (by simpa using hp) h3⟩
      · rw [if_neg ho] at h
        obtain ⟨b, c, rfl⟩ : ∃ b c, a = '-' :: c :: b := by
          unfold isOperand at ho
          split at ho
          · exact ⟨_, _, rfl⟩
          · exact absurd rfl ho
        rw [List.tail_cons] at h
        cases hr : readCluster ds ('-' :: c :: b) rest.head? (c :: b) with
        | none => rw [hr] at h; cases h
        | some w =>
          obtain ⟨e, u⟩ := w
          rw [hr] at h
          cases u with
          | false =>
            obtain ⟨⟨e', o⟩, h1, h2⟩ := Option.map_eq_some_iff.1 h
            cases h2
            obtain ⟨g, sep, rfl, h3, h4, -⟩ := read_body _ _ _ _ _ hr fun c v hm => hno c v (by simp [hm])
            obtain ⟨gs, rfl, h5⟩ := ih rest _ _ hlen h1 fun c v hm => hno c v (by simp [hm])
            cases sep with
            | some v => cases h4
            | none => exact ⟨g ++ gs, by simp, .option (by simp) h3 h5⟩
          | true =>
            cases rest with
            | nil =>
              dsimp only at h
              cases h
              obtain ⟨g, sep, rfl, h3, h4, h5⟩ := read_body _ _ _ _ _ hr hno
              rcases h5 with rfl | rfl <;> cases h4
            | cons v rest =>
              obtain ⟨⟨e', o⟩, h1, h2⟩ := Option.map_eq_some_iff.1 h
              cases h2
              obtain ⟨g, sep, rfl, h3, h4, h6⟩ := read_body _ _ _ _ _ hr fun c v hm => hno c v (by simp [hm])
              obtain ⟨gs, rfl, h5⟩ := ih rest _ _ (by simp at hlen; omega) h1 fun c v hm => hno c v (by simp [hm])
              rcases h6 with rfl | rfl
              · cases h4
              · exact ⟨g ++ gs, by simp, .optionValue h3 h5⟩

theorem given_delivered (gs : List (Nat × Option CStr)) (i : Nat) : delivered (gs.map dlv) i = given gs i := by
  induction gs with
  | nil => rfl
  | cons g gs ih =>
    simp only [List.map_cons, dlv, delivered, given, List.filter_cons] at ih ⊢
    by_cases h : g.1 = i
    · simp only [h, if_true, decide_true, List.map_cons]; rw [ih]
    · simp only [h, if_false, decide_false]; rw [ih]; rfl

theorem body_length {body : CStr} {gs : List (Nat × Option CStr)} {sep : Option CStr} (h : Body ds body gs sep) :
    ∀ i v, (i, some v) ∈ gs → v.length ≤ body.length ∨ sep = some v := by
  induction h with
  | stop => intro i v h; cases h
  | flag _ _ _ ih =>
    intro i v h
    rcases List.mem_cons.1 h with h | h
    · cases h
    · rcases ih i v h with h | h
      · left; simp; omega
      · exact Or.inr h
  | attached => intro i v h; simp at h; rw [h.2]; left; simp
  | separate => intro i v h; simp at h; rw [h.2]; right; rfl
  | bare => intro i v h; simp at h
  | long => intro i v h; simp at h
  | longValue => intro i v h; simp at h; rw [h.2]; left; simp; omega
  | longSeparate => intro i v h; simp at h; rw [h.2]; right; rfl

theorem line_length {posix : Bool} {args : List CStr} {gs : List (Nat × Option CStr)} {ops : List CStr} {m : Nat}
    (h : Line ds posix args gs ops) (hm : ∀ a ∈ args, a.length ≤ m) :
    (∀ i v, (i, some v) ∈ gs → v.length ≤ m) ∧ ∀ v ∈ ops, v.length ≤ m := by
  induction h with
  | done => exact ⟨by simp, by simp⟩
  | dashes ops => exact ⟨by simp, fun v hv => hm v (by simp [hv])⟩
  | @operand a rest gs ops ho hp _ ih =>
    obtain ⟨h1, h2⟩ := ih fun a ha => hm a (by simp [ha])
    refine ⟨h1, fun v hv => ?_⟩
    rcases List.mem_cons.1 hv with rfl | hv
    · exact hm _ (by simp)
    · exact h2 v hv
  | posix rest ho hp => exact ⟨by simp, hm⟩
  | @option body rest g gs ops hb h1 _ ih =>
    obtain ⟨h2, h3⟩ := ih fun a ha => hm a (by simp [ha])
    refine ⟨fun i v hv => ?_, h3⟩
    rcases List.mem_append.1 hv with hv | hv
    · rcases body_length h1 i v hv with h | h
      · have := hm ('-' :: body) (by simp)
        simp at this; omega
      · cases h
    · exact h2 i v hv
  | @optionValue body w rest g gs ops h1 _ ih =>
    obtain ⟨h2, h3⟩ := ih fun a ha => hm a (by simp [ha])
    refine ⟨fun i v hv => ?_, h3⟩
    rcases List.mem_append.1 hv with hv | hv
    · rcases body_length h1 i v hv with h | h
      · have := hm ('-' :: body) (by simp)
        simp at this; omega
      · cases h; exact hm _ (by simp)
    · exact h2 i v hv
end

theorem line_ops {ds : List Decl} {posix : Bool} {args : List CStr} {gs : List (Nat × Option CStr)} {ops : List CStr}
    (h : Line ds posix args gs ops) : ∀ a ∈ ops, a ∈ args := by
  induction h with
  | done => intro a h; exact h
  | dashes ops => intro a h; simp [h]
  | operand ho hp _ ih =>
    intro a h
    rcases List.mem_cons.1 h with rfl | h
    · simp
    · simp [ih a h]
  | posix rest ho hp => intro a h; exact h
  | option hb h1 _ ih => intro a h; simp [ih a h]
  | optionValue h1 _ ih => intro a h; simp [ih a h]

/-! ### the answer of an entry -/

theorem takes_snoc {h : Hdr (Obj δ)} {args : List (Option CStr)} (ht : Takes lc h args) (a : Option CStr) :
    Takes lc h (args ++ [a]) ↔ (args.length : Int) < h.maxcount ∧ ∀ s, a = some s → Admits lc h args.length s := by
  constructor
  · intro h1
    refine ⟨?_, fun s hs => h1.text _ _ (by simp [hs])⟩
    rcases h1.room with h2 | h2
    · simp at h2
    · simp at h2; omega
  · rintro ⟨h1, h2⟩
    refine ⟨Or.inr (by simp; omega), fun j s hj => ?_⟩
    rw [List.getElem?_append] at hj
    split at hj
    · exact ht.text j s hj
    · rename_i hlt
      cases hk : j - args.length with
      | succ k => rw [hk] at hj; cases hj
      | zero =>
        rw [hk] at hj
        have : j = args.length := by omega
        subst this
        exact h2 s (by simpa using hj)

theorem takes_nil (h : Hdr (Obj δ)) : Takes lc h [] := ⟨Or.inl rfl, fun j a h => by simp at h⟩

theorem takes_prefix {h : Hdr (Obj δ)} {args more : List (Option CStr)} (ht : Takes lc h (args ++ more)) : Takes lc h args := by
  refine ⟨?_, fun j a hj => ht.text j a ?_⟩
  · rcases ht.room with h1 | h1
    · exact Or.inl (List.append_eq_nil_iff.1 h1).1
    · right; simp at h1; omega
  · rw [List.getElem?_append_left (List.getElem?_eq_some_iff.1 hj).1, hj]

/-- The scan returns, with code 0 exactly if there is room and the text is admitted. -/
def Answers {α : Type} (n : Nat) (mx : Int) (Ad : CStr → Prop) (a : Option CStr) (x : M (α × Int)) : Prop :=
  ∃ q c, x = .ok (q, c) ∧ (c = 0 ↔ (n : Int) < mx ∧ ∀ s, a = some s → Ad s)

theorem Answers.lift {α β : Type} {n : Nat} {mx : Int} {Ad : CStr → Prop} {a : Option CStr} {x : M (α × Int)}
    (h : Answers n mx Ad a x) (g : α → β) : Answers n mx Ad a (x >>= fun q => .ok (g q.1, q.2)) := by
  obtain ⟨q, c, rfl, h⟩ := h
  exact ⟨g q, c, rfl, h⟩

theorem Answers.congr {α : Type} {n : Nat} {mx : Int} {Ad Ad' : CStr → Prop} {a : Option CStr} {x : M (α × Int)}
    (h : Answers n mx Ad a x) (he : ∀ s, Ad s ↔ Ad' s) : Answers n mx Ad' a x := by
  obtain ⟨q, c, rfl, h⟩ := h
  exact ⟨q, c, rfl, by simpa only [he] using h⟩

section
variable {mx : Int} {n : Nat} {a : Option CStr}

theorem doubleMinus_loose {s : CStr} {k : Int} (h4 : LooseText s k) (h5 : FitsInt k) : ¬ DoubleMinus s := by
  intro hd
  obtain ⟨sf, w, k, N, base, i1, i2, i3, rfl⟩ := looseText_head h4
  have hk : 1 ≤ k := by cases i2 <;> decide
  rcases intConvert_of i1 (suffix_stop i2 i3) with ⟨v, hv, -⟩ | ⟨-, -, hN⟩
  · rw [intConvert_doubleMinus hd] at hv; cases hv
  · have : N * 1 ≤ N * k := Int.mul_le_mul_of_nonneg_left hk (by omega)
    unfold FitsInt at h5
    omega

theorem intScan_answers {o : IntObj} (hn : o.count = n) (hl : (o.ival.length : Int) = mx) (hle : (n : Int) ≤ mx)
    (hd : ∀ s, a = some s → ¬ DoubleMinus s ∨ (∃ k, LooseText s k ∧ FitsInt k) ∨ ∃ r, intScan mx o a = .ok r) :
    Answers n mx (fun s => ∃ k, LooseText s k ∧ FitsInt k) a (intScan mx o a) := by
  subst hn
  by_cases hm : (o.count : Int) = mx
  · rw [intScan.eq_def, if_pos hm]
    exact ⟨_, _, rfl, by rw [hm]; constructor; (intro h; cases h); (intro h; omega)⟩
  have hlt : (o.count : Int) < mx := by omega
  cases a with
  | none =>
    rw [intScan.eq_def, if_neg hm]
    exact ⟨_, _, rfl, by simp [hlt]⟩
  | some s =>
    obtain ⟨h1, h2, h3⟩ := intScan_full hlt hl s
    have hd' : ¬ DoubleMinus s := by
      rcases hd s rfl with h | ⟨k, h4, h5⟩ | ⟨r, h⟩
      · exact h
      · exact doubleMinus_loose h4 h5
      · intro h6; rw [h1 h6] at h; cases h
    by_cases hx : ∃ k, LooseText s k
    · obtain ⟨k, hx⟩ := hx
      obtain ⟨h4, h5⟩ := h2 hd' k hx
      by_cases hf : FitsInt k
      · exact ⟨_, _, h4 hf, fun _ => ⟨hlt, fun s' hs' => by cases hs'; exact ⟨k, hx, hf⟩⟩, fun _ => rfl⟩
      · refine ⟨_, _, h5 hf, fun h => (by cases h), fun h => ?_⟩
        obtain ⟨k', g1, g2⟩ := h.2 s rfl
        have h6 := (h2 hd' k' g1).1 g2
        rw [h5 hf] at h6
        exact absurd (congrArg Prod.snd (Except.ok.inj h6)) (by change ¬ (4 : Int) = 0; decide)
    · refine ⟨_, _, h3 hd' fun k h => hx ⟨k, h⟩, fun h => (by cases h), fun h => ?_⟩
      obtain ⟨k', g1, -⟩ := h.2 s rfl
      exact absurd ⟨k', g1⟩ hx

theorem dblScan_answers {o : DblObj δ} (hn : o.count = n) (hl : (o.dval.length : Int) = mx) (hle : (n : Int) ≤ mx) :
    Answers n mx (fun s => (lc.strtod s).2 = []) a (dblScan lc.strtod mx o a) := by
  subst hn
  unfold dblScan
  by_cases hm : (o.count : Int) = mx
  · rw [if_pos hm]
    exact ⟨_, _, rfl, by rw [hm]; constructor; (intro h; cases h); (intro h; omega)⟩
  have hlt : (o.count : Int) < mx := by omega
  rw [if_neg hm]
  cases a with
  | none => exact ⟨_, _, rfl, by simp [hlt]⟩
  | some s =>
    dsimp only
    by_cases hs : (lc.strtod s).2 = []
    · rw [if_pos hs, storeAt_ok (by omega), bind_ok]
      exact ⟨_, _, rfl, by simp [hlt, hs]⟩
    · rw [if_neg hs]
      exact ⟨_, _, rfl, by simp [hs]; decide⟩

theorem strScan_answers {o : StrObj} (hn : o.count = n) (hl : (o.sval.length : Int) = mx) (hle : (n : Int) ≤ mx) :
    Answers n mx (fun _ => True) a (strScan mx o a) := by
  subst hn
  unfold strScan
  by_cases hm : (o.count : Int) = mx
  · rw [if_pos hm]
    exact ⟨_, _, rfl, by rw [hm]; constructor; (intro h; cases h); (intro h; omega)⟩
  have hlt : (o.count : Int) < mx := by omega
  rw [if_neg hm]
  cases a with
  | none => exact ⟨_, _, rfl, by simp [hlt]⟩
  | some s =>
    dsimp only
    rw [storeAt_ok (by omega), bind_ok]
    exact ⟨_, _, rfl, by simp [hlt]⟩

theorem fileScan_answers {o : FileObj} (hn : o.count = n) (hl : (o.filename.length : Int) = mx)
    (hl1 : (o.basename.length : Int) = mx) (hl2 : (o.extension.length : Int) = mx) (hle : (n : Int) ≤ mx) :
    Answers n mx (fun _ => True) a (fileScan mx o a) := by
  subst hn
  unfold fileScan
  by_cases hm : (o.count : Int) = mx
  · rw [if_pos hm]
    exact ⟨_, _, rfl, by rw [hm]; constructor; (intro h; cases h); (intro h; omega)⟩
  have hlt : (o.count : Int) < mx := by omega
  rw [if_neg hm]
  cases a with
  | none => exact ⟨_, _, rfl, by simp [hlt]⟩
  | some s =>
    dsimp only
    rw [storeAt_ok (by omega), bind_ok, storeAt_ok (by omega), bind_ok, storeAt_ok (by omega), bind_ok]
    exact ⟨_, _, rfl, by simp [hlt]⟩

theorem dateScan_answers {fmt : CStr} {o : DateObj} (hn : o.count = n) (hl : (o.tmval.length : Int) = mx)
    (hle : (n : Int) ≤ mx) :
    Answers n mx (fun s => ∃ t t', o.tmval[n]? = some t ∧ Matches fmt s t t') a (dateScan fmt mx o a) := by
  subst hn
  unfold dateScan
  by_cases hm : (o.count : Int) = mx
  · rw [if_pos hm]
    exact ⟨_, _, rfl, by rw [hm]; constructor; (intro h; cases h); (intro h; omega)⟩
  have hlt : (o.count : Int) < mx := by omega
  rw [if_neg hm]
  cases a with
  | none => exact ⟨_, _, rfl, by simp [hlt]⟩
  | some s =>
    dsimp only
    obtain ⟨v0, hv0⟩ : ∃ v0, o.tmval[o.count]? = some v0 := ⟨_, List.getElem?_eq_getElem (by omega)⟩
    rw [hv0]
    dsimp only
    split
    · rename_i tm htm
      rw [storeAt_ok (by omega), bind_ok]
      refine ⟨_, _, rfl, fun _ => ⟨hlt, fun s' hs' => ?_⟩, fun _ => rfl⟩
      cases hs'
      exact ⟨v0, tm, rfl, (strptime_iff fmt s [] v0 tm).1 htm⟩
    · rename_i htm
      refine ⟨_, _, rfl, fun h => (by cases h), fun h => ?_⟩
      obtain ⟨t, t', h1, h2⟩ := h.2 s rfl
      cases h1
      exact absurd ((strptime_iff fmt s [] v0 t').2 h2) (htm t')

theorem rexScan_answers {r : Re} {ic : Bool} {o : StrObj} (hd : r.Definite ic) (hn : o.count = n)
    (hl : (o.sval.length : Int) = mx) (hle : (n : Int) ≤ mx) (hlen : ∀ s, a = some s → s.length ≤ 65535) :
    Answers n mx (fun s => r.Accepts ic s) a (rexScan r.text ic mx o a) := by
  subst hn
  unfold rexScan
  by_cases hm : (o.count : Int) = mx
  · rw [if_pos hm]
    exact ⟨_, _, rfl, by rw [hm]; constructor; (intro h; cases h); (intro h; omega)⟩
  have hlt : (o.count : Int) < mx := by omega
  rw [if_neg hm]
  cases a with
  | none => exact ⟨_, _, rfl, by simp [hlt]⟩
  | some s =>
    obtain ⟨nodes, b, hc, hmt, hb⟩ := rexMatch_exact hd.ok hd.fits hd.spare hd.det (hlen s rfl)
    dsimp only
    rw [hc, bind_ok]
    dsimp only
    rw [hmt, bind_ok]
    cases b with
    | true =>
      rw [if_pos rfl, storeAt_ok (by omega), bind_ok]
      exact ⟨_, _, rfl, by simp [hlt, hb.1]⟩
    | false =>
      rw [if_neg (by simp)]
      refine ⟨_, _, rfl, fun h => (by cases h), fun h => ?_⟩
      cases hb.2 (h.2 s rfl)

end

/-! The texts that a live entry admits, by the kind of its object. -/

section
variable {h : Hdr (Obj δ)} {j : Nat} {s : CStr}

theorem admits_lit {c : Nat} (hp : h.parent = .lit c) : Admits lc h j s ↔ True := ⟨fun _ => trivial, fun _ => .lit hp⟩

theorem admits_str {o : StrObj} (hp : h.parent = .str o) : Admits lc h j s ↔ True := ⟨fun _ => trivial, fun _ => .str hp⟩

theorem admits_file {o : FileObj} (hp : h.parent = .file o) : Admits lc h j s ↔ True := ⟨fun _ => trivial, fun _ => .file hp⟩

theorem admits_int {o : IntObj} (hp : h.parent = .int o) : Admits lc h j s ↔ ∃ n, LooseText s n ∧ FitsInt n := by
  refine ⟨fun ha => ?_, fun ⟨n, h1, h2⟩ => .int hp h1 h2⟩
  cases ha with
  | int h0 h1 h2 => exact ⟨_, h1, h2⟩
  | lit h0 => rw [hp] at h0; cases h0
  | dbl h0 => rw [hp] at h0; cases h0
  | str h0 => rw [hp] at h0; cases h0
  | file h0 => rw [hp] at h0; cases h0
  | date h0 => obtain ⟨-, -, h1, -⟩ := give_date h0; rw [hp] at h1; cases h1
  | rex h0 => obtain ⟨-, -, h1, -⟩ := give_rex h0; rw [hp] at h1; cases h1

theorem admits_dbl {o : DblObj δ} (hp : h.parent = .dbl o) : Admits lc h j s ↔ (lc.strtod s).2 = [] := by
  refine ⟨fun ha => ?_, fun h1 => .dbl hp h1⟩
  cases ha with
  | dbl h0 h1 => exact h1
  | lit h0 => rw [hp] at h0; cases h0
  | int h0 => rw [hp] at h0; cases h0
  | str h0 => rw [hp] at h0; cases h0
  | file h0 => rw [hp] at h0; cases h0
  | date h0 => obtain ⟨-, -, h1, -⟩ := give_date h0; rw [hp] at h1; cases h1
  | rex h0 => obtain ⟨-, -, h1, -⟩ := give_rex h0; rw [hp] at h1; cases h1
end

theorem answers_date {h : Hdr (Obj δ)} {fmt : CStr} {o0 o : DateObj} (hd : DateEntry lc fmt h o0) {args : List (Option CStr)}
    (hn : o.count = args.length) (hc : Cells (DateVal fmt) args o0.tmval o.tmval) (a : Option CStr) :
    Answers args.length h.maxcount (Admits lc h args.length) a (give { h with parent := .date o } a) := by
  obtain ⟨l1, -, l3, l4⟩ := give_date hd
  have hr := hc.room
  have hl := hc.length
  have hx := dateScan_answers (fmt := fmt) (mx := h.maxcount) (a := a) hn (by omega) (by omega)
  have key := hx
  rw [hc.next] at key hx
  have hx := (l4 o a).symm ▸ hx.lift Obj.date
  obtain ⟨q, c, h1, h2⟩ := hx
  refine ⟨q, c, h1, fun h0 => ⟨(h2.1 h0).1, fun s hs => ?_⟩, fun h3 => ?_⟩
  · obtain ⟨t, t', g1, g2⟩ := (h2.1 h0).2 s hs
    exact .date hd g1 g2
  · cases a with
    | none => exact h2.2 ⟨h3.1, fun s hs => by cases hs⟩
    | some s =>
      have := h3.2 s rfl
      cases this with
      | @date fmt' o' t t' h5 h6 h7 =>
        obtain ⟨-, -, m3, m4⟩ := give_date h5
        rw [l3] at m3
        cases m3
        obtain ⟨q', c', g1, g2⟩ := (dateScan_answers (fmt := fmt') (mx := h.maxcount) (a := some s) hn (by omega) (by omega)).lift
          (Obj.date (δ := δ))
        have g1 : give { h with parent := .date o } (some s) = .ok (q', c') := by rw [m4]; exact g1
        rw [h1] at g1
        cases g1
        refine g2.2 ⟨h3.1, fun s' hs' => ?_⟩
        cases hs'
        rw [hc.next]
        exact ⟨t, t', h6, h7⟩
      | lit h0 => rw [l3] at h0; cases h0
      | int h0 => rw [l3] at h0; cases h0
      | dbl h0 => rw [l3] at h0; cases h0
      | str h0 => rw [l3] at h0; cases h0
      | file h0 => rw [l3] at h0; cases h0
      | rex h0 => obtain ⟨-, -, h1, -⟩ := give_rex h0; rw [l3] at h1; cases h1

theorem answers_rex {h : Hdr (Obj δ)} {pat : CStr} {ic : Bool} {o0 o : StrObj} (hd : RexEntry pat ic h o0)
    (hrx : RexDecidable h) {args : List (Option CStr)}
    (hn : o.count = args.length) (hc : Cells (RexVal pat ic) args o0.sval o.sval) (a : Option CStr)
    (hlen : ∀ s, a = some s → s.length ≤ 65535) :
    Answers args.length h.maxcount (Admits lc h args.length) a (give { h with parent := .rex o } a) := by
  have hr := hc.room
  have hl := hc.length
  obtain ⟨r, ic, hd, hdef⟩ := hrx o0 (give_rex hd).2.2.1
  obtain ⟨l1, -, l3, l4⟩ := give_rex hd
  have hx := rexScan_answers (mx := h.maxcount) (a := a) hdef hn (by omega) (by omega) hlen
  have hx := (l4 o a).symm ▸ hx.lift Obj.rex
  obtain ⟨q, c, h1, h2⟩ := hx
  refine ⟨q, c, h1, fun h0 => ⟨(h2.1 h0).1, fun s hs => ?_⟩, fun h3 => ?_⟩
  · exact .rex hd hdef ((h2.1 h0).2 s hs)
  · cases a with
    | none => exact h2.2 ⟨h3.1, fun s hs => by cases hs⟩
    | some s =>
      have := h3.2 s rfl
      cases this with
      | @rex r' ic' o' h5 h6 h7 =>
        obtain ⟨-, -, m3, m4⟩ := give_rex h5
        rw [l3] at m3
        cases m3
        obtain ⟨q', c', g1, g2⟩ := (rexScan_answers (mx := h.maxcount) (a := some s) h6 hn (by omega) (by omega) hlen).lift
          (Obj.rex (δ := δ))
        have g1 : give { h with parent := .rex o } (some s) = .ok (q', c') := by rw [m4]; exact g1
        rw [h1] at g1
        cases g1
        refine g2.2 ⟨h3.1, fun s' hs' => ?_⟩
        cases hs'
        exact h7
      | lit h0 => rw [l3] at h0; cases h0
      | int h0 => rw [l3] at h0; cases h0
      | dbl h0 => rw [l3] at h0; cases h0
      | str h0 => rw [l3] at h0; cases h0
      | file h0 => rw [l3] at h0; cases h0
      | date h0 => obtain ⟨-, -, h1, -⟩ := give_date h0; rw [l3] at h1; cases h1

/-- What may be given to an entry without undefined behaviour. -/
def Harmless (lc : Libc δ) (h : Hdr (Obj δ)) (n : Nat) (a : Option CStr) (x : M (Obj δ × Int)) : Prop :=
  ∀ s, a = some s → s.length ≤ 65535 ∧ ((∀ o, h.parent = .int o → (n : Int) < h.maxcount → ¬ DoubleMinus s) ∨
    Admits lc h n s ∨ ∃ r, x = .ok r)

theorem give_scanfn {h : Hdr (Obj δ)} {f : Obj δ → Option CStr → M (Obj δ × Int)} (hf : h.scanfn = some f) {p : Obj δ}
    {a : Option CStr} : give { h with parent := p } a = f p a := by
  unfold give
  dsimp only
  rw [hf]

theorem live_answers {h : Hdr (Obj δ)} (hl : Live lc R h) (hrx : RexDecidable h)
    {f : Obj δ → Option CStr → M (Obj δ × Int)} (hf : h.scanfn = some f) {args : List (Option CStr)} {p : Obj δ}
    (hs : Stores lc h args p) (ht : Takes lc h args) {a : Option CStr} (ha : Harmless lc h args.length a (f p a)) :
    ∃ q c, f p a = .ok (q, c) ∧ (c = 0 ↔ Takes lc h (args ++ [a])) := by
  suffices hA : Answers args.length h.maxcount (Admits lc h args.length) a (f p a) by
    obtain ⟨q, c, h1, h2⟩ := hA
    exact ⟨q, c, h1, by rw [h2, takes_snoc ht]⟩
  cases hl with
  | lit so lo mn mx gl ov c hc =>
    cases hf
    cases hs with
    | lit h0 =>
      dsimp only
      refine Answers.congr (Ad := fun _ => True) ?_ fun s => (admits_lit rfl).symm
      unfold litScan
      dsimp only [argLitn]
      split
      · rename_i hlt; exact ⟨_, _, rfl, by simp [hlt]⟩
      · rename_i hlt; exact ⟨_, _, rfl, by simp [hlt]; decide⟩
    | int h0 => cases h0
    | dbl h0 => cases h0
    | str h0 => cases h0
    | file h0 => cases h0
    | date h0 => obtain ⟨-, -, h1, -⟩ := give_date h0; cases h1
    | rex h0 => obtain ⟨-, -, h1, -⟩ := give_rex h0; cases h1
    | rem h0 => cases h0
  | int so lo dt mn mx gl h ov o hh hc hl =>
    obtain ⟨hm, -, -, -, -, -, -, -, -, -, hsc⟩ := argIntn_inv hh
    cases hsc.symm.trans hf
    cases hs with
    | int h0 h1 h2 =>
      cases h0
      have hr := h2.room
      have hlen := h2.length
      dsimp only
      rw [← hm]
      refine Answers.congr ((intScan_answers h1 (by omega) (by omega) fun s hs => ?_).lift Obj.int) fun s => (admits_int rfl).symm
      rcases (ha s hs).2 with h3 | h3 | ⟨r, h3⟩
      · by_cases hlt : (args.length : Int) < h.maxcount
        · exact Or.inl (h3 _ rfl hlt)
        · exact Or.inr (Or.inr ⟨(_, ARG_ERR_MAXCOUNT), by rw [intScan.eq_def, if_pos (by omega)]⟩)
      · exact Or.inr (Or.inl ((admits_int rfl).1 h3))
      · obtain ⟨w, h4, -⟩ := bind_some_ok h3
        rw [hm] 
        exact Or.inr (Or.inr ⟨w, h4⟩)
    | lit h0 => cases h0
    | dbl h0 => cases h0
    | str h0 => cases h0
    | file h0 => cases h0
    | date h0 => obtain ⟨-, -, h1, -⟩ := give_date h0; cases h1
    | rex h0 => obtain ⟨-, -, h1, -⟩ := give_rex h0; cases h1
    | rem h0 => cases h0
  | dbl ad so lo dt mn mx gl h ov o hh hc hl =>
    obtain ⟨hm, -, -, -, -, -, -, -, -, -, hsc⟩ := argDbln_inv hh
    cases hsc.symm.trans hf
    cases hs with
    | dbl h0 h1 h2 =>
      cases h0
      have hr := h2.room
      have hlen := h2.length
      dsimp only
      rw [← hm]
      exact Answers.congr ((dblScan_answers h1 (by omega) (by omega)).lift Obj.dbl) fun s => (admits_dbl rfl).symm
    | lit h0 => cases h0
    | int h0 => cases h0
    | str h0 => cases h0
    | file h0 => cases h0
    | date h0 => obtain ⟨-, -, h1, -⟩ := give_date h0; cases h1
    | rex h0 => obtain ⟨-, -, h1, -⟩ := give_rex h0; cases h1
    | rem h0 => cases h0
  | str so lo dt mn mx gl h ov o hh hc hl =>
    obtain ⟨hm, -, -, -, -, -, -, -, -, -, hsc⟩ := argStrn_inv hh
    cases hsc.symm.trans hf
    cases hs with
    | str h0 h1 h2 =>
      cases h0
      have hr := h2.room
      have hlen := h2.length
      have he : (emptied o.count o.sval).length = o.sval.length := by unfold emptied; simp; omega
      dsimp only
      rw [← hm]
      exact Answers.congr ((strScan_answers h1 (by omega) (by omega)).lift Obj.str) fun s => (admits_str rfl).symm
    | lit h0 => cases h0
    | int h0 => cases h0
    | dbl h0 => cases h0
    | file h0 => cases h0
    | date h0 => obtain ⟨-, -, h1, -⟩ := give_date h0; cases h1
    | rex h0 => obtain ⟨-, -, h1, -⟩ := give_rex h0; cases h1
    | rem h0 => cases h0
  | file so lo dt mn mx gl h ov o hh hc l1 l2 l3 =>
    obtain ⟨hm, -, -, -, -, -, -, -, -, -, hsc⟩ := argFilen_inv hh
    cases hsc.symm.trans hf
    cases hs with
    | file h0 h1 h2 h3 h4 =>
      cases h0
      have hr := h2.room
      have e0 := h2.length
      have e1 := h3.length
      have e2 := h4.length
      dsimp only
      rw [← hm]
      exact Answers.congr ((fileScan_answers h1 (by omega) (by omega) (by omega) (by omega)).lift Obj.file)
        fun s => (admits_file rfl).symm
    | lit h0 => cases h0
    | int h0 => cases h0
    | dbl h0 => cases h0
    | str h0 => cases h0
    | date h0 => obtain ⟨-, -, h1, -⟩ := give_date h0; cases h1
    | rex h0 => obtain ⟨-, -, h1, -⟩ := give_rex h0; cases h1
    | rem h0 => cases h0
  | date so lo fm dt mn mx gl h ov o hh hc hl =>
    cases hs with
    | @date fmt o0 o' h0 h1 h2 =>
      have := answers_date h0 h1 h2 a
      rw [give_scanfn hf] at this
      exact this
    | lit h0 => cases h0
    | int h0 => cases h0
    | dbl h0 => cases h0
    | str h0 => cases h0
    | file h0 => cases h0
    | rex h0 => obtain ⟨-, -, h1, -⟩ := give_rex h0; cases h1
    | rem h0 => cases h0
  | rex so lo pat dt mn mx ic gl h ov o hh hp hc hl =>
    cases hs with
    | @rex pat ic o0 o' h0 h1 h2 =>
      have := answers_rex (lc := lc) h0 hrx h1 h2 a fun s hs => (ha s hs).1
      rw [give_scanfn hf] at this
      exact this
    | lit h0 => cases h0
    | int h0 => cases h0
    | dbl h0 => cases h0
    | str h0 => cases h0
    | file h0 => cases h0
    | date h0 => obtain ⟨-, -, h1, -⟩ := give_date h0; cases h1
    | rem h0 => cases h0
  | rem dt gl => cases hf

/-! ### tables -/

theorem live_reset {h : Hdr (Obj δ)} (hl : Live lc R h) :
    ∃ p, (match h.resetfn with | none => .ok h.parent | some f => f h.parent) = (.ok p : M (Obj δ)) := by
  cases hl with
  | lit so lo mn mx gl ov c hc => exact ⟨_, rfl⟩
  | int so lo dt mn mx gl h ov o hh hc hl =>
    obtain ⟨-, -, -, -, -, -, -, -, -, hr, -⟩ := argIntn_inv hh
    dsimp only; rw [hr]; exact ⟨_, rfl⟩
  | dbl ad so lo dt mn mx gl h ov o hh hc hl =>
    obtain ⟨-, -, -, -, -, -, -, -, -, hr, -⟩ := argDbln_inv hh
    dsimp only; rw [hr]; exact ⟨_, rfl⟩
  | str so lo dt mn mx gl h ov o hh hc hl =>
    obtain ⟨-, -, -, -, -, -, -, -, -, hr, -⟩ := argStrn_inv hh
    dsimp only; rw [hr]; dsimp only
    rw [strReset, strClear_emptied _ _ (by omega), bind_ok, bind_ok]
    exact ⟨_, rfl⟩
  | file so lo dt mn mx gl h ov o hh hc h1 h2 h3 =>
    obtain ⟨-, -, -, -, -, -, -, -, -, hr, -⟩ := argFilen_inv hh
    dsimp only; rw [hr]; exact ⟨_, rfl⟩
  | date so lo fm dt mn mx gl h ov o hh hc hl =>
    obtain ⟨-, -, -, -, -, -, -, -, -, hr, -⟩ := argDaten_inv hh
    dsimp only; rw [hr]; exact ⟨_, rfl⟩
  | rex so lo pat dt mn mx ic gl h ov o hh hp' hc hl =>
    obtain ⟨-, -, -, -, -, -, -, -, -, hr, -⟩ := argRexn_inv hh
    dsimp only; rw [hr]; exact ⟨_, rfl⟩
  | rem dt gl => exact ⟨_, rfl⟩

theorem live_resetAll : ∀ (es : List (Hdr (Obj δ))), (∀ h ∈ es, Live lc R h) → ∃ es', resetAll es = .ok es' := by
  intro es
  induction es with
  | nil => intro _; exact ⟨_, rfl⟩
  | cons h t ih =>
    intro hl
    obtain ⟨p, hp⟩ := live_reset (hl h (by simp))
    obtain ⟨t', ht⟩ := ih fun k hk => hl k (by simp [hk])
    unfold resetAll
    cases hr : h.resetfn with
    | none => dsimp only; rw [ht]; exact ⟨_, rfl⟩
    | some f =>
      rw [hr] at hp
      dsimp only at hp ⊢
      rw [hp, bind_ok, ht]
      exact ⟨_, rfl⟩

theorem stores_count {h : Hdr (Obj δ)} {args : List (Option CStr)} {q : Obj δ} (hs : Stores lc h args q) :
    isRem q = isRem h.parent ∧ (isRem h.parent = false → q.count = args.length) := by
  cases hs with
  | lit h0 => rw [h0]; exact ⟨rfl, fun _ => rfl⟩
  | int h0 h1 h2 => rw [h0]; exact ⟨rfl, fun _ => h1⟩
  | dbl h0 h1 h2 => rw [h0]; exact ⟨rfl, fun _ => h1⟩
  | str h0 h1 h2 => rw [h0]; exact ⟨rfl, fun _ => h1⟩
  | file h0 h1 h2 => rw [h0]; exact ⟨rfl, fun _ => h1⟩
  | date h0 h1 h2 => obtain ⟨-, -, h3, -⟩ := give_date h0; rw [h3]; exact ⟨rfl, fun _ => h1⟩
  | rex h0 h1 h2 => obtain ⟨-, -, h3, -⟩ := give_rex h0; rw [h3]; exact ⟨rfl, fun _ => h1⟩
  | rem h0 => rw [h0]; exact ⟨rfl, fun h => by cases h⟩

/-- The entries `es` with new objects, after the arguments `A i`. -/
def Held (lc : Libc δ) (es : List (Hdr (Obj δ))) (A : Nat → List (Option CStr)) (es1 : List (Hdr (Obj δ))) : Prop :=
  es1.length = es.length ∧
  ∀ (i : Nat) (h : Hdr (Obj δ)), es[i]? = some h → ∃ q, es1[i]? = some { h with parent := q } ∧ Stores lc h (A i) q

theorem given_snoc (gs : List (Nat × Option CStr)) (g : Nat × Option CStr) (i : Nat) :
    given (gs ++ [g]) i = given gs i ++ (if g.1 = i then [g.2] else []) := by
  unfold given
  rw [List.filter_append, List.map_append]
  congr 1
  by_cases h : g.1 = i <;> simp [h]

theorem deliver_forward {es es1 : List (Hdr (Obj δ))} (hl : ∀ h ∈ es, Live lc AnyPat h) (hrx : ∀ h ∈ es, RexDecidable h)
    {dn : List (Nat × Option CStr)} (hh : Held lc es (given dn) es1) {g : Nat × Option CStr} (hlt : g.1 < es.length)
    (ht : ∀ i h, es[i]? = some h → Takes lc h (given (dn ++ [g]) i)) (hlen : ∀ s, g.2 = some s → s.length ≤ 65535) :
    ∃ es2, deliver (es1, []) (dlv g) = .ok (es2, []) ∧ Held lc es (given (dn ++ [g])) es2 := by
  obtain ⟨i, a⟩ := g
  obtain ⟨h, hi⟩ : ∃ h, es[i]? = some h := ⟨_, List.getElem?_eq_getElem hlt⟩
  have hmem : h ∈ es := List.mem_of_getElem? hi
  obtain ⟨p, h1, h2⟩ := hh.2 i h hi
  have hti := ht i h hi
  rw [given_snoc, if_pos rfl] at hti
  dsimp only at hti hlen
  have other : ∀ j, i ≠ j → given (dn ++ [(i, a)]) j = given dn j := fun j hj => by
    rw [given_snoc, if_neg hj, List.append_nil]
  unfold deliver dlv
  dsimp only
  rw [h1]
  dsimp only
  cases hs : h.scanfn with
  | none =>
    refine ⟨es1, rfl, hh.1, fun j k hj => ?_⟩
    by_cases hij : i = j
    · subst hij
      rw [hi] at hj
      cases hj
      rw [given_snoc, if_pos rfl]
      refine ⟨p, h1, ?_⟩
      exact stores_free (hl h hmem) hs a h2
    · rw [other j hij]; exact hh.2 j k hj
  | some f =>
    have hT := takes_prefix hti
    obtain ⟨q, c, g1, g2⟩ := live_answers (hl h hmem) (hrx h hmem) hs h2 hT (a := a) fun s hs => ⟨hlen s hs,
      Or.inr (Or.inl (((takes_snoc hT a).1 hti).2 s hs))⟩
    have hc := g2.2 hti
    subst hc
    dsimp only
    rw [g1, bind_ok]
    dsimp only
    rw [if_neg (by simp)]
    have hlt1 : i < es1.length := by rw [hh.1]; exact hlt
    refine ⟨_, rfl, by simpa using hh.1, fun j k hj => ?_⟩
    by_cases hij : i = j
    · subst hij
      rw [hi] at hj
      cases hj
      rw [given_snoc, if_pos rfl]
      exact ⟨q, by rw [List.getElem?_set_self hlt1, hs], stores_step (hl h hmem) hs h2 g1⟩
    · rw [other j hij, List.getElem?_set_ne hij]; exact hh.2 j k hj

theorem given_prefix (dn gs : List (Nat × Option CStr)) (i : Nat) : given (dn ++ gs) i = given dn i ++ given gs i := by
  unfold given
  rw [List.filter_append, List.map_append]

theorem deliverAll_forward {es : List (Hdr (Obj δ))} (hl : ∀ h ∈ es, Live lc AnyPat h) (hrx : ∀ h ∈ es, RexDecidable h) :
    ∀ (gs dn : List (Nat × Option CStr)) (es1 : List (Hdr (Obj δ))), Held lc es (given dn) es1 →
    (∀ g ∈ gs, g.1 < es.length) → (∀ i h, es[i]? = some h → Takes lc h (given (dn ++ gs) i)) →
    (∀ i s, (i, some s) ∈ gs → s.length ≤ 65535) →
    ∃ es2, deliverAll (gs.map dlv) (es1, []) = .ok (es2, []) ∧ Held lc es (given (dn ++ gs)) es2 := by
  intro gs
  induction gs with
  | nil => intro dn es1 hh _ _ _; exact ⟨es1, rfl, by rw [List.append_nil]; exact hh⟩
  | cons g gs ih =>
    intro dn es1 hh hlt ht hlen
    have e : dn ++ g :: gs = (dn ++ [g]) ++ gs := by simp
    obtain ⟨es2, h1, h2⟩ := deliver_forward hl hrx hh (hlt g (by simp))
      (fun i h hi => by have := ht i h hi; rw [e, given_prefix] at this; exact takes_prefix this)
      (fun s hs => hlen g.1 s (by obtain ⟨i, a⟩ := g; simp at hs; simp [hs]))
    rw [e] at ht ⊢
    obtain ⟨es3, h3, h4⟩ := ih (dn ++ [g]) es2 h2 (fun g hg => hlt g (by simp [hg])) ht
      fun i s hs => hlen i s (by simp [hs])
    refine ⟨es3, ?_, h4⟩
    rw [List.map_cons, deliverAll, h1, bind_ok]
    exact h3

theorem feed_forward {h : Hdr (Obj δ)} (hl : Live lc AnyPat h) (hrx : RexDecidable h)
    {f : Obj δ → Option CStr → M (Obj δ × Int)} (hf : h.scanfn = some f) {rest : List CStr} :
    ∀ (seg : List CStr) (args : List (Option CStr)) (p : Obj δ), Stores lc h args p →
    Takes lc h (args ++ seg.map some) →
    (∀ a, rest.head? = some a → ¬ Takes lc h (args ++ seg.map some ++ [some a])) →
    (∀ s ∈ seg ++ rest, s.length ≤ 65535) →
    (∀ o a, h.parent = .int o → rest.head? = some a → ((args ++ seg.map some).length : Int) < h.maxcount → ¬ DoubleMinus a) →
    ∃ q c, feed f p (seg ++ rest) = .ok (q, rest, c) ∧ Stores lc h (args ++ seg.map some) q := by
  intro seg
  induction seg with
  | nil =>
    intro args p hs ht hno hsafe hdm
    simp only [List.map_nil, List.append_nil, List.nil_append] at *
    cases rest with
    | nil => exact ⟨p, 0, rfl, hs⟩
    | cons a rest =>
      obtain ⟨q, c, g1, g2⟩ := live_answers hl hrx hf hs ht (a := some a) fun s hs => by
        cases hs; exact ⟨hsafe a (by simp), Or.inl fun o ho => hdm o a ho rfl⟩
      have hc : ¬ c = 0 := fun h => hno a rfl (g2.1 h)
      unfold feed
      rw [g1, bind_ok]
      dsimp only
      rw [if_neg hc]
      have : q = p := by
        have := live_scan_rej hl hf p (some a)
        rw [g1] at this
        rcases this with h | h
        · exact absurd h hc
        · exact h.1
      exact ⟨q, c, rfl, this ▸ hs⟩
  | cons a seg ih =>
    intro args p hs ht hno hsafe hdm
    have e : args ++ (a :: seg).map some = (args ++ [some a]) ++ seg.map some := by simp
    rw [e] at ht hno hdm ⊢
    have ht1 := takes_prefix ht
    have ht0 := takes_prefix ht1
    obtain ⟨q, c, g1, g2⟩ := live_answers hl hrx hf hs ht0 (a := some a) fun s hs => by
      cases hs; exact ⟨hsafe a (by simp), Or.inr (Or.inl (ht1.text args.length a (by simp)))⟩
    have hc := g2.2 ht1
    subst hc
    obtain ⟨q', c', g3, g4⟩ := ih (args ++ [some a]) q (stores_step hl hf hs g1) ht hno (fun s hs => hsafe s (by simp at hs ⊢; tauto)) hdm
    refine ⟨q', c', ?_, g4⟩
    rw [List.cons_append, feed, g1, bind_ok]
    dsimp only
    rw [if_pos rfl, g3]

/-- An `arg_int` with room that answers is not given one of the texts for which it has undefined behaviour. -/
theorem live_int_safe {h : Hdr (Obj δ)} (hl : Live lc R h) {o : IntObj} (ho : h.parent = .int o)
    {f : Obj δ → Option CStr → M (Obj δ × Int)} (hf : h.scanfn = some f) {args : List (Option CStr)} {p : Obj δ}
    (hs : Stores lc h args p) (hlt : (args.length : Int) < h.maxcount) {s : CStr} {r : Obj δ × Int}
    (hr : f p (some s) = .ok r) : ¬ DoubleMinus s := by
  cases hl with
  | int so lo dt mn mx gl h ov o hh hc hl =>
    obtain ⟨hm, -, -, -, -, -, -, -, -, -, hsc⟩ := argIntn_inv hh
    cases hsc.symm.trans hf
    cases hs with
    | int h0 h1 h2 =>
      cases h0
      have hr' := h2.room
      have hlen := h2.length
      dsimp only at hlt
      obtain ⟨w, h4, -⟩ := bind_some_ok hr
      intro hd
      rw [(intScan_full (by omega) (by omega) s).1 hd] at h4
      cases h4
    | lit h0 => cases h0
    | dbl h0 => cases h0
    | str h0 => cases h0
    | file h0 => cases h0
    | date h0 => obtain ⟨-, -, h1, -⟩ := give_date h0; cases h1
    | rex h0 => obtain ⟨-, -, h1, -⟩ := give_rex h0; cases h1
    | rem h0 => cases h0
  | _ => cases ho

theorem live_untagged_none {h : Hdr (Obj δ)} (hl : Live lc R h) (hf : h.scanfn = none) :
    h.parent = .rem ∧ h.shortopts = none ∧ h.longopts = none := by
  cases hl with
  | rem dt gl => exact ⟨rfl, rfl, rfl⟩
  | lit so lo mn mx gl ov c hc => cases hf
  | int so lo dt mn mx gl h ov o hh hc hl =>
    obtain ⟨-, -, -, -, -, -, -, -, -, -, hsc⟩ := argIntn_inv hh; cases hsc.symm.trans hf
  | dbl ad so lo dt mn mx gl h ov o hh hc hl =>
    obtain ⟨-, -, -, -, -, -, -, -, -, -, hsc⟩ := argDbln_inv hh; cases hsc.symm.trans hf
  | str so lo dt mn mx gl h ov o hh hc hl =>
    obtain ⟨-, -, -, -, -, -, -, -, -, -, hsc⟩ := argStrn_inv hh; cases hsc.symm.trans hf
  | file so lo dt mn mx gl h ov o hh hc l1 l2 l3 =>
    obtain ⟨-, -, -, -, -, -, -, -, -, -, hsc⟩ := argFilen_inv hh; cases hsc.symm.trans hf
  | date so lo fm dt mn mx gl h ov o hh hc hl =>
    obtain ⟨-, -, -, -, -, -, -, -, -, -, hsc⟩ := argDaten_inv hh; cases hsc.symm.trans hf
  | rex so lo pat dt mn mx ic gl h ov o hh hp hc hl =>
    obtain ⟨-, -, -, -, -, -, -, -, -, -, hsc, -⟩ := argRexn_inv hh; cases hsc.symm.trans hf

theorem admits_rem {h : Hdr (Obj δ)} {j : Nat} {s : CStr} (hp : h.parent = .rem) : ¬ Admits lc h j s := by
  intro ha
  cases ha with
  | lit h0 => rw [hp] at h0; cases h0
  | int h0 => rw [hp] at h0; cases h0
  | dbl h0 => rw [hp] at h0; cases h0
  | str h0 => rw [hp] at h0; cases h0
  | file h0 => rw [hp] at h0; cases h0
  | date h0 => obtain ⟨-, -, h1, -⟩ := give_date h0; rw [hp] at h1; cases h1
  | rex h0 => obtain ⟨-, -, h1, -⟩ := give_rex h0; rw [hp] at h1; cases h1

theorem takes_rem {h : Hdr (Obj δ)} (hp : h.parent = .rem) {args : List (Option CStr)} {s : CStr} (more : List (Option CStr)) :
    ¬ Takes lc h (args ++ some s :: more) := fun ht =>
  admits_rem hp (ht.text args.length s (by simp))

theorem operands_forward : ∀ (es es1 : List (Hdr (Obj δ))) (A : Nat → List (Option CStr)) (segs : List (List CStr)) (k : Nat)
    (last : Option (Int × Nat)), (∀ h ∈ es, Live lc AnyPat h) → (∀ h ∈ es, RexDecidable h) → Held lc es A es1 →
    segs.length = es.length →
    (∀ (i : Nat) h seg, es[i]? = some h → segs[i]? = some seg → h.shortopts.isSome ∨ h.longopts.isSome → seg = []) →
    (∀ (i : Nat) h seg, es[i]? = some h → segs[i]? = some seg → Takes lc h (A i ++ seg.map some)) →
    (∀ (i : Nat) h seg a, es[i]? = some h → segs[i]? = some seg → h.shortopts = none → h.longopts = none →
      (segs.drop (i + 1)).flatten.head? = some a → ¬ Takes lc h (A i ++ seg.map some ++ [some a])) →
    (∀ s ∈ segs.flatten, s.length ≤ 65535) →
    (∀ (i : Nat) h o seg a, es[i]? = some h → segs[i]? = some seg → h.parent = .int o → h.shortopts = none →
      h.longopts = none → (segs.drop (i + 1)).flatten.head? = some a →
      ((A i ++ seg.map some).length : Int) < h.maxcount → ¬ DoubleMinus a) →
    ∃ es2, operands es1 k last segs.flatten = .ok (es2, []) ∧
      Held lc es (fun i => A i ++ ((segs[i]?).getD []).map some) es2 := by
  intro es
  induction es with
  | nil =>
    intro es1 A segs k last _ _ hh hlen _ _ _ _ _
    cases List.length_eq_zero_iff.1 hlen
    cases List.length_eq_zero_iff.1 hh.1
    exact ⟨[], rfl, rfl, fun i h hi => by simp at hi⟩
  | cons h t ih =>
    intro es1 A segs k last hl hrx hh hlen htag htk hgr hsafe hdm
    cases segs with
    | nil => cases hlen
    | cons seg segs =>
    cases es1 with
    | nil => cases hh.1
    | cons k1 t1 =>
    obtain ⟨p, hp, hst⟩ := hh.2 0 h rfl
    cases hp
    have hh' : Held lc t (fun i => A (i + 1)) t1 :=
      ⟨by simpa using hh.1, fun i k hi => hh.2 (i + 1) k hi⟩
    have hlen' : segs.length = t.length := by simpa using hlen
    have IH := fun k last => ih t1 (fun i => A (i + 1)) segs k last (fun k hk => hl k (by simp [hk]))
      (fun k hk => hrx k (by simp [hk])) hh' hlen' (fun i k sg h1 h2 => htag (i + 1) k sg h1 h2)
      (fun i k sg h1 h2 => htk (i + 1) k sg h1 h2) (fun i k sg a h1 h2 => hgr (i + 1) k sg a h1 h2)
      (fun s hs => hsafe s (by simp [List.mem_flatten] at hs ⊢; exact Or.inr hs))
      (fun i k o sg a h1 h2 => hdm (i + 1) k o sg a h1 h2)
    have held : ∀ {t2 : List (Hdr (Obj δ))} {q : Obj δ}, Held lc t (fun i => A (i + 1) ++ ((segs[i]?).getD []).map some) t2 →
        Stores lc h (A 0 ++ seg.map some) q →
        Held lc (h :: t) (fun i => A i ++ (((seg :: segs)[i]?).getD []).map some) ({ h with parent := q } :: t2) := by
      intro t2 q h1 h2
      refine ⟨by simp [h1.1], fun i k hi => ?_⟩
      cases i with
      | zero => cases hi; exact ⟨q, rfl, h2⟩
      | succ i => exact h1.2 i k hi
    have htk0 := htk 0 h seg rfl rfl
    rw [operands.eq_def]
    dsimp only
    by_cases h0 : (seg :: segs).flatten = []
    · rw [if_pos h0]
      refine ⟨_, rfl, hh.1, fun i k hi => ?_⟩
      have : (((seg :: segs)[i]?).getD []) = [] := by
        cases hx : (seg :: segs)[i]? with
        | none => rfl
        | some sg =>
          have := List.flatten_eq_nil_iff.1 h0 sg (List.mem_of_getElem? hx)
          rw [this]; rfl
      dsimp only
      rw [this, List.map_nil, List.append_nil]
      exact hh.2 i k hi
    rw [if_neg h0]
    by_cases ht : h.longopts.isSome = true ∨ h.shortopts.isSome = true
    · rw [if_pos ht]
      have hsg := htag 0 h seg rfl rfl ht.symm
      subst hsg
      obtain ⟨t2, h1, h2⟩ := IH (k + 1) last
      rw [List.flatten_cons, List.nil_append, h1, bind_ok]
      exact ⟨_, rfl, held h2 (by simpa using hst)⟩
    rw [if_neg ht]
    cases hf : h.scanfn with
    | none =>
      obtain ⟨hrem, -, -⟩ := live_untagged_none (hl h (by simp)) hf
      have hsg : seg = [] := by
        cases seg with
        | nil => rfl
        | cons s seg => exact absurd htk0 (by rw [List.map_cons]; exact takes_rem hrem _)
      subst hsg
      obtain ⟨t2, h1, h2⟩ := IH (k + 1) last
      dsimp only
      rw [List.flatten_cons, List.nil_append, h1, bind_ok]
      refine ⟨_, rfl, ?_⟩
      rw [← hf]
      exact held h2 (by simpa using hst)
    | some f =>
      have hso : h.shortopts = none := by
        cases hx : h.shortopts with
        | none => rfl
        | some _ => rw [hx] at ht; simp at ht
      have hlo : h.longopts = none := by
        cases hx : h.longopts with
        | none => rfl
        | some _ => rw [hx] at ht; simp at ht
      obtain ⟨q, c, h3, h4⟩ := feed_forward (hl h (by simp)) (hrx h (by simp)) hf (rest := segs.flatten) seg (A 0) p hst htk0
        (fun a ha => hgr 0 h seg a rfl rfl hso hlo ha) hsafe
        (fun o a ho ha => hdm 0 h o seg a rfl rfl ho hso hlo ha)
      dsimp only
      rw [List.flatten_cons, h3, bind_ok]
      dsimp only
      obtain ⟨t2, h1, h2⟩ := IH (k + 1) (some (c, k))
      rw [h1, bind_ok]
      refine ⟨_, rfl, ?_⟩
      rw [← hf]
      exact held h2 h4

theorem checks_nil : ∀ (es : List (Hdr (Obj δ))) (i : Nat),
    (∀ k ∈ es, k.checkfn = none ∨ ∃ f, k.checkfn = some f ∧ f k.parent = 0) → checks es i = [] := by
  intro es
  induction es with
  | nil => intro i _; rfl
  | cons k t ih =>
    intro i h
    have ht := ih (i + 1) fun k hk => h k (by simp [hk])
    unfold checks
    rcases h k (by simp) with h1 | ⟨f, h1, h2⟩
    · rw [h1, ht]
    · rw [h1]; dsimp only; rw [if_neg (by simp [h2]), ht]

/-! ### values go to entries with option names -/

def Named (ds : List Decl) (i : Nat) : Prop := ∃ d, ds[i]? = some d ∧ (d.short.isSome ∨ d.long.isSome)

theorem shortLookup_named {c : Char} {ds : List Decl} {i j : Nat} {k : ValKind} (h : shortLookup c ds i = some (j, k)) :
    i ≤ j ∧ Named ds (j - i) := by
  induction ds generalizing i with
  | nil => simp [shortLookup] at h
  | cons d ds ih =>
    simp only [shortLookup] at h
    split at h
    · rename_i hc
      cases h
      refine ⟨Nat.le_refl _, d, by simp, Or.inl ?_⟩
      cases hx : d.short with
      | none => rw [hx] at hc; simp at hc
      | some _ => rfl
    · obtain ⟨h1, d', h2, h3⟩ := ih h
      refine ⟨by omega, d', ?_, h3⟩
      rw [show j - i = (j - (i + 1)) + 1 by omega]
      exact h2

theorem longTable_named {ds : List Decl} {i : Nat} {l : Long} (h : l ∈ longTable ds i) : i ≤ l.entry ∧ Named ds (l.entry - i) := by
  induction ds generalizing i with
  | nil => cases h
  | cons d ds ih =>
    rw [longTable, List.mem_append] at h
    rcases h with h | h
    · obtain ⟨n, hn, rfl⟩ := List.mem_map.1 h
      refine ⟨Nat.le_refl _, d, by simp, Or.inr ?_⟩
      cases hx : d.long with
      | none => rw [hx] at hn; simp at hn
      | some _ => rfl
    · obtain ⟨h1, d', h2, h3⟩ := ih h
      refine ⟨by omega, d', ?_, h3⟩
      rw [show l.entry - i = (l.entry - (i + 1)) + 1 by omega]
      exact h2

theorem denotes_named {ds : List Decl} {p : CStr} {l : Long} (h : Denotes (longTable ds 0) p l) : Named ds l.entry := by
  have : l ∈ longTable ds 0 := by
    rcases h with ⟨b, c, h1, -⟩ | ⟨-, ⟨b, c, h1, -⟩, -⟩ <;> (rw [h1]; simp)
  exact (longTable_named this).2

theorem body_named {ds : List Decl} {body : CStr} {gs : List (Nat × Option CStr)} {sep : Option CStr} (h : Body ds body gs sep) :
    ∀ g ∈ gs, Named ds g.1 := by
  induction h with
  | stop => intro g h; cases h
  | flag _ hl _ ih =>
    intro g h
    rcases List.mem_cons.1 h with rfl | h
    · exact (shortLookup_named hl).2
    · exact ih g h
  | attached _ hl => intro g h; simp at h; rw [h]; exact (shortLookup_named hl).2
  | separate _ hl => intro g h; simp at h; rw [h]; exact (shortLookup_named hl).2
  | bare _ hl => intro g h; simp at h; rw [h]; exact (shortLookup_named hl).2
  | long _ _ hd => intro g h; simp at h; rw [h]; exact denotes_named hd
  | longValue _ hd => intro g h; simp at h; rw [h]; exact denotes_named hd
  | longSeparate _ _ hd => intro g h; simp at h; rw [h]; exact denotes_named hd

theorem line_named {ds : List Decl} {posix : Bool} {args : List CStr} {gs : List (Nat × Option CStr)} {ops : List CStr}
    (h : Line ds posix args gs ops) : ∀ g ∈ gs, Named ds g.1 := by
  induction h with
  | done => intro g h; cases h
  | dashes ops => intro g h; cases h
  | operand ho hp _ ih => exact ih
  | posix rest ho hp => intro g h; cases h
  | option hb h1 _ ih =>
    intro g h
    rcases List.mem_append.1 h with h | h
    · exact body_named h1 g h
    · exact ih g h
  | optionValue h1 _ ih =>
    intro g h
    rcases List.mem_append.1 h with h | h
    · exact body_named h1 g h
    · exact ih g h

theorem given_mem {gs : List (Nat × Option CStr)} {i : Nat} {a : Option CStr} : a ∈ given gs i ↔ (i, a) ∈ gs := by
  unfold given
  simp only [List.mem_map, List.mem_filter, decide_eq_true_eq]
  constructor
  · rintro ⟨⟨j, b⟩, ⟨h1, h2⟩, h3⟩
    cases h2; cases h3; exact h1
  · intro h; exact ⟨_, ⟨h, rfl⟩, rfl⟩

/-! ### values that have been accepted -/

/-- `Stores` together with `Takes`, for values of at most 65535 characters. -/
def Took (lc : Libc δ) (h : Hdr (Obj δ)) (args : List (Option CStr)) (q : Obj δ) : Prop :=
  Stores lc h args q ∧ ((∀ s, some s ∈ args → s.length ≤ 65535) → isRem h.parent = false → Takes lc h args)

theorem took_step {h : Hdr (Obj δ)} (hl : Live lc R h) (hrx : RexDecidable h)
    {f : Obj δ → Option CStr → M (Obj δ × Int)} (hf : h.scanfn = some f) {args : List (Option CStr)} {p q : Obj δ}
    (hs : Took lc h args p) {a : Option CStr} (hq : f p a = .ok (q, 0)) : Took lc h (args ++ [a]) q := by
  refine ⟨stores_step hl hf hs.1 hq, fun hlen hr => ?_⟩
  have ht := hs.2 (fun s hs => hlen s (by simp [hs])) hr
  obtain ⟨q', c, h1, h2⟩ := live_answers hl hrx hf hs.1 ht (a := a) fun s hs =>
    ⟨hlen s (by simp [hs]), Or.inr (Or.inr ⟨_, hq⟩)⟩
  rw [hq] at h1
  cases h1
  exact h2.1 rfl

theorem took_free {h : Hdr (Obj δ)} (hl : Live lc R h) (hf : h.scanfn = none) {args : List (Option CStr)}
    {p : Obj δ} (a : Option CStr) (hs : Took lc h args p) : Took lc h (args ++ [a]) p := by
  refine ⟨stores_free hl hf a hs.1, fun _ hr => ?_⟩
  rw [(live_untagged_none hl hf).1] at hr
  cases hr

theorem took_reset {h : Hdr (Obj δ)} {p : Obj δ} (hs : Stores lc h [] p) : Took lc h [] p := ⟨hs, fun _ _ => takes_nil h⟩

/-! ### the division of the operands is unique -/

theorem division_unique : ∀ (segs segs' : List (List CStr)) (T : Nat → List CStr → Prop),
    (∀ i s t, T i (s ++ t) → T i s) → segs.length = segs'.length → segs.flatten = segs'.flatten →
    (∀ i s, segs[i]? = some s → T i s) → (∀ i s, segs'[i]? = some s → T i s) →
    (∀ i s a, segs[i]? = some s → (segs.drop (i + 1)).flatten.head? = some a → ¬ T i (s ++ [a])) →
    (∀ i s a, segs'[i]? = some s → (segs'.drop (i + 1)).flatten.head? = some a → ¬ T i (s ++ [a])) →
    segs = segs' := by
  intro segs
  induction segs with
  | nil =>
    intro segs' T _ hl _ _ _ _ _
    exact (List.length_eq_zero_iff.1 hl.symm).symm
  | cons s segs ih =>
    intro segs' T hp hl hf h1 h1' h2 h2'
    cases segs' with
    | nil => cases hl
    | cons s' segs' =>
      have key : ∀ (s s' : List CStr) (fl fl' u : List CStr), T 0 s' → s' = s ++ u → fl = u ++ fl' →
          (∀ a, fl.head? = some a → ¬ T 0 (s ++ [a])) → s = s' := by
        intro s s' fl fl' u ht hs hfl hg
        cases u with
        | nil => rw [hs, List.append_nil]
        | cons a u =>
          exfalso
          refine hg a (by rw [hfl]; rfl) (hp 0 (s ++ [a]) u ?_)
          rw [List.append_assoc]
          rw [hs] at ht
          exact ht
      have hs : s = s' := by
        rw [List.flatten_cons, List.flatten_cons] at hf
        rcases List.append_eq_append_iff.1 hf with ⟨u, hu, hv⟩ | ⟨u, hu, hv⟩
        · exact key s s' _ _ u (h1' 0 s' rfl) hu hv (fun a ha => h2 0 s a rfl (by simpa using ha))
        · exact (key s' s _ _ u (h1 0 s rfl) hu hv (fun a ha => h2' 0 s' a rfl (by simpa using ha))).symm
      subst hs
      rw [List.flatten_cons, List.flatten_cons, List.append_cancel_left_eq] at hf
      congr 1
      exact ih segs' (fun i => T (i + 1)) (fun i => hp (i + 1)) (by simpa using hl) hf
        (fun i t ht => h1 (i + 1) t ht) (fun i t ht => h1' (i + 1) t ht)
        (fun i t a ht ha => h2 (i + 1) t a ht (by simpa using ha)) (fun i t a ht ha => h2' (i + 1) t a ht (by simpa using ha))

theorem dlv_map_inj {gs gs' : List (Nat × Option CStr)} (h : gs.map dlv = gs'.map dlv) : gs = gs' :=
  (List.map_injective_iff.2 (fun a b e => by
    unfold dlv at e
    have := Ev.deliver.inj e
    exact Prod.ext this.1 this.2)) h

end Argtable
