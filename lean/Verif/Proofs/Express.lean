import Verif.Spec.Express
import Verif.Proofs.Spelling
import Verif.Proofs.Reading
/-!
# Writing a command line: lemmas
-/

namespace Argtable

open Spec

variable {ds : List Decl}

theorem distinct_short (hd : Clear ds) {i : Nat} {d : Decl} (hi : ds[i]? = some d) {c : Char} (hc : c ∈ d.short.getD []) :
    c ≠ '-' ∧ shortLookup c ds 0 = some (i, d.shortKind) := by
  have hlt := (List.getElem?_eq_some_iff.1 hi).1
  have hmem : d ∈ ds := List.mem_of_getElem? hi
  refine ⟨fun e => (hd.letters d hmem).1 (e ▸ hc), ?_⟩
  have hsplit : ds = ds.take i ++ d :: ds.drop (i + 1) := by
    have : ds[i] = d := (List.getElem?_eq_some_iff.1 hi).2
    rw [← this, ← List.drop_eq_getElem_cons hlt, List.take_append_drop]
  have hap := hd.apart
  rw [hsplit] at hap
  have h := shortLookup_first (c := c) (ds.take i) d (ds.drop (i + 1)) (fun k hk hck =>
    ((List.pairwise_append.1 hap).2.2 k hk d (by simp)).1 c hck hc) hc 0
  rw [← hsplit] at h
  rw [h, List.length_take]
  simp; omega

theorem distinct_long (hd : Clear ds) {i : Nat} {d : Decl} (hi : ds[i]? = some d) {n : CStr} (hn : n ∈ d.names) :
    n ≠ [] ∧ '=' ∉ n ∧ Denotes (longTable ds 0) n ⟨n, i, d.longKind⟩ := by
  have hlt := (List.getElem?_eq_some_iff.1 hi).1
  have hmem : d ∈ ds := List.mem_of_getElem? hi
  refine ⟨(hd.names d hmem n hn).1, (hd.names d hmem n hn).2.1, ?_⟩
  have hsplit : ds = ds.take i ++ d :: ds.drop (i + 1) := by
    have : ds[i] = d := (List.getElem?_eq_some_iff.1 hi).2
    rw [← this, ← List.drop_eq_getElem_cons hlt, List.take_append_drop]
  have hap := hd.apart
  rw [hsplit] at hap
  have h := denotes_first (n := n) (ds.take i) d (ds.drop (i + 1)) (fun k hk hck =>
    ((List.pairwise_append.1 hap).2.2 k hk d (by simp)).2 n hck hn) hn
  rw [← hsplit] at h
  have e : (ds.take i).length = i := by rw [List.length_take]; omega
  rw [e] at h
  exact h

theorem spell_long (hd : Clear ds) {i : Nat} {d : Decl} (hi : ds[i]? = some d) (hn : d.names ≠ []) (v : Option CStr)
    (h0 : v = none → d.longKind ≠ .req) (h1 : ∀ w, v = some w → d.longKind ≠ .no ∧ (w = [] → d.hasValue = false)) :
    Options ds (match v with
      | none => [cs "--" ++ d.names.headD []]
      | some v => [cs "--" ++ d.names.headD [] ++ '=' :: v]) [(i, v)] := by
  obtain ⟨n, ns, hns⟩ : ∃ n ns, d.names = n :: ns := List.exists_cons_of_ne_nil hn
  obtain ⟨a1, a2, a3⟩ := distinct_long hd hi (n := n) (by rw [hns]; simp)
  rw [hns]
  cases v with
  | none =>
    exact .option (body := '-' :: n) (by simp) (.long a1 a2 a3 (h0 rfl)) .nil
  | some w =>
    obtain ⟨b1, b2⟩ := h1 w rfl
    refine .option (body := '-' :: (n ++ '=' :: w)) (by simp) (.longValue a2 a3 b1 ?_) .nil
    intro hw
    show (ds[i]?).map _ ≠ _
    rw [hi]
    simp [b2 hw]

theorem spell_options (hd : Clear ds) {i : Nat} {d : Decl} (hi : ds[i]? = some d) {v : Option CStr} (hs : CanSay d v) :
    Options ds (spell d v) [(i, v)] := by
  have hL := spell_long hd hi (v := v)
  have hS := fun c hc => distinct_short hd hi (c := c) hc
  unfold spell
  cases v with
  | none =>
    cases hc : d.short.getD [] with
    | nil =>
      rcases hs with ⟨h1, -⟩ | ⟨h1, h2⟩
      · exact absurd hc h1
      · exact hL h1 (fun _ => h2) (fun w h => by cases h)
    | cons c l =>
      obtain ⟨a1, a2⟩ := hS c (by rw [hc]; simp)
      cases hk : d.shortKind with
      | no => exact .option (body := [c]) (by simp) (.flag a1 (by rw [a2, hk]) .stop) .nil
      | opt => exact .option (body := [c]) (by simp) (.bare a1 (by rw [a2, hk])) .nil
      | req =>
        rcases hs with ⟨-, h2⟩ | ⟨h1, h2⟩
        · exact absurd hk h2
        · exact hL h1 (fun _ => h2) (fun w h => by cases h)
  | some v =>
    cases hc : d.short.getD [] with
    | nil =>
      rcases hs with ⟨h1, -⟩ | ⟨h1, -⟩ | ⟨h1, h2, h3⟩
      · exact absurd hc h1
      · exact absurd hc h1
      · cases v <;> exact hL h1 (fun h => by cases h) (fun w h => by cases h; exact ⟨h2, h3⟩)
    | cons c l =>
      obtain ⟨a1, a2⟩ := hS c (by rw [hc]; simp)
      cases hk : d.shortKind with
      | no =>
        rcases hs with ⟨-, h2⟩ | ⟨-, h2, -⟩ | ⟨h1, h2, h3⟩
        · rw [hk] at h2; cases h2
        · rw [hk] at h2; cases h2
        · cases v <;> exact hL h1 (fun h => by cases h) (fun w h => by cases h; exact ⟨h2, h3⟩)
      | req =>
        cases v <;> exact .optionValue (body := [c]) (.separate a1 (by rw [a2, hk])) .nil
      | opt =>
        cases v with
        | nil =>
          rcases hs with ⟨-, h2⟩ | ⟨-, -, h2⟩ | ⟨h1, h2, h3⟩
          · rw [hk] at h2; cases h2
          · exact absurd rfl h2
          · exact hL h1 (fun h => by cases h) (fun w h => by cases h; exact ⟨h2, h3⟩)
        | cons x v => exact .option (body := c :: x :: v) (by simp) (.attached a1 a2 (by rw [hk]; simp) (by simp)) .nil

theorem options_append {as bs : List CStr} {gs hs : List (Nat × Option CStr)} (h : Options ds as gs) (h' : Options ds bs hs) :
    Options ds (as ++ bs) (gs ++ hs) := by
  induction h with
  | nil => exact h'
  | option h1 h2 _ ih => rw [List.cons_append, List.append_assoc]; exact .option h1 h2 ih
  | optionValue h1 _ ih => rw [List.cons_append, List.cons_append, List.append_assoc]; exact .optionValue h1 ih

theorem write_options (hd : Clear ds) : ∀ {gs : List (Nat × Option CStr)}, AllSaid ds gs →
    Options ds (gs.flatMap fun g => (ds[g.1]?.map (spell · g.2)).getD []) gs := by
  intro gs
  induction gs with
  | nil => exact fun _ => .nil
  | cons g gs ih =>
    intro hs
    obtain ⟨d, h1, h2⟩ := hs g (by simp)
    have := options_append (spell_options hd h1 h2) (ih fun x hx => hs x (by simp [hx]))
    rw [List.flatMap_cons, h1]
    exact this

theorem options_line {as : List CStr} {gs : List (Nat × Option CStr)} (h : Options ds as gs) (posix : Bool)
    (ops : List CStr) : Line ds posix (as ++ cs "--" :: ops) gs ops := by
  induction h with
  | nil => exact .dashes ops
  | option h1 h2 _ ih => exact .option h1 h2 ih
  | optionValue h1 _ ih => exact .optionValue h1 ih

theorem write_line (hd : Clear ds) {gs : List (Nat × Option CStr)} (hs : AllSaid ds gs) (posix : Bool)
    (ops : List CStr) : Line ds posix (write ds gs ops) gs ops :=
  options_line (write_options hd hs) posix ops

/-- Whatever a command line says can be written. -/
theorem says_short {c : Char} {i : Nat} {k : ValKind} (h : shortLookup c ds 0 = some (i, k)) :
    ∃ d, ds[i]? = some d ∧ d.shortKind = k ∧ d.short.getD [] ≠ [] := by
  have key : ∀ (ds : List Decl) (j : Nat), shortLookup c ds j = some (i, k) → ∃ d, ds[i - j]? = some d ∧ d.shortKind = k ∧
      d.short.getD [] ≠ [] ∧ j ≤ i := by
    intro ds
    induction ds with
    | nil => intro j h; cases h
    | cons d ds ih =>
      intro j h
      rw [shortLookup] at h
      split at h
      · rename_i hc
        cases h
        exact ⟨d, by simp, rfl, (fun e => by rw [e] at hc; cases hc), Nat.le_refl _⟩
      · obtain ⟨d', h1, h2, h3, h4⟩ := ih _ h
        refine ⟨d', ?_, h2, h3, by omega⟩
        rw [show i - j = (i - (j + 1)) + 1 by omega]
        exact h1
  obtain ⟨d, h1, h2, h3, -⟩ := key ds 0 h
  exact ⟨d, h1, h2, h3⟩

theorem says_long {p : CStr} {l : Long} (h : Denotes (longTable ds 0) p l) :
    ∃ d, ds[l.entry]? = some d ∧ d.longKind = l.kind ∧ d.names ≠ [] := by
  have hm : l ∈ longTable ds 0 := by
    rcases h with ⟨b, c, h1, -⟩ | ⟨-, ⟨b, c, h1, -⟩, -⟩ <;> (rw [h1]; simp)
  have key : ∀ (ds : List Decl) (j : Nat), l ∈ longTable ds j → ∃ d, ds[l.entry - j]? = some d ∧ d.longKind = l.kind ∧
      d.names ≠ [] ∧ j ≤ l.entry := by
    intro ds
    induction ds with
    | nil => intro j h; cases h
    | cons d ds ih =>
      intro j h
      rw [longTable, List.mem_append] at h
      rcases h with h | h
      · obtain ⟨n, hn, rfl⟩ := List.mem_map.1 h
        exact ⟨d, by simp, rfl, List.ne_nil_of_mem hn, Nat.le_refl _⟩
      · obtain ⟨d', h1, h2, h3, h4⟩ := ih _ h
        refine ⟨d', ?_, h2, h3, by omega⟩
        rw [show l.entry - j = (l.entry - (j + 1)) + 1 by omega]
        exact h1
  obtain ⟨d, h1, h2, h3, -⟩ := key ds 0 hm
  exact ⟨d, h1, h2, h3⟩

theorem body_says {body : CStr} {gs : List (Nat × Option CStr)} {sep : Option CStr} (h : Body ds body gs sep) :
    AllSaid ds gs := by
  have one : ∀ {i : Nat} {v : Option CStr} {d : Decl}, ds[i]? = some d → CanSay d v → AllSaid ds [(i, v)] := by
    intro i v d h1 h2 g hg
    rw [List.mem_singleton.1 hg]
    exact ⟨d, h1, h2⟩
  induction h with
  | stop => intro g hg; cases hg
  | flag _ hl _ ih =>
    obtain ⟨d, h1, h2, h3⟩ := says_short hl
    intro g hg
    rcases List.mem_cons.1 hg with rfl | hg
    · exact ⟨d, h1, .inl ⟨h3, by rw [h2]; simp⟩⟩
    · exact ih g hg
  | @attached c i k v _ hl hk hv =>
    obtain ⟨d, h1, h2, h3⟩ := says_short hl
    refine one h1 ?_
    cases k with
    | no => exact absurd rfl hk
    | req => exact .inl ⟨h3, h2⟩
    | opt => exact .inr (.inl ⟨h3, h2, hv⟩)
  | separate _ hl =>
    obtain ⟨d, h1, h2, h3⟩ := says_short hl
    exact one h1 (.inl ⟨h3, h2⟩)
  | bare _ hl =>
    obtain ⟨d, h1, h2, h3⟩ := says_short hl
    exact one h1 (.inl ⟨h3, by rw [h2]; simp⟩)
  | long _ _ hd hk =>
    obtain ⟨d, h1, h2, h3⟩ := says_long hd
    exact one h1 (.inr ⟨h3, by rw [h2]; exact hk⟩)
  | longValue _ hd hk hf =>
    obtain ⟨d, h1, h2, h3⟩ := says_long hd
    refine one h1 (.inr (.inr ⟨h3, by rw [h2]; exact hk, fun hv => ?_⟩))
    have := hf hv
    rw [h1] at this
    simpa using this
  | longSeparate _ _ hd hk hf =>
    obtain ⟨d, h1, h2, h3⟩ := says_long hd
    refine one h1 (.inr (.inr ⟨h3, by rw [h2, hk]; simp, fun hv => ?_⟩))
    have := hf hv
    rw [h1] at this
    simpa using this

theorem line_says {posix : Bool} {args : List CStr} {gs : List (Nat × Option CStr)} {ops : List CStr}
    (h : Line ds posix args gs ops) : AllSaid ds gs := by
  induction h with
  | done => intro g hg; cases hg
  | dashes => intro g hg; cases hg
  | operand _ _ _ ih => exact ih
  | posix => intro g hg; cases hg
  | option _ hb _ ih =>
    intro g hg
    rcases List.mem_append.1 hg with hg | hg
    · exact body_says hb g hg
    · exact ih g hg
  | optionValue hb _ ih =>
    intro g hg
    rcases List.mem_append.1 hg with hg | hg
    · exact body_says hb g hg
    · exact ih g hg

theorem spell_cargs (hd : Clear ds) {i : Nat} {d : Decl} (hi : ds[i]? = some d) {v : Option CStr}
    (hv : ∀ w, v = some w → '\x00' ∉ w) : CArgs (spell d v) := by
  have hmem : d ∈ ds := List.mem_of_getElem? hi
  have hn : '\x00' ∉ d.names.headD [] := by
    cases h : d.names with
    | nil => simp
    | cons n ns => exact (hd.names d hmem n (by rw [h]; simp)).2.2
  have hc : ∀ c ∈ d.short.getD [], '\x00' ≠ c := fun c h e => (hd.letters d hmem).2 (e ▸ h)
  unfold spell
  split
  all_goals
    intro a ha
    first
    | (rename_i c _ h1 _; have h2 := hc c (by rw [h1]; simp))
    | skip
    simp only [List.mem_cons, List.not_mem_nil, or_false] at ha
    first
    | (rcases ha with rfl | rfl
       · simp [h2]
       · exact hv _ rfl)
    | (subst ha; simp_all [cs])

theorem write_cargs (hd : Clear ds) {gs : List (Nat × Option CStr)} (hv : CValues gs) {ops : List CStr} (ho : CArgs ops) :
    CArgs (write ds gs ops) := by
  intro a ha
  rcases List.mem_append.1 ha with ha | ha
  · obtain ⟨⟨i, v⟩, h1, h2⟩ := List.mem_flatMap.1 ha
    cases hi : ds[i]? with
    | none => rw [hi] at h2; cases h2
    | some d =>
      rw [hi] at h2
      exact spell_cargs hd hi (fun w hw => hv i w (hw ▸ h1)) a h2
  · rcases List.mem_cons.1 ha with rfl | ha
    · decide
    · exact ho a ha

theorem body_suffix {body : CStr} {gs : List (Nat × Option CStr)} {sep : Option CStr} (h : Body ds body gs sep) :
    ∀ i v, (i, some v) ∈ gs → v <:+ body ∨ sep = some v := by
  induction h with
  | stop => intro i v h; cases h
  | flag _ _ _ ih =>
    intro i v h
    rcases List.mem_cons.1 h with h | h
    · cases h
    · rcases ih i v h with h | h
      · left; exact h.trans (List.suffix_cons _ _)
      · exact Or.inr h
  | attached => intro i v h; simp at h; rw [h.2]; left; exact List.suffix_cons _ _
  | separate => intro i v h; simp at h; rw [h.2]; right; rfl
  | bare => intro i v h; simp at h
  | long => intro i v h; simp at h
  | @longValue p v =>
    intro i w h; simp at h; rw [h.2]; left
    exact ⟨'-' :: (p ++ ['=']), by simp⟩
  | longSeparate => intro i v h; simp at h; rw [h.2]; right; rfl

theorem line_cvalues {posix : Bool} {args : List CStr} {gs : List (Nat × Option CStr)} {ops : List CStr}
    (h : Line ds posix args gs ops) (hm : CArgs args) : CValues gs := by
  induction h with
  | done => exact fun _ _ h => by cases h
  | dashes ops => exact fun _ _ h => by cases h
  | operand _ _ _ ih => exact ih fun a ha => hm a (by simp [ha])
  | posix => exact fun _ _ h => by cases h
  | @option body rest g gs ops hb h1 _ ih =>
    intro i v hv
    rcases List.mem_append.1 hv with hv | hv
    · rcases body_suffix h1 i v hv with h | h
      · exact fun h0 => hm ('-' :: body) (by simp) (by simp [h.subset h0])
      · cases h
    · exact ih (fun a ha => hm a (by simp [ha])) i v hv
  | @optionValue body w rest g gs ops h1 _ ih =>
    intro i v hv
    rcases List.mem_append.1 hv with hv | hv
    · rcases body_suffix h1 i v hv with h | h
      · exact fun h0 => hm ('-' :: body) (by simp) (by simp [h.subset h0])
      · cases h; exact hm _ (by simp)
    · exact ih (fun a ha => hm a (by simp [ha])) i v hv

end Argtable
