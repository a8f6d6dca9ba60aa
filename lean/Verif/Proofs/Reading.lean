import Verif.Proofs.Context
/-!
# Reading single options in context
-/

namespace Argtable

open Spec

variable {σ : Type} {env : Bool} {t : Table σ} {m : Nat}

theorem readCluster_flags (ds : List Decl) (whole : CStr) (next : Option CStr) (rest : CStr) :
    ∀ (fs : CStr), (∀ c ∈ fs, c ≠ '-' ∧ ∃ i, shortLookup c ds 0 = some (i, .no)) →
    ∃ evs, readCluster ds whole next (fs ++ rest)
        = (readCluster ds whole next rest).map (fun p => (evs ++ p.1, p.2)) ∧
      ∀ posix post, tokenize ds posix (fs.map (fun c => ['-', c]) ++ post)
        = (tokenize ds posix post).map fun p => (evs ++ p.1, p.2) := by
  intro fs
  induction fs with
  | nil =>
    intro _
    refine ⟨[], ?_, fun posix post => ?_⟩
    · rw [List.nil_append]; cases readCluster ds whole next rest <;> simp
    · cases h : tokenize ds posix post <;> simp [h]
  | cons c fs ih =>
    intro h
    obtain ⟨hc, i, hi⟩ := h c (by simp)
    obtain ⟨evs, h1, h2⟩ := ih fun d hd => h d (by simp [hd])
    refine ⟨.deliver i none :: evs, ?_, fun posix post => ?_⟩
    · rw [List.cons_append, readCluster, if_neg hc, hi]
      dsimp only
      rw [h1]
      cases readCluster ds whole next rest <;> simp
    · have ho : isOption ['-', c] = true := by
        simp [isOption, isOperand, hc]
      have hr : ∀ n, readCluster ds ['-', c] n [c] = some ([.deliver i none], false) := by
        intro n
        rw [readCluster, if_neg hc, hi]
        rfl
      have hu : usesNext ds ['-', c] = false := by
        unfold usesNext; simp only [List.tail_cons, hr]
      rw [List.map_cons, List.cons_append, tokenize_option _ ho hu]
      simp only [List.tail_cons, hr, h2 posix post]
      cases tokenize ds posix post <;> simp

/-- The reading of a command line around one option argument without separate value. -/
theorem tokenize_at {ds : List Decl} {pre post : List CStr} {a : CStr} {evs e evs' : List Ev}
    {ops ops' : List CStr} (hpre : stillOn env ds pre = true)
    (h1 : tokenize ds env pre = some (evs, ops)) (ho : isOption a = true)
    (hr : ∀ n, readCluster ds a n a.tail = some (e, false))
    (h2 : tokenize ds env post = some (evs', ops')) :
    tokenize ds env (pre ++ a :: post) = some (evs ++ e ++ evs', ops ++ ops') := by
  rw [stillOn_append hpre, h1, tokenize_option _ ho (by unfold usesNext; simp [hr]), hr, h2]
  simp [joinRead]

/-- The reading of a command line around one option argument with separate value. -/
theorem tokenize_at_val {ds : List Decl} {pre post : List CStr} {a v : CStr} {evs e evs' : List Ev}
    {ops ops' : List CStr} (hpre : stillOn env ds pre = true)
    (h1 : tokenize ds env pre = some (evs, ops)) (ho : isOption a = true)
    (hr : readCluster ds a (some v) a.tail = some (e, true))
    (h2 : tokenize ds env post = some (evs', ops')) :
    tokenize ds env (pre ++ a :: v :: post) = some (evs ++ e ++ evs', ops ++ ops') := by
  rw [stillOn_append hpre, h1, tokenize_option_val _ ho hr, h2]
  simp [joinRead]

theorem takeWhile_name {name : CStr} (heq : '=' ∉ name) (rest : CStr)
    (hr : rest = [] ∨ ∃ v, rest = '=' :: v) :
    (name ++ rest).takeWhile (fun c => decide (c ≠ '=')) = name ∧
    (name ++ rest).dropWhile (fun c => decide (c ≠ '=')) = rest := by
  have hall : ∀ c ∈ name, decide (c ≠ '=') = true := by
    intro c hc; simp; rintro rfl; exact heq hc
  rw [List.takeWhile_append_of_pos hall, List.dropWhile_append_of_pos hall]
  rcases hr with rfl | ⟨v, rfl⟩ <;> simp

/-- Reading `--name` or `--name=v`. -/
theorem readCluster_long {ds : List Decl} {name : CStr} (hn : name ≠ []) (heq : '=' ∉ name)
    (w : CStr) (n : Option CStr) (rest : CStr) (hr : rest = [] ∨ ∃ v, rest = '=' :: v) :
    readCluster ds w n ('-' :: (name ++ rest)) =
    some (match resolve (longTable ds 0) name with
      | none => ([.fail ARG_ELONGOPT (some w)], false)
      | some l =>
        match (if rest = [] then none else some rest.tail : Option CStr), l.kind with
        | some _, .no => ([.fail ARG_ELONGOPT (some w)], false)
        | some v, _ => (emptyValueError ds l.entry v w ++ [.deliver l.entry (some v)], false)
        | none, .req =>
          match n with
          | none => ([.fail ARG_EMISSARG (some w)], false)
          | some v => (emptyValueError ds l.entry v v ++ [.deliver l.entry (some v)], true)
        | none, _ => ([.deliver l.entry none], false)) := by
  obtain ⟨h1, h2⟩ := takeWhile_name heq rest hr
  rw [readCluster, if_pos rfl, if_neg (by simp [hn])]
  unfold readLong
  dsimp only
  rw [h1, h2]
  have hv : (if '=' ∈ name ++ rest then some rest.tail else none : Option CStr)
      = if rest = [] then none else some rest.tail := by
    rcases hr with rfl | ⟨v, rfl⟩ <;> simp [heq]
  rw [hv]
  cases resolve (longTable ds 0) name with
  | none => rfl
  | some l =>
    cases l with
    | mk a b c =>
      generalize (if rest = [] then none else some rest.tail : Option CStr) = x
      cases x <;> cases c <;> cases n <;> rfl

theorem isOption_long {name rest : CStr} (hn : name ≠ []) : isOption ('-' :: '-' :: (name ++ rest)) = true := by
  simp [isOption, isOperand, hn]

/-- An error event changes no entry. -/
theorem deliverAll_errs (evs : List Ev) : ∀ (es : List (Hdr σ)) (errs errs' : List ErrRec),
    (deliverAll evs (es, errs)).map (·.1) = (deliverAll evs (es, errs')).map (·.1) := by
  induction evs with
  | nil => intros; rfl
  | cons ev evs ih =>
    intro es errs errs'
    unfold deliverAll
    cases ev with
    | fail c a => exact ih es _ _
    | deliver i a =>
      unfold deliver
      dsimp only
      cases es[i]? with
      | none => rfl
      | some h =>
        dsimp only
        cases h.scanfn with
        | none => exact ih es _ _
        | some f =>
          dsimp only
          cases f h.parent a with
          | error e => rfl
          | ok q => exact ih _ _ _

theorem deliverAll_append (evs evs' : List Ev) : ∀ (s : List (Hdr σ) × List ErrRec),
    deliverAll (evs ++ evs') s = (deliverAll evs s >>= deliverAll evs') := by
  induction evs with
  | nil => intro s; rfl
  | cons ev evs ih =>
    intro s
    simp only [List.cons_append, deliverAll]
    cases deliver s ev with
    | error e => rfl
    | ok q => exact ih q

theorem meaning_fail (es : List (Hdr σ)) (evs evs' : List Ev) (c : Int) (a : Option CStr)
    (ops : List CStr) : (meaning es (evs ++ [.fail c a] ++ evs') ops).map (·.1)
      = (meaning es (evs ++ evs') ops).map (·.1) := by
  unfold meaning
  cases resetAll es with
  | error e => rfl
  | ok es0 =>
    simp only [bind, Except.bind]
    rw [List.append_assoc, deliverAll_append, deliverAll_append]
    cases deliverAll evs (es0, []) with
    | error e => rfl
    | ok q =>
      have h := deliverAll_errs evs' q.1 (q.2 ++ [⟨c, .endt, a⟩]) q.2
      have e1 : (Except.ok q >>= deliverAll ([Ev.fail c a] ++ evs') : M _)
        = deliverAll evs' (q.1, q.2 ++ [⟨c, .endt, a⟩]) := rfl
      have e2 : (Except.ok q >>= deliverAll evs' : M _) = deliverAll evs' (q.1, q.2) := rfl
      simp only [e1, e2]
      cases h1 : deliverAll evs' (q.1, q.2 ++ [⟨c, .endt, a⟩]) with
      | error e =>
        cases h2 : deliverAll evs' (q.1, q.2) with
        | error e' => rw [h1, h2] at h; simpa using h
        | ok q' => rw [h1, h2] at h; cases h
      | ok q1 =>
        cases h2 : deliverAll evs' (q.1, q.2) with
        | error e' => rw [h1, h2] at h; cases h
        | ok q2 =>
          rw [h1, h2] at h
          have h : q1.1 = q2.1 := Except.ok.inj h
          dsimp only
          rw [h]
          cases operands q2.1 0 none ops <;> rfl

theorem deliverAll_prefix : ∀ (evs : List Ev) (s q : List (Hdr σ) × List ErrRec),
    deliverAll evs s = .ok q → s.2 <+: q.2 := by
  intro evs
  induction evs with
  | nil => intro s q h; cases h; exact List.prefix_refl _
  | cons ev evs ih =>
    intro s q h
    unfold deliverAll at h
    cases hd : deliver s ev with
    | error e => rw [hd] at h; cases h
    | ok s1 =>
      rw [hd] at h
      refine List.IsPrefix.trans ?_ (ih s1 q h)
      cases ev with
      | fail c a => cases hd; exact List.prefix_append _ _
      | deliver i a =>
        unfold deliver at hd
        dsimp only at hd
        split at hd
        · cases hd
        · split at hd
          · cases hd; exact List.prefix_refl _
          · rename_i h1 _ _ f _
            cases hf : f h1.parent a with
            | error e => rw [hf] at hd; cases hd
            | ok w =>
              rw [hf] at hd
              cases hd
              dsimp only
              split
              · exact List.prefix_append _ _
              · exact List.prefix_refl _

theorem deliverAll_fail_mem {c : Int} {a : Option CStr} : ∀ {evs : List Ev}
    {s q : List (Hdr σ) × List ErrRec}, Ev.fail c a ∈ evs → deliverAll evs s = .ok q →
    ⟨c, .endt, a⟩ ∈ q.2 := by
  intro evs
  induction evs with
  | nil => intro s q h; simp at h
  | cons ev evs ih =>
    intro s q hmem h
    unfold deliverAll at h
    cases hd : deliver s ev with
    | error e => rw [hd] at h; cases h
    | ok s1 =>
      rw [hd] at h
      rcases List.mem_cons.1 hmem with rfl | hmem
      · cases hd
        exact (deliverAll_prefix evs _ q h).subset (by simp)
      · exact ih hmem h

/-- An error event is among the errors raised. -/
theorem meaning_fail_mem {es : List (Hdr σ)} {evs : List Ev} {ops : List CStr} {c : Int}
    {a : Option CStr} {q : List (Hdr σ) × List ErrRec} (hmem : Ev.fail c a ∈ evs)
    (h : meaning es evs ops = .ok q) : ⟨c, .endt, a⟩ ∈ q.2 := by
  unfold meaning at h
  cases h0 : resetAll es with
  | error e => rw [h0] at h; cases h
  | ok es0 =>
    rw [h0] at h
    cases h1 : deliverAll evs (es0, []) with
    | error e => simp only [bind, Except.bind, h1] at h; cases h
    | ok s1 =>
      simp only [bind, Except.bind, h1] at h
      cases h2 : operands s1.1 0 none ops with
      | error e => rw [h2] at h; cases h
      | ok s2 =>
        rw [h2] at h
        cases h
        have hm := deliverAll_fail_mem hmem h1
        dsimp only
        rw [if_neg (by intro hc; rw [(List.append_eq_nil_iff.1 hc).1] at hm; cases hm)]
        exact List.mem_append_left _ hm

theorem tokenize_congr {ds : List Decl} {a b : CStr} (post : List CStr) (ha : isOption a = true)
    (hb : isOption b = true)
    (h : readCluster ds a post.head? a.tail = readCluster ds b post.head? b.tail) :
    tokenize ds env (a :: post) = tokenize ds env (b :: post) := by
  unfold isOption at ha hb
  simp only [Bool.and_eq_true, Bool.not_eq_true', bne_iff_ne, ne_eq] at ha hb
  rw [tokenize.eq_def, tokenize.eq_def]
  dsimp only
  rw [if_neg ha.2, if_neg hb.2, if_neg (by simp [ha.1]), if_neg (by simp [hb.1]), h]

theorem shortLookup_first {c : Char} (A : List Decl) (d : Decl) (B : List Decl)
    (hA : ∀ k ∈ A, c ∉ k.short.getD []) (hd : c ∈ d.short.getD []) : ∀ i,
    shortLookup c (A ++ d :: B) i = some (i + A.length, d.shortKind) := by
  induction A with
  | nil => intro i; simp [shortLookup, hd]
  | cons k A ih =>
    intro i
    rw [List.cons_append, shortLookup, if_neg (hA k (by simp)),
      ih (fun x hx => hA x (by simp [hx]))]
    simp; omega

theorem longTable_append (A B : List Decl) : ∀ i,
    longTable (A ++ B) i = longTable A i ++ longTable B (i + A.length) := by
  induction A with
  | nil => intro i; simp [longTable]
  | cons d A ih =>
    intro i
    rw [List.cons_append, longTable, longTable, ih]
    simp [Nat.add_assoc, Nat.add_comm 1]

theorem mem_longTable : ∀ (ds : List Decl) (i : Nat) (l : Long), l ∈ longTable ds i →
    ∃ d ∈ ds, l.name ∈ (d.long.map namesOf).getD [] := by
  intro ds
  induction ds with
  | nil => intro i l h; cases h
  | cons d ds ih =>
    intro i l h
    rw [longTable, List.mem_append] at h
    rcases h with h | h
    · obtain ⟨n, hn, rfl⟩ := List.mem_map.1 h
      exact ⟨d, by simp, hn⟩
    · obtain ⟨k, hk, h⟩ := ih _ _ h
      exact ⟨k, by simp [hk], h⟩

/-- A long name denotes the first entry that declares it. -/
theorem denotes_first {n : CStr} (A : List Decl) (d : Decl) (B : List Decl)
    (hA : ∀ k ∈ A, n ∉ (k.long.map namesOf).getD []) (hd : n ∈ (d.long.map namesOf).getD []) :
    Denotes (longTable (A ++ d :: B) 0) n ⟨n, A.length, d.longKind⟩ := by
  left
  obtain ⟨s, u, hs, hn⟩ := List.append_of_mem hd |>.elim fun s h => h.elim fun u h =>
    (show ∃ s u, (d.long.map namesOf).getD [] = s ++ n :: u ∧ n ∉ s from by
      clear hA
      revert hd
      generalize (d.long.map namesOf).getD [] = ns
      intro hd
      induction ns with
      | nil => cases hd
      | cons x ns ih =>
        by_cases hx : n = x
        · exact ⟨[], ns, by simp [hx], by simp⟩
        · obtain ⟨s, u, h1, h2⟩ := ih (by simpa [hx] using hd)
          exact ⟨x :: s, u, by simp [h1], by simp [hx, h2]⟩)
  refine ⟨longTable A 0 ++ s.map (⟨·, A.length, d.longKind⟩),
    u.map (⟨·, A.length, d.longKind⟩) ++ longTable B (A.length + 1), ?_, rfl, ?_⟩
  · rw [longTable_append, longTable, hs]
    simp
  · intro k hk
    rw [List.mem_append] at hk
    rcases hk with hk | hk
    · obtain ⟨e, he, h⟩ := mem_longTable _ _ _ hk
      intro hc
      exact hA e he (hc ▸ h)
    · obtain ⟨x, hx, rfl⟩ := List.mem_map.1 hk
      rintro rfl
      exact hn hx

end Argtable
