import Verif.Proofs.Stuck
import Verif.Proofs.Live
/-!
# Counts and the final checks
-/

namespace Argtable

open Spec

variable {σ δ : Type} {lc : Libc δ} {R : CStr → Prop}

theorem dblCells_eq (addr n : Nat) : dblCells addr n = n := by
  unfold dblCells
  omega

/-- What the constructors return is a live entry. -/
theorem live_of_made {h : Hdr (Obj δ)} (hm : Made lc R h) : Live lc R h := by
  cases hm with
  | lit so lo mn mx gl => exact Live.lit so lo mn mx gl false 0 (Nat.zero_le _)
  | int so lo dt mn mx gl _ hh =>
    have h2 := hh
    unfold argIntn at h2
    cases hn : arrayCells (foolproof mn mx) with
    | error e => simp only [bind, Except.bind, hn] at h2; cases h2
    | ok n =>
      have hc := arrayCells_inv hn
      simp only [bind, Except.bind, hn] at h2
      have := Live.int (lc := lc) (R := R) so lo dt mn mx gl h false ⟨0, List.replicate n none⟩ hh
        (by rw [(argIntn_inv hh).1, ← hc]; simp) (by rw [(argIntn_inv hh).1, ← hc]; simp)
      cases h2
      exact this
  | dbl ad so lo dt mn mx gl _ hh =>
    have h2 := hh
    unfold argDbln at h2
    cases hn : arrayCells (foolproof mn mx) with
    | error e => simp only [bind, Except.bind, hn] at h2; cases h2
    | ok n =>
      have hc := arrayCells_inv hn
      simp only [bind, Except.bind, hn] at h2
      have := Live.dbl (lc := lc) (R := R) ad so lo dt mn mx gl h false
        ⟨0, List.replicate (dblCells ad n) none⟩ hh
        (by rw [(argDbln_inv hh).1, ← hc]; simp)
        (by rw [(argDbln_inv hh).1, ← hc, dblCells_eq]; simp)
      cases h2
      exact this
  | str so lo dt mn mx gl _ hh =>
    have h2 := hh
    unfold argStrn at h2
    cases hn : arrayCells (foolproof mn mx) with
    | error e => simp only [bind, Except.bind, hn] at h2; cases h2
    | ok n =>
      have hc := arrayCells_inv hn
      simp only [bind, Except.bind, hn] at h2
      have := Live.str (lc := lc) (R := R) so lo dt mn mx gl h false ⟨0, List.replicate n []⟩ hh
        (by rw [(argStrn_inv hh).1, ← hc]; simp) (by rw [(argStrn_inv hh).1, ← hc]; simp)
      cases h2
      exact this
  | file so lo dt mn mx gl _ hh =>
    have h2 := hh
    unfold argFilen at h2
    cases hn : arrayCells (foolproof mn mx) with
    | error e => simp only [bind, Except.bind, hn] at h2; cases h2
    | ok n =>
      have hc := arrayCells_inv hn
      simp only [bind, Except.bind, hn] at h2
      have := Live.file (lc := lc) (R := R) so lo dt mn mx gl h false
        ⟨0, List.replicate n [], List.replicate n [], List.replicate n []⟩ hh
        (by rw [(argFilen_inv hh).1, ← hc]; simp) (by rw [(argFilen_inv hh).1, ← hc]; simp)
        (by rw [(argFilen_inv hh).1, ← hc]; simp) (by rw [(argFilen_inv hh).1, ← hc]; simp)
      cases h2
      exact this
  | date so lo fm dt mn mx gl _ hh =>
    have h2 := hh
    unfold argDaten at h2
    cases hn : arrayCells (foolproof mn mx) with
    | error e => simp only [bind, Except.bind, hn] at h2; cases h2
    | ok n =>
      have hc := arrayCells_inv hn
      simp only [bind, Except.bind, hn] at h2
      have := Live.date (lc := lc) (R := R) so lo fm dt mn mx gl h false ⟨0, List.replicate n {}⟩ hh
        (by rw [(argDaten_inv hh).1, ← hc]; simp) (by rw [(argDaten_inv hh).1, ← hc]; simp)
      cases h2
      exact this
  | rex so lo pat dt mn mx ic gl _ hh hp =>
    have h2 := hh
    unfold argRexn at h2
    cases hn : arrayCells (foolproof mn mx) with
    | error e => simp only [bind, Except.bind, hn] at h2; cases h2
    | ok n =>
      have hc := arrayCells_inv hn
      simp only [bind, Except.bind, hn] at h2
      have := Live.rex (lc := lc) (R := R) so lo pat dt mn mx ic gl h false ⟨0, List.replicate n []⟩ hh
        hp (by rw [(argRexn_inv hh).1, ← hc]; simp) (by rw [(argRexn_inv hh).1, ← hc]; simp)
      cases hr : rexCompile pat with
      | error e => rw [hr] at h2; cases h2
      | ok r =>
        rw [hr] at h2
        cases h2
        exact this
  | rem dt gl => exact Live.rem dt gl

theorem live_count {h : Hdr (Obj δ)} (hl : Live lc R h) :
    (h.parent.count : Int) ≤ max h.maxcount 0 := by
  cases hl with
  | lit so lo mn mx gl ov c hc => simp only [Obj.count, argLitn]; omega
  | int so lo dt mn mx gl h ov o hh hc hl => simp only [Obj.count]; omega
  | dbl ad so lo dt mn mx gl h ov o hh hc hl => simp only [Obj.count]; omega
  | str so lo dt mn mx gl h ov o hh hc hl => simp only [Obj.count]; omega
  | file so lo dt mn mx gl h ov o hh hc h1 h2 h3 => simp only [Obj.count]; omega
  | date so lo fm dt mn mx gl h ov o hh hc hl => simp only [Obj.count]; omega
  | rex so lo pat dt mn mx ic gl h ov o hh hp hc hl => simp only [Obj.count]; omega
  | rem => simp [Obj.count, argRem]

theorem live_checkfn {h : Hdr (Obj δ)} (hl : Live lc R h) :
    (isRem h.parent = true ∧ h.checkfn = none) ∨
    (isRem h.parent = false ∧ h.checkfn = some (fun o => countCheck h.mincount o.count)) := by
  cases hl with
  | lit so lo mn mx gl ov c hc => exact Or.inr ⟨rfl, rfl⟩
  | int so lo dt mn mx gl h ov o hh hc hl =>
    obtain ⟨_, _, e, _, _, _, _, _, hck, _⟩ := argIntn_inv hh
    exact Or.inr ⟨rfl, by dsimp only; rw [hck, e]⟩
  | dbl ad so lo dt mn mx gl h ov o hh hc hl =>
    obtain ⟨_, _, e, _, _, _, _, _, hck, _⟩ := argDbln_inv hh
    exact Or.inr ⟨rfl, by dsimp only; rw [hck, e]⟩
  | str so lo dt mn mx gl h ov o hh hc hl =>
    obtain ⟨_, _, e, _, _, _, _, _, hck, _⟩ := argStrn_inv hh
    exact Or.inr ⟨rfl, by dsimp only; rw [hck, e]⟩
  | file so lo dt mn mx gl h ov o hh hc h1 h2 h3 =>
    obtain ⟨_, _, e, _, _, _, _, _, hck, _⟩ := argFilen_inv hh
    exact Or.inr ⟨rfl, by dsimp only; rw [hck, e]⟩
  | date so lo fm dt mn mx gl h ov o hh hc hl =>
    obtain ⟨_, _, e, _, _, _, _, _, hck, _⟩ := argDaten_inv hh
    exact Or.inr ⟨rfl, by dsimp only; rw [hck, e]⟩
  | rex so lo pat dt mn mx ic gl h ov o hh hp hc hl =>
    obtain ⟨_, _, e, _, _, _, _, _, hck, _⟩ := argRexn_inv hh
    exact Or.inr ⟨rfl, by dsimp only; rw [hck, e]⟩
  | rem => exact Or.inl ⟨rfl, rfl⟩

/-- The final checks report exactly the missing entries. -/
theorem checks_missing : ∀ (es : List (Hdr (Obj δ))), (∀ h ∈ es, Live lc R h) → ∀ i,
    checks es i = missing es i := by
  intro es
  induction es with
  | nil => intro _ i; rfl
  | cons h t ih =>
    intro hl i
    have ht := ih (fun k hk => hl k (by simp [hk])) (i + 1)
    unfold checks missing
    rcases live_checkfn (hl h (by simp)) with ⟨hr, hc⟩ | ⟨hr, hc⟩
    · rw [hc, hr, ht]; simp
    · rw [hc, hr, ht]
      unfold countCheck
      by_cases hlt : (h.parent.count : Int) < h.mincount <;> simp [hlt, ARG_ERR_MINCOUNT]

theorem Spec.Frame.mem_right {es es' : List (Hdr σ)} (h : Frame es es') {k : Hdr σ} (hk : k ∈ es') :
    ∃ k0 ∈ es, SameHdr k0 k := by
  induction h with
  | nil => cases hk
  | cons h1 _ ih =>
    rcases List.mem_cons.1 hk with rfl | hk
    · exact ⟨_, by simp, h1⟩
    · obtain ⟨k0, h0, h2⟩ := ih hk
      exact ⟨k0, by simp [h0], h2⟩

theorem missing_nil : ∀ (es : List (Hdr (Obj δ))) (i : Nat), missing es i = [] →
    ∀ h ∈ es, isRem h.parent = false → h.mincount ≤ h.parent.count := by
  intro es
  induction es with
  | nil => intro i _ h hh; cases hh
  | cons h t ih =>
    intro i hm k hk hr
    unfold missing at hm
    split at hm
    · cases hm
    · rename_i hn
      rcases List.mem_cons.1 hk with rfl | hk
      · by_contra hlt
        exact hn ⟨hr, by omega⟩
      · exact ih (i + 1) hm k hk hr

/-! ### rejected arguments -/

/-- Either the argument was accepted, or the object is unchanged and the code is at least 2. -/
def Rej {α : Type} (o : α) (x : M (α × Int)) : Prop :=
  match x with
  | .ok q => q.2 = 0 ∨ (q.1 = o ∧ 2 ≤ q.2)
  | .error _ => True

theorem Rej.acc {α β : Type} {o : α} {x : M β} {f : β → α} :
    Rej o (x >>= fun b => .ok (f b, 0)) := by
  cases x with
  | error e => trivial
  | ok b => exact Or.inl rfl

theorem Rej.code {α : Type} {o : α} {q : α × Int} {c : Int} (h : q = (o, c)) (hc : 2 ≤ c) :
    Rej o (.ok q) := by
  subst h; exact Or.inr ⟨rfl, hc⟩

theorem litScan_rej (mx : Int) (c : Nat) : Rej c (.ok (litScan mx c)) := by
  unfold litScan
  split
  · exact Or.inl rfl
  · exact Rej.code rfl (by decide)

theorem intScan_rej (mx : Int) (o : IntObj) (a : Option CStr) : Rej o (intScan mx o a) := by
  unfold intScan
  split
  · exact Rej.code rfl (by decide)
  · cases a with
    | none => exact Or.inl rfl
    | some a =>
      dsimp only
      cases intConvert a with
      | error e => trivial
      | ok w =>
        cases w with
        | none => exact Rej.code rfl (by decide)
        | some w =>
          obtain ⟨v, hv, this⟩ := intSuffix_ok w.1 w.2
          show Rej o (intSuffix w.1 w.2 >>= _)
          rw [hv]
          show Rej o (if v.2 = 0 then _ else _)
          split
          · exact Rej.acc (f := fun b => ({ count := o.count + 1, ival := b } : IntObj))
          · rename_i hne
            exact Or.inr ⟨rfl, this.resolve_left hne⟩

theorem dblScan_rej (f : CStr → δ × CStr) (mx : Int) (o : DblObj δ) (a : Option CStr) :
    Rej o (dblScan f mx o a) := by
  unfold dblScan
  split
  · exact Rej.code rfl (by decide)
  · cases a with
    | none => exact Or.inl rfl
    | some a =>
      dsimp only
      split
      · exact Rej.acc (f := fun b => ({ count := o.count + 1, dval := b } : DblObj δ))
      · exact Rej.code rfl (by decide)

theorem strScan_rej (mx : Int) (o : StrObj) (a : Option CStr) : Rej o (strScan mx o a) := by
  unfold strScan
  split
  · exact Rej.code rfl (by decide)
  · cases a with
    | none => exact Or.inl rfl
    | some a => exact Rej.acc (f := fun b => ({ count := o.count + 1, sval := b } : StrObj))

theorem fileScan_rej (mx : Int) (o : FileObj) (a : Option CStr) : Rej o (fileScan mx o a) := by
  unfold fileScan
  split
  · exact Rej.code rfl (by decide)
  · cases a with
    | none => exact Or.inl rfl
    | some a =>
      dsimp only
      cases storeAt o.filename o.count a with
      | error e => trivial
      | ok f =>
        simp only [bind_ok]
        cases storeAt o.basename o.count (argBasename a) with
        | error e => trivial
        | ok b => exact Rej.acc (f := fun e => ({ count := o.count + 1, filename := f, basename := b, extension := e } : FileObj))

theorem dateScan_rej (fmt : CStr) (mx : Int) (o : DateObj) (a : Option CStr) :
    Rej o (dateScan fmt mx o a) := by
  unfold dateScan
  split
  · exact Rej.code rfl (by decide)
  · cases a with
    | none => exact Or.inl rfl
    | some a =>
      dsimp only
      cases o.tmval[o.count]? with
      | none => trivial
      | some tm =>
        dsimp only
        split
        · exact Rej.acc (f := fun b => ({ count := o.count + 1, tmval := b } : DateObj))
        · exact Rej.code rfl (by decide)

theorem rexScan_rej (pat : CStr) (ic : Bool) (mx : Int) (o : StrObj) (a : Option CStr) :
    Rej o (rexScan pat ic mx o a) := by
  unfold rexScan
  split
  · exact Rej.code rfl (by decide)
  · cases a with
    | none => exact Or.inl rfl
    | some a =>
      dsimp only
      cases rexCompile pat with
      | error e => trivial
      | ok w =>
        cases w with
        | none => trivial
        | some nodes =>
          simp only [bind_ok]
          cases rexMatch nodes ic a with
          | error e => trivial
          | ok b =>
            cases b with
            | true => exact Rej.acc (f := fun b => ({ count := o.count + 1, sval := b } : StrObj))
            | false => exact Rej.code rfl (by decide)

theorem rej_lift {α : Type} {o : α} {x : M (α × Int)} (h : Rej o x) (f : α → Obj δ) :
    Rej (f o) (x >>= fun q => .ok (f q.1, q.2)) := by
  cases x with
  | error e => trivial
  | ok q =>
    rcases h with h | ⟨h1, h2⟩
    · exact Or.inl h
    · exact Or.inr ⟨congrArg f h1, h2⟩

/-- The scan functions of live entries leave the object unchanged when they reject an argument, and
never return the code 1 used for missing values. -/
theorem live_scan_rej {h : Hdr (Obj δ)} (hl : Live lc R h) {f : Obj δ → Option CStr → M (Obj δ × Int)}
    (hf : h.scanfn = some f) (p : Obj δ) (a : Option CStr) : Rej p (f p a) := by
  cases hl with
  | lit so lo mn mx gl ov c hc =>
    cases hf
    cases p with
    | lit c =>
      have := litScan_rej (foolproof mn mx) c
      unfold Rej at this ⊢
      dsimp only at this ⊢
      rcases this with h | ⟨h1, h2⟩
      · exact Or.inl h
      · exact Or.inr ⟨by rw [h1], h2⟩
    | _ => trivial
  | int so lo dt mn mx gl h ov o hh hc hl =>
    obtain ⟨_, _, _, _, _, _, _, _, _, _, hs⟩ := argIntn_inv hh
    cases hs.symm.trans hf
    cases p with
    | int o => exact rej_lift (intScan_rej _ o a) Obj.int
    | _ => trivial
  | dbl ad so lo dt mn mx gl h ov o hh hc hl =>
    obtain ⟨_, _, _, _, _, _, _, _, _, _, hs⟩ := argDbln_inv hh
    cases hs.symm.trans hf
    cases p with
    | dbl o => exact rej_lift (dblScan_rej _ _ o a) Obj.dbl
    | _ => trivial
  | str so lo dt mn mx gl h ov o hh hc hl =>
    obtain ⟨_, _, _, _, _, _, _, _, _, _, hs⟩ := argStrn_inv hh
    cases hs.symm.trans hf
    cases p with
    | str o => exact rej_lift (strScan_rej _ o a) Obj.str
    | _ => trivial
  | file so lo dt mn mx gl h ov o hh hc h1 h2 h3 =>
    obtain ⟨_, _, _, _, _, _, _, _, _, _, hs⟩ := argFilen_inv hh
    cases hs.symm.trans hf
    cases p with
    | file o => exact rej_lift (fileScan_rej _ o a) Obj.file
    | _ => trivial
  | date so lo fm dt mn mx gl h ov o hh hc hl =>
    obtain ⟨_, _, _, _, _, _, _, _, _, _, hs⟩ := argDaten_inv hh
    cases hs.symm.trans hf
    cases p with
    | date o => exact rej_lift (dateScan_rej _ _ o a) Obj.date
    | _ => trivial
  | rex so lo pat dt mn mx ic gl h ov o hh hp hc hl =>
    obtain ⟨_, _, _, _, _, _, _, _, _, _, hs, _⟩ := argRexn_inv hh
    cases hs.symm.trans hf
    cases p with
    | rex o => exact rej_lift (rexScan_rej _ _ _ o a) Obj.rex
    | _ => trivial
  | rem => cases hf

/-! ### no scan function reports a missing value -/

theorem deliverAll_noMissing : ∀ (evs : List Ev) (s s' : List (Hdr (Obj δ)) × List ErrRec),
    (∀ h ∈ s.1, ∃ h0, Live lc R h0 ∧ SameHdr h0 h) →
    deliverAll evs s = .ok s' → (∀ e ∈ s.2, ¬ isMissing e) → ∀ e ∈ s'.2, ¬ isMissing e := by
  intro evs
  induction evs with
  | nil => intro s s' _ h hs; cases h; exact hs
  | cons ev evs ih =>
    intro s s' hJ h hs
    unfold deliverAll at h
    cases hd : deliver s ev with
    | error e => rw [hd] at h; cases h
    | ok s1 =>
      rw [hd] at h
      refine ih s1 s' ?_ h ?_
      · have hfr := deliver_frame hd
        intro k hk
        obtain ⟨k0, hk0, hsame⟩ := hfr.mem_right hk
        obtain ⟨h0, hl0, hs0⟩ := hJ k0 hk0
        exact ⟨h0, hl0, hs0.trans hsame⟩
      · cases ev with
        | fail c a =>
          cases hd
          intro e he
          rcases List.mem_append.1 he with he | he
          · exact hs e he
          · simp at he; subst he; rintro ⟨_, i, hi⟩; cases hi
        | deliver i a =>
          unfold deliver at hd
          dsimp only at hd
          cases hk : s.1[i]? with
          | none => rw [hk] at hd; cases hd
          | some k =>
            rw [hk] at hd
            dsimp only at hd
            cases hsc : k.scanfn with
            | none => rw [hsc] at hd; cases hd; exact hs
            | some f =>
              rw [hsc] at hd
              dsimp only at hd
              obtain ⟨h0, hl0, hs0⟩ := hJ k (List.mem_of_getElem? hk)
              have hsc0 : h0.scanfn = some f := by
                rw [hs0] at hsc; exact hsc
              have hrej := live_scan_rej hl0 hsc0 k.parent a
              cases hf : f k.parent a with
              | error e => rw [hf] at hd; cases hd
              | ok q =>
                rw [hf] at hd hrej
                cases hd
                dsimp only
                split
                · rename_i hne
                  intro e he
                  rcases List.mem_append.1 he with he | he
                  · exact hs e he
                  · simp at he
                    subst he
                    rintro ⟨h1, _⟩
                    rcases hrej with h2 | ⟨_, h2⟩
                    · exact hne h2
                    · dsimp only at h1; rw [h1] at h2; revert h2; decide
                · exact hs

theorem feed_code {h : Hdr (Obj δ)} (hl : Live lc R h) {f : Obj δ → Option CStr → M (Obj δ × Int)}
    (hf : h.scanfn = some f) : ∀ (ops : List CStr) (p : Obj δ) (q : Obj δ × List CStr × Int),
    feed f p ops = .ok q → q.2.2 = 0 ∧ q.2.1 = [] ∨ 2 ≤ q.2.2 := by
  intro ops
  induction ops with
  | nil => intro p q h; cases h; exact Or.inl ⟨rfl, rfl⟩
  | cons a ops ih =>
    intro p q h
    unfold feed at h
    have hrej := live_scan_rej hl hf p (some a)
    cases hfa : f p (some a) with
    | error e => rw [hfa] at h; cases h
    | ok w =>
      rw [hfa] at h hrej
      simp only [bind_ok] at h
      split at h
      · exact ih _ _ h
      · rename_i hne
        cases h
        exact Or.inr (hrej.resolve_left hne).2

theorem operands_noMissing : ∀ (es : List (Hdr (Obj δ))) (i : Nat) (last : Option (Int × Nat))
    (ops : List CStr) (q : List (Hdr (Obj δ)) × List ErrRec),
    (∀ h ∈ es, ∃ h0, Live lc R h0 ∧ SameHdr h0 h) → (ops = [] ∨ ∀ e j, last = some (e, j) → 2 ≤ e) →
    operands es i last ops = .ok q → ∀ e ∈ q.2, ¬ isMissing e := by
  intro es
  induction es with
  | nil =>
    intro i last ops q _ hlast h
    cases h
    dsimp only
    intro e he
    unfold leftover at he
    rcases hlast with rfl | hlast
    · simp at he
    cases ops with
    | nil => simp at he
    | cons a rest =>
      have hno : ∀ b : CStr, ¬ isMissing ⟨ARG_ENOMATCH, .endt, some b⟩ := by
        rintro b ⟨_, j, hj⟩; cases hj
      cases last with
      | none =>
        simp only [List.mem_map] at he
        obtain ⟨b, _, rfl⟩ := he
        exact hno b
      | some w =>
        simp only [List.mem_cons, List.mem_map] at he
        rcases he with rfl | ⟨b, _, rfl⟩
        · have := hlast w.1 w.2 rfl
          rintro ⟨h1, _⟩
          dsimp only at h1
          rw [h1] at this
          revert this; decide
        · exact hno b
  | cons k t ih =>
    intro i last ops q hJ hlast h
    have hJt : ∀ h ∈ t, ∃ h0, Live lc R h0 ∧ SameHdr h0 h := fun x hx => hJ x (by simp [hx])
    unfold operands at h
    split at h
    · cases h; simp
    split at h
    · cases ht : operands t (i + 1) last ops with
      | error e => rw [ht] at h; cases h
      | ok r => rw [ht] at h; cases h; exact ih _ _ _ r hJt hlast ht
    · cases hs : k.scanfn with
      | none =>
        rw [hs] at h
        dsimp only at h
        cases ht : operands t (i + 1) last ops with
        | error e => rw [ht] at h; cases h
        | ok r => rw [ht] at h; cases h; exact ih _ _ _ r hJt hlast ht
      | some f =>
        rw [hs] at h
        dsimp only at h
        obtain ⟨h0, hl0, hs0⟩ := hJ k (by simp)
        have hsc0 : h0.scanfn = some f := by
          rw [hs0] at hs; exact hs
        cases hf : feed f k.parent ops with
        | error e => rw [hf] at h; cases h
        | ok w =>
          rw [hf] at h
          simp only [bind, Except.bind] at h
          have hcode := feed_code hl0 hsc0 ops k.parent w hf
          cases ht : operands t (i + 1) (some (w.2.2, i)) w.2.1 with
          | error e => rw [ht] at h; cases h
          | ok r =>
            rw [ht] at h
            cases h
            refine ih _ _ _ r hJt ?_ ht
            rcases hcode with ⟨_, h2⟩ | h2
            · exact Or.inl h2
            · right; intro e j hej; cases hej; exact h2

/-- Before the final checks, no "missing" record is raised. -/
theorem scanned_noMissing {es : List (Hdr (Obj δ))} {evs : List Ev} {ops : List CStr}
    (hl : ∀ h ∈ es, Live lc R h) {q : List (Hdr (Obj δ)) × List ErrRec}
    (h : scanned es evs ops = .ok q) : ∀ e ∈ q.2, ¬ isMissing e := by
  unfold scanned at h
  cases h0 : resetAll es with
  | error e => rw [h0] at h; cases h
  | ok es0 =>
    rw [h0] at h
    have hf0 : ∀ h ∈ es0, ∃ h0, Live lc R h0 ∧ SameHdr h0 h := by
      intro k hk
      obtain ⟨k0, hk0, hs⟩ := (resetAll_frame _ _ h0).mem_right hk
      exact ⟨k0, hl k0 hk0, hs⟩
    cases h1 : deliverAll evs (es0, []) with
    | error e => simp only [bind, Except.bind, h1] at h; cases h
    | ok s1 =>
      simp only [bind, Except.bind, h1] at h
      have n1 := deliverAll_noMissing evs _ _ hf0 h1 (by simp)
      have hf1 : ∀ h ∈ s1.1, ∃ h0, Live lc R h0 ∧ SameHdr h0 h := by
        intro k hk
        obtain ⟨k0, hk0, hs⟩ := (deliverAll_frame _ _ _ h1).mem_right hk
        obtain ⟨k1, hk1, hs1⟩ := hf0 k0 hk0
        exact ⟨k1, hk1, hs1.trans hs⟩
      cases h2 : operands s1.1 0 none ops with
      | error e => rw [h2] at h; cases h
      | ok s2 =>
        have n2 := operands_noMissing _ _ _ _ _ hf1 (Or.inr (by intro e j h; cases h)) h2
        rw [h2] at h
        cases h
        intro e he
        rcases List.mem_append.1 he with he | he
        · exact n1 e he
        · exact n2 e he

theorem meaning_scanned (es : List (Hdr σ)) (evs : List Ev) (ops : List CStr) :
    meaning es evs ops = (scanned es evs ops).map fun q =>
      (q.1, if q.2 = [] then checks q.1 0 else q.2) := by
  unfold meaning scanned
  cases resetAll es with
  | error e => rfl
  | ok es0 =>
    simp only [bind, Except.bind]
    cases deliverAll evs (es0, []) with
    | error e => rfl
    | ok s1 =>
      dsimp only
      cases operands s1.1 0 none ops <;> rfl

theorem missing_length : ∀ (es : List (Hdr (Obj δ))) (i : Nat), (missing es i).length ≤ es.length := by
  intro es
  induction es with
  | nil => intro i; exact Nat.le_refl _
  | cons h t ih =>
    intro i
    have := ih (i + 1)
    unfold missing
    split <;> simp only [List.length_cons] <;> omega

theorem mem_missing : ∀ (es : List (Hdr (Obj δ))) (i j : Nat),
    ⟨ARG_ERR_MINCOUNT, .entry j, none⟩ ∈ missing es i ↔
    ∃ (k : Nat) (_ : k < es.length), j = i + k ∧ isRem es[k].parent = false ∧
      (es[k].parent.count : Int) < es[k].mincount := by
  intro es
  induction es with
  | nil => intro i j; simp [missing]
  | cons h t ih =>
    intro i j
    have key : (∃ (k : Nat) (_ : k < (h :: t).length), j = i + k ∧ isRem (h :: t)[k].parent = false ∧
        ((h :: t)[k].parent.count : Int) < (h :: t)[k].mincount) ↔
        (j = i ∧ isRem h.parent = false ∧ (h.parent.count : Int) < h.mincount) ∨
        (∃ (k : Nat) (_ : k < t.length), j = i + 1 + k ∧ isRem t[k].parent = false ∧
        (t[k].parent.count : Int) < t[k].mincount) := by
      constructor
      · rintro ⟨k, hk, h1, h2⟩
        cases k with
        | zero => exact Or.inl ⟨h1, h2⟩
        | succ k => exact Or.inr ⟨k, by simpa using hk, by omega, h2⟩
      · rintro (⟨h1, h2⟩ | ⟨k, hk, h1, h2⟩)
        · exact ⟨0, by simp, h1, h2⟩
        · exact ⟨k + 1, by simpa using hk, by omega, h2⟩
    have e : missing (h :: t) i = if isRem h.parent = false ∧ (h.parent.count : Int) < h.mincount then
      ⟨ARG_ERR_MINCOUNT, .entry i, none⟩ :: missing t (i + 1) else missing t (i + 1) := rfl
    rw [key, ← ih, e]
    split
    · rename_i hc
      rw [List.mem_cons]
      constructor
      · rintro (h | h)
        · cases h; exact Or.inl ⟨rfl, hc⟩
        · exact Or.inr h
      · rintro (⟨rfl, _⟩ | h)
        · exact Or.inl rfl
        · exact Or.inr h
    · rename_i hc
      constructor
      · exact Or.inr
      · rintro (⟨_, h⟩ | h)
        · exact absurd h hc
        · exact h

theorem mem_recorded {m : Nat} {errs : List ErrRec} {e : ErrRec} (h : e ∈ recorded m errs) :
    e ∈ errs ∨ e = ⟨ARG_ELIMIT, .endt, none⟩ := by
  unfold recorded at h
  split at h
  · exact Or.inl h
  · rw [List.mem_append, List.mem_singleton] at h
    exact h.imp List.mem_of_mem_take id

end Argtable
