import Verif.Spec.Operands
import Verif.Proofs.Checks
/-!
# Operands (C11)
-/

namespace Argtable

open Spec

variable {δ σ : Type} {lc : Libc δ} {R : CStr → Prop}

/-! ### an accepted argument adds one to the count -/

def AccCount (n : Nat) (x : M (Obj δ × Int)) : Prop :=
  ∀ q, x = .ok (q, 0) → q.count = n + 1

theorem accCount_bind {α : Type} {n : Nat} {x : M (α × Int)} {g : α → Obj δ} {cnt : α → Nat}
    (hg : ∀ a, (g a).count = cnt a) (h : ∀ q, x = .ok (q, 0) → cnt q = n + 1) :
    AccCount n (x >>= fun q => .ok (g q.1, q.2)) := by
  intro q hq
  cases x with
  | error e => cases hq
  | ok w =>
    have := Except.ok.inj hq
    have h1 : g w.1 = q := congrArg Prod.fst this
    have h2 : w.2 = 0 := congrArg Prod.snd this
    rw [← h1, hg, h w.1 (by rw [← h2])]

theorem bind_store {α β : Type} {x : M β} {f : β → α} {q : α}
    (h : (x >>= fun b => .ok (f b, (0 : Int))) = (.ok (q, 0) : M (α × Int))) : ∃ b, q = f b := by
  cases x with
  | error e => cases h
  | ok b => cases h; exact ⟨b, rfl⟩

theorem intScan_acc {mx : Int} {o q : IntObj} {a : Option CStr} (h : intScan mx o a = .ok (q, 0)) :
    q.count = o.count + 1 := by
  unfold intScan at h
  split at h
  · cases h
  cases a with
  | none => cases h; rfl
  | some a =>
    dsimp only at h
    cases hc : intConvert a with
    | error e => rw [hc] at h; cases h
    | ok w =>
      rw [hc] at h
      cases w with
      | none => cases h
      | some w =>
        obtain ⟨v, hv, -⟩ := intSuffix_ok w.1 w.2
        change (intSuffix w.1 w.2 >>= _) = _ at h
        rw [hv] at h
        change (if v.2 = 0 then _ else _) = _ at h
        split at h
        · obtain ⟨b, rfl⟩ := bind_store h; rfl
        · rename_i hne; exact absurd (congrArg Prod.snd (Except.ok.inj h)) hne

theorem dblScan_acc {g : CStr → δ × CStr} {mx : Int} {o q : DblObj δ} {a : Option CStr}
    (h : dblScan g mx o a = .ok (q, 0)) : q.count = o.count + 1 := by
  unfold dblScan at h
  split at h
  · cases h
  cases a with
  | none => cases h; rfl
  | some a =>
    dsimp only at h
    split at h
    · obtain ⟨b, rfl⟩ := bind_store h; rfl
    · cases h

theorem strScan_acc {mx : Int} {o q : StrObj} {a : Option CStr}
    (h : strScan mx o a = .ok (q, 0)) : q.count = o.count + 1 := by
  unfold strScan at h
  split at h
  · cases h
  cases a with
  | none => cases h; rfl
  | some a =>
    dsimp only at h
    obtain ⟨b, rfl⟩ := bind_store h; rfl

theorem fileScan_acc {mx : Int} {o q : FileObj} {a : Option CStr}
    (h : fileScan mx o a = .ok (q, 0)) : q.count = o.count + 1 := by
  unfold fileScan at h
  split at h
  · cases h
  cases a with
  | none => cases h; rfl
  | some a =>
    dsimp only at h
    cases h1 : storeAt o.filename o.count a with
    | error e => rw [h1] at h; cases h
    | ok f =>
      simp only [h1, bind_ok] at h
      cases h2 : storeAt o.basename o.count (argBasename a) with
      | error e => rw [h2] at h; cases h
      | ok b =>
        simp only [h2, bind_ok] at h
        obtain ⟨b, rfl⟩ := bind_store h; rfl

theorem dateScan_acc {fmt : CStr} {mx : Int} {o q : DateObj} {a : Option CStr}
    (h : dateScan fmt mx o a = .ok (q, 0)) : q.count = o.count + 1 := by
  unfold dateScan at h
  split at h
  · cases h
  cases a with
  | none => cases h; rfl
  | some a =>
    dsimp only at h
    cases h1 : o.tmval[o.count]? with
    | none => rw [h1] at h; cases h
    | some tm =>
      rw [h1] at h
      dsimp only at h
      split at h
      · obtain ⟨b, rfl⟩ := bind_store h; rfl
      · cases h

theorem rexScan_acc {pat : CStr} {ic : Bool} {mx : Int} {o q : StrObj} {a : Option CStr}
    (h : rexScan pat ic mx o a = .ok (q, 0)) : q.count = o.count + 1 := by
  unfold rexScan at h
  split at h
  · cases h
  cases a with
  | none => cases h; rfl
  | some a =>
    dsimp only at h
    cases h1 : rexCompile pat with
    | error e => rw [h1] at h; cases h
    | ok w =>
      rw [h1] at h
      cases w with
      | none => cases h
      | some nodes =>
        simp only [bind_ok] at h
        cases h2 : rexMatch nodes ic a with
        | error e => rw [h2] at h; cases h
        | ok b =>
          rw [h2] at h
          cases b with
          | true => obtain ⟨b, rfl⟩ := bind_store h; rfl
          | false => cases h

/-- An accepted argument adds one to the count of a live entry. -/
theorem live_scan_count {h : Hdr (Obj δ)} (hl : Live lc R h)
    {f : Obj δ → Option CStr → M (Obj δ × Int)} (hf : h.scanfn = some f) (p : Obj δ)
    (a : Option CStr) : AccCount p.count (f p a) := by
  cases hl with
  | lit so lo mn mx gl ov c hc =>
    cases hf
    cases p with
    | lit c =>
      intro q hq
      change Except.ok (Obj.lit (litScan (foolproof mn mx) c).1, (litScan (foolproof mn mx) c).2) = _ at hq
      unfold litScan at hq
      split at hq <;> cases hq
      rfl
    | _ => intro q hq; cases hq
  | int so lo dt mn mx gl h ov o hh hc hl =>
    obtain ⟨_, _, _, _, _, _, _, _, _, _, hs⟩ := argIntn_inv hh
    cases hs.symm.trans hf
    cases p with
    | int o => exact accCount_bind (g := Obj.int) (fun _ => rfl) (fun _ => intScan_acc)
    | _ => intro q hq; cases hq
  | dbl ad so lo dt mn mx gl h ov o hh hc hl =>
    obtain ⟨_, _, _, _, _, _, _, _, _, _, hs⟩ := argDbln_inv hh
    cases hs.symm.trans hf
    cases p with
    | dbl o => exact accCount_bind (g := Obj.dbl) (fun _ => rfl) (fun _ => dblScan_acc)
    | _ => intro q hq; cases hq
  | str so lo dt mn mx gl h ov o hh hc hl =>
    obtain ⟨_, _, _, _, _, _, _, _, _, _, hs⟩ := argStrn_inv hh
    cases hs.symm.trans hf
    cases p with
    | str o => exact accCount_bind (g := Obj.str) (fun _ => rfl) (fun _ => strScan_acc)
    | _ => intro q hq; cases hq
  | file so lo dt mn mx gl h ov o hh hc hl =>
    obtain ⟨_, _, _, _, _, _, _, _, _, _, hs⟩ := argFilen_inv hh
    cases hs.symm.trans hf
    cases p with
    | file o => exact accCount_bind (g := Obj.file) (fun _ => rfl) (fun _ => fileScan_acc)
    | _ => intro q hq; cases hq
  | date so lo fm dt mn mx gl h ov o hh hc hl =>
    obtain ⟨_, _, _, _, _, _, _, _, _, _, hs⟩ := argDaten_inv hh
    cases hs.symm.trans hf
    cases p with
    | date o => exact accCount_bind (g := Obj.date) (fun _ => rfl) (fun _ => dateScan_acc)
    | _ => intro q hq; cases hq
  | rex so lo pat dt mn mx ic gl h ov o hh hp hc hl =>
    obtain ⟨_, _, _, _, _, _, _, _, _, _, hs, _⟩ := argRexn_inv hh
    cases hs.symm.trans hf
    cases p with
    | rex o => exact accCount_bind (g := Obj.rex) (fun _ => rfl) (fun _ => rexScan_acc)
    | _ => intro q hq; cases hq
  | rem dt gl => cases hf

/-! ### the distribution -/

theorem feed_accepts {f : σ → Option CStr → M (σ × Int)}
    (hrej : ∀ p a q c, f p a = .ok (q, c) → c ≠ 0 → q = p) : ∀ (ops : List CStr) (p : σ)
    (w : σ × List CStr × Int), feed f p ops = .ok w →
    ∃ seg, ops = seg ++ w.2.1 ∧ Accepts f p seg w.1 ∧
      ∀ a, w.2.1.head? = some a → w.2.2 ≠ 0 ∧ f w.1 (some a) = .ok (w.1, w.2.2) := by
  intro ops
  induction ops with
  | nil =>
    intro p w h
    cases h
    exact ⟨[], rfl, .nil p, by intro a h; cases h⟩
  | cons a ops ih =>
    intro p w h
    unfold feed at h
    cases hfa : f p (some a) with
    | error e => rw [hfa] at h; cases h
    | ok v =>
      rw [hfa] at h
      simp only [bind_ok] at h
      split at h
      · rename_i h0
        obtain ⟨seg, h1, h2, h3⟩ := ih _ _ h
        refine ⟨a :: seg, by rw [h1]; rfl, .cons (p' := v.1) ?_ h2, h3⟩
        rw [hfa, ← h0]
      · rename_i hne
        have := hrej _ _ v.1 v.2 hfa hne
        cases h
        refine ⟨[], rfl, ?_, ?_⟩
        · rw [this]; exact .nil p
        · intro b hb
          cases hb
          refine ⟨hne, ?_⟩
          dsimp only
          have e : v = (p, v.2) := by rw [← this]
          rw [this, hfa, e]

theorem leftover_argval (last : Option (Int × Nat)) (ops : List CStr) :
    (leftover last ops).map (·.argval) = ops.map some := by
  unfold leftover
  cases ops with
  | nil => rfl
  | cons a rest =>
    cases last with
    | none => simp
    | some w => simp

theorem handout_nil : ∀ (es : List (Hdr σ)), Handout es [] es [] := by
  intro es
  induction es with
  | nil => exact .done []
  | cons h t ih =>
    by_cases hf : ∃ f, TakesOperands h f
    · obtain ⟨f, hf⟩ := hf
      exact .take (seg := []) (q := h.parent) hf (.nil _) (by intro a h; cases h) ih
    · exact .skip (fun f h => hf ⟨f, h⟩) ih

theorem operands_handout : ∀ (es : List (Hdr σ)) (i : Nat) (last : Option (Int × Nat))
    (ops : List CStr) (w : List (Hdr σ) × List ErrRec),
    (∀ h ∈ es, ∀ f, h.scanfn = some f → ∀ p a q c, f p a = .ok (q, c) → c ≠ 0 → q = p) →
    operands es i last ops = .ok w →
    ∃ left, Handout es ops w.1 left ∧ w.2.map (·.argval) = left.map some := by
  intro es
  induction es with
  | nil =>
    intro i last ops w _ h
    cases h
    exact ⟨ops, .done ops, leftover_argval last ops⟩
  | cons h t ih =>
    intro i last ops w hrej hw
    have hrt : ∀ h ∈ t, ∀ f, h.scanfn = some f → ∀ p a q c, f p a = .ok (q, c) → c ≠ 0 → q = p :=
      fun k hk => hrej k (by simp [hk])
    unfold operands at hw
    split at hw
    · rename_i h0
      cases hw
      subst h0
      exact ⟨[], handout_nil _, rfl⟩
    split at hw
    · rename_i htag
      cases ht : operands t (i + 1) last ops with
      | error e => rw [ht] at hw; cases hw
      | ok r =>
        rw [ht] at hw
        cases hw
        obtain ⟨left, h1, h2⟩ := ih _ _ _ r hrt ht
        refine ⟨left, .skip ?_ h1, h2⟩
        rintro f ⟨a, b, _⟩
        rw [a, b] at htag
        simp at htag
    · rename_i htag
      cases hs : h.scanfn with
      | none =>
        rw [hs] at hw
        dsimp only at hw
        cases ht : operands t (i + 1) last ops with
        | error e => rw [ht] at hw; cases hw
        | ok r =>
          rw [ht] at hw
          cases hw
          obtain ⟨left, h1, h2⟩ := ih _ _ _ r hrt ht
          refine ⟨left, .skip ?_ h1, h2⟩
          rintro f ⟨_, _, c⟩
          rw [hs] at c; cases c
      | some f =>
        rw [hs] at hw
        dsimp only at hw
        cases hf : feed f h.parent ops with
        | error e => rw [hf] at hw; cases hw
        | ok v =>
          rw [hf] at hw
          simp only [bind, Except.bind] at hw
          cases ht : operands t (i + 1) (some (v.2.2, i)) v.2.1 with
          | error e => rw [ht] at hw; cases hw
          | ok r =>
            rw [ht] at hw
            cases hw
            obtain ⟨left, h1, h2⟩ := ih _ _ _ r hrt ht
            obtain ⟨seg, e, ha, hr⟩ := feed_accepts (hrej h (by simp) f hs) _ _ _ hf
            refine ⟨left, ?_, h2⟩
            rw [e, ← hs]
            refine .take ⟨?_, ?_, hs⟩ ha (fun a h => ⟨_, hr a h⟩) h1
            · cases hso : h.shortopts with
              | none => rfl
              | some _ => rw [hso] at htag; simp at htag
            · cases hlo : h.longopts with
              | none => rfl
              | some _ => rw [hlo] at htag; simp at htag

theorem accepts_count {f : Obj δ → Option CStr → M (Obj δ × Int)}
    (hf : ∀ p a q, f p a = .ok (q, 0) → q.count = p.count + 1) {p q : Obj δ} {as : List CStr}
    (h : Accepts f p as q) : q.count = p.count + as.length := by
  induction h with
  | nil => rfl
  | cons h1 _ ih => rw [ih, hf _ _ _ h1]; simp; omega

theorem handout_count {es es' : List (Hdr (Obj δ))} {ops left : List CStr}
    (h : Handout es ops es' left)
    (hf : ∀ h ∈ es, ∀ f, h.scanfn = some f → ∀ p a q, f p a = .ok (q, 0) → q.count = p.count + 1) :
    (es'.map (·.parent.count)).sum + left.length = (es.map (·.parent.count)).sum + ops.length := by
  induction h with
  | done ops => rfl
  | skip _ _ ih =>
    have := ih fun k hk => hf k (by simp [hk])
    simp only [List.map_cons, List.sum_cons]
    omega
  | @take h t t' seg rest left f q ho ha _ _ ih =>
    have h1 := ih fun k hk => hf k (by simp [hk])
    have h2 := accepts_count (hf h (by simp) f ho.2.2) ha
    simp only [List.map_cons, List.sum_cons, List.length_append]
    omega

theorem scanned_split {es : List (Hdr σ)} {evs : List Ev} {ops : List CStr}
    {q : List (Hdr σ) × List ErrRec} (h : scanned es evs ops = .ok q) :
    ∃ s w, afterOptions es evs = .ok s ∧ operands s.1 0 none ops = .ok w ∧ q = (w.1, s.2 ++ w.2) := by
  unfold scanned at h
  unfold afterOptions
  cases h0 : resetAll es with
  | error e => rw [h0] at h; cases h
  | ok es0 =>
    rw [h0] at h
    simp only [bind_ok]
    cases h1 : deliverAll evs (es0, []) with
    | error e => simp only [bind, Except.bind, h1] at h; cases h
    | ok s1 =>
      simp only [bind, Except.bind, h1] at h
      cases h2 : operands s1.1 0 none ops with
      | error e => rw [h2] at h; cases h
      | ok s2 =>
        rw [h2] at h
        cases h
        exact ⟨s1, s2, rfl, h2, rfl⟩

theorem afterOptions_frame {es : List (Hdr σ)} {evs : List Ev} {s : List (Hdr σ) × List ErrRec}
    (h : afterOptions es evs = .ok s) : Frame es s.1 := by
  unfold afterOptions at h
  cases h0 : resetAll es with
  | error e => rw [h0] at h; cases h
  | ok es0 =>
    rw [h0] at h
    simp only [bind_ok] at h
    exact (resetAll_frame _ _ h0).trans (deliverAll_frame _ _ _ h)

end Argtable
