import Verif.Spec.Oom
import Verif.Proofs.ParseMem
import Verif.Proofs.History
/-!
# `arg_parse` when it runs out of memory
-/

namespace Argtable

open Spec

variable {σ ω ω' α β : Type} {sup : Supply}

/-- `y` does what `x` does, unless it ends in the panic function; then memory is limited, and `P` holds. -/
def OSim (sup : Supply) (P : ω → Prop) (x : M α) (y : OM ω α) : Prop :=
  match y with
  | .ok v => x = .ok v
  | .error (.fault f) => x = .error f
  | .error (.panic w) => ¬ Plenty sup ∧ P w

theorem OSim.up {P : ω → Prop} (x : M α) : OSim sup P x (up x) := by
  cases x <;> exact (rfl : _ = _)

theorem OSim.ok {P : ω → Prop} {v : α} : OSim sup P (.ok v) (.ok v) := (rfl : _ = _)

theorem OSim.bind {P : ω → Prop} {x : M α} {y : OM ω α} {f : α → M β} {g : α → OM ω β} (h : OSim sup P x y)
    (hf : ∀ v, x = .ok v → OSim sup P (f v) (g v)) : OSim sup P (x >>= f) (y >>= g) := by
  cases y with
  | ok v =>
    have h : x = .ok v := h
    subst h
    exact hf v rfl
  | error e =>
    cases e with
    | fault f => have h : x = .error f := h; subst h; exact (rfl : _ = _)
    | panic w => exact h

theorem OSim.pre {P : ω → Prop} {x : M α} {f : α → M β} {g : α → OM ω β} (hf : ∀ v, x = .ok v → OSim sup P (f v) (g v)) :
    OSim sup P (x >>= f) (Argtable.up x >>= g) := .bind (.up x) hf

theorem OSim.within {P : ω → Prop} {Q : ω' → Prop} {x : M α} {y : OM ω α} {k : ω → ω'} (h : OSim sup P x y)
    (hk : ∀ w, P w → Q (k w)) : OSim sup Q x (within k y) := by
  cases y with
  | ok v => exact h
  | error e =>
    cases e with
    | fault f => exact h
    | panic w => exact ⟨h.1, hk _ h.2⟩

theorem OSim.mono {P Q : ω → Prop} {x : M α} {y : OM ω α} (h : OSim sup P x y) (hk : ∀ w, P w → Q w) : OSim sup Q x y := by
  cases y with
  | ok v => exact h
  | error e =>
    cases e with
    | fault f => exact h
    | panic w => exact ⟨h.1, hk _ h.2⟩

theorem OSim.malloc {P : Heap → Prop} {sup : Supply} {n : Nat} {heap : Heap} {x : M β} {g : Nat × Heap → OM Heap β}
    (hP : P heap) (h : OSim sup P x (g (heapMalloc n heap))) : OSim sup P x (mallocOom sup n heap >>= g) := by
  unfold mallocOom
  split
  · exact h
  · rename_i hc
    exact ⟨fun hp => hc (hp.1 _ _), hP⟩

theorem OSim.mallocIn {P : ω → Prop} {sup : Supply} {n : Nat} {heap : Heap} {x : M β} {k : Heap → ω}
    {g : Nat × Heap → OM ω β} (hP : P (k heap)) (h : OSim sup P x (g (heapMalloc n heap))) :
    OSim sup P x (Argtable.within k (mallocOom sup n heap) >>= g) := by
  unfold mallocOom
  split
  · exact h
  · rename_i hc
    exact ⟨fun hp => hc (hp.1 _ _), hP⟩

/-! ### heaps that grow -/

theorem Spec.Grown.refl (heap : Heap) : Grown 0 heap heap := ⟨[], by simp, by simp [liveBlocks]⟩

theorem Spec.Grown.trans {a b c : Heap} {n k : Nat} (h1 : Grown n a b) (h2 : Grown k b c) : Grown (n + k) a c := by
  obtain ⟨l1, rfl, g1⟩ := h1
  obtain ⟨l2, rfl, g2⟩ := h2
  refine ⟨l1 ++ l2, by simp, ?_⟩
  unfold liveBlocks at *
  rw [List.filterMap_append, List.length_append]
  omega

theorem Spec.Grown.mono {a b : Heap} {n k : Nat} (h : Grown n a b) (hk : n ≤ k) : Grown k a b := by
  obtain ⟨l, e, g⟩ := h
  exact ⟨l, e, Nat.le_trans g hk⟩

theorem Spec.Grown.dead (heap : Heap) (k : Nat) : Grown 0 heap (heap ++ List.replicate k none) := by
  refine ⟨_, rfl, ?_⟩
  unfold liveBlocks
  rw [List.length_eq_zero_iff.2]
  induction k with
  | zero => rfl
  | succ k ih => rw [List.replicate_succ, List.filterMap_cons]; exact ih

theorem Spec.Grown.malloc (n : Nat) (heap : Heap) : Grown 1 heap (heapMalloc n heap).2 :=
  ⟨_, rfl, by simp [liveBlocks]⟩

theorem Spec.Grown.of_lift {heap heap' : Heap} {x : M α} {y : M (α × Heap)} {r : α} (h : LiftH heap x y)
    (hy : y = .ok (r, heap')) : x = .ok r ∧ Grown 0 heap heap' ∧ ∃ k, heap' = heap ++ List.replicate k none := by
  cases x with
  | error e => have h : y = .error e := h; rw [hy] at h; cases h
  | ok r' =>
    obtain ⟨k, e⟩ := h
    rw [hy] at e
    cases e
    exact ⟨rfl, .dead _ _, k, rfl⟩

/-! ### arg_rex -/

theorem osim_compile (sup : Supply) (pattern : CStr) (heap : Heap) :
    OSim sup (Grown 3 heap) (rexCompileMem pattern heap) (rexCompileOom sup pattern heap) := by
  unfold rexCompileMem rexCompileOom
  have g1 := Grown.malloc 96 heap
  have g2 := g1.trans (Grown.malloc (pattern.length * 16) (heapMalloc 96 heap).2)
  have g3 := g2.trans (Grown.malloc 200 (heapMalloc (pattern.length * 16) (heapMalloc 96 heap).2).2)
  refine .malloc ((Grown.refl _).mono (by omega)) ?_
  refine .malloc (g1.mono (by omega)) ?_
  refine .malloc (g2.mono (by omega)) ?_
  dsimp only
  cases compileNodes pattern with
  | ok r =>
    obtain ⟨nodes, nsub⟩ := r
    dsimp only
    split
    · rename_i hc
      exact ⟨fun hp => hc (hp.2 _ _), Grown.mono (n := 1 + 1 + 1) g3 (by omega)⟩
    · exact .malloc (Grown.mono (n := 1 + 1 + 1) g3 (by omega)) .ok
  | error e =>
    cases e with
    | bad w =>
      dsimp only
      split
      · rename_i hc
        exact ⟨fun hp => hc (hp.2 _ _), Grown.mono (n := 1 + 1 + 1) g3 (by omega)⟩
      · exact .pre fun _ _ => .pre fun _ _ => .pre fun _ _ => .ok
    | fault f =>
      dsimp only
      split
      · rename_i hc
        exact ⟨fun hp => hc (hp.2 _ _), Grown.mono (n := 1 + 1 + 1) g3 (by omega)⟩
      · exact (rfl : _ = _)

theorem osim_rexScan (sup : Supply) (pattern : CStr) (ic : Bool) (mx : Int) (o : StrObj) (a : Option CStr) (heap : Heap) :
    OSim sup (fun w => w.1 = o ∧ Grown 3 heap w.2) (rexScanMem pattern ic mx o a heap) (rexScanOom sup pattern ic mx o a heap) := by
  unfold rexScanMem rexScanOom
  split
  · exact .ok
  · cases a with
    | none => exact .ok
    | some a =>
      dsimp only
      refine .bind (.within (osim_compile sup pattern heap) fun w hw => ⟨rfl, hw⟩) ?_
      rintro ⟨rex, h1⟩ -
      cases rex with
      | none => exact (rfl : _ = _)
      | some r => exact .up _

/-! ### arg_parse -/

/-- The functions at work, with and without a limited supply of memory. -/
def OSimFn (sup : Supply) (f : Option (OScanFn σ)) (f' : Option (ScanFn σ)) : Prop :=
  match f, f' with
  | none, none => True
  | some f, some f' => ∀ o a heap, OSim sup (fun w => w.1 = o ∧ Grown 3 heap w.2) (f' o a heap) (f o a heap)
  | _, _ => False

def OSimFns (sup : Supply) (fns : List (Option (OScanFn σ))) (fns' : List (Option (ScanFn σ))) : Prop :=
  ∀ i : Nat, OSimFn sup fns[i]?.join fns'[i]?.join

/-- A table in use: its end is intact, and its entries are related to those of a fixed table. -/
structure InUse (K : Hdr σ → Hdr σ → Prop) (m : Nat) (es0 : List (Hdr σ)) (t : Table σ) : Prop where
  fin : EndOK m t.fin
  entries : List.Forall₂ K es0 t.entries

variable {K : Hdr σ → Hdr σ → Prop} {m : Nat} {es0 : List (Hdr σ)}

theorem registerError_ok {e e' : EndTbl} (h : EndOK m e) {p : Parent} {err : Int} {a : Option CStr}
    (he : registerError e p err a = .ok e') : EndOK m e' := by
  unfold registerError at he
  split at he <;> split at he <;> cases he
  · exact ⟨h.pos, h.max, by simp [h.len]⟩
  · exact ⟨h.pos, h.max, by simp [h.len]⟩

theorem InUse.reg {t t' : Table σ} (h : InUse K m es0 t) {e : Int} {a : Option CStr} (he : regEnd t e a = .ok t') :
    InUse K m es0 t' := by
  unfold regEnd at he
  obtain ⟨f, h1, he⟩ := hbind_ok' he
  cases he
  exact ⟨registerError_ok h.fin h1, h.entries⟩

theorem set_parent_self {es : List (Hdr σ)} {i : Nat} {h : Hdr σ} (hi : es[i]? = some h) :
    es.set i { h with parent := h.parent } = es := by
  rw [show ({ h with parent := h.parent } : Hdr σ) = h from rfl]
  apply List.ext_getElem?
  intro j
  rw [List.getElem?_set]
  split
  · rename_i hij
    subst hij
    rw [if_pos (lt_of_getElem? hi), hi]
  · rfl

theorem osim_scanEntry {fns : List (Option (OScanFn σ))} {fns' : List (Option (ScanFn σ))} (ho : OSimFns sup fns fns')
    {t : Table σ} (ht : InUse K m es0 t) (i : Nat) (a : Option CStr) (heap : Heap) :
    OSim sup (fun w => InUse K m es0 w.1 ∧ Grown 3 heap w.2) (scanEntryMem fns' t i a heap) (scanEntryOom fns t i a heap) := by
  unfold scanEntryMem scanEntryOom
  cases hi : t.entries[i]? with
  | none => exact (rfl : _ = _)
  | some h =>
    have hsim := ho i
    dsimp only
    revert hsim
    cases fns[i]?.join with
    | none =>
      cases fns'[i]?.join with
      | none => exact fun _ => .ok
      | some g => exact fun h => h.elim
    | some f =>
      cases fns'[i]?.join with
      | none => exact fun h => h.elim
      | some f' =>
        intro hsim
        refine .bind (.within (hsim h.parent a heap) ?_) ?_
        · rintro ⟨p, h'⟩ ⟨hp, hg⟩
          dsimp only at hp hg ⊢
          subst hp
          rw [set_parent_self hi]
          exact ⟨ht, hg⟩
        · rintro ⟨⟨p, err⟩, heap'⟩ -
          dsimp only
          split
          · exact .pre fun e _ => .ok
          · exact .ok

/-- A scan keeps the table in use. -/
theorem InUse.scan (hK : Keeps K) {t t' : Table σ} (ht : InUse K m es0 t) {i : Nat} {a : Option CStr}
    (h : scanEntry t i a = .ok t') : InUse K m es0 t' := by
  unfold scanEntry at h
  cases hi : t.entries[i]? with
  | none => rw [hi] at h; cases h
  | some d =>
    rw [hi] at h
    dsimp only at h
    cases hf : d.scanfn with
    | none => rw [hf] at h; cases h; exact ht
    | some f =>
      rw [hf] at h
      dsimp only at h
      obtain ⟨⟨p, err⟩, h1, h⟩ := hbind_ok' h
      have hk : List.Forall₂ K es0 (t.entries.set i { d with parent := p }) :=
        forall₂_set_right ht.entries i hi fun x hx => hK.scan _ _ _ _ _ hx hf h1
      rw [hf] at hk
      dsimp only at h
      split at h
      · obtain ⟨e, h2, h⟩ := hbind_ok' h
        cases h
        exact ⟨registerError_ok ht.fin h2, hk⟩
      · cases h
        exact ⟨ht.fin, hk⟩

theorem InUse.body (hK : Keeps K) {t t' : Table σ} (ht : InUse K m es0 t) {copt : Int} {g : GState}
    (h : taggedBody copt g t = .ok t') : InUse K m es0 t' := by
  unfold taggedBody at h
  split at h
  · dsimp only at h
    cases hi : t.entries[g.getoptval]? with
    | none => rw [hi] at h; cases h
    | some d =>
      rw [hi] at h
      dsimp only at h
      by_cases hc : g.optarg = some [] ∧ d.hasValue
      · rw [if_pos hc] at h
        obtain ⟨a, _, h⟩ := hbind_ok' h
        obtain ⟨t1, h1, h⟩ := hbind_ok' h
        exact (ht.reg h1).scan hK h
      · rw [if_neg hc] at h
        exact ht.scan hK h
  · split at h
    · split at h
      · obtain ⟨a, _, h⟩ := hbind_ok' h
        exact ht.reg h
      · exact ht.reg h
    · split at h
      · obtain ⟨a, _, h⟩ := hbind_ok' h
        exact ht.reg h
      · cases hs : findShortoption (intChar copt) t.entries 0 with
        | none => rw [hs] at h; exact ht.reg h
        | some i => rw [hs] at h; exact ht.scan hK h

theorem osim_body {fns : List (Option (OScanFn σ))} {fns' : List (Option (ScanFn σ))} (ho : OSimFns sup fns fns')
    {t : Table σ} (ht : InUse K m es0 t) (av lo : Nat) (copt : Int) (g : GState) (heap : Heap) :
    OSim sup (fun w => InUse K m es0 w.1 ∧ Grown 3 heap w.2) (taggedBodyMem fns' av lo copt g t heap)
      (taggedBodyOom fns av lo copt g t heap) := by
  unfold taggedBodyMem taggedBodyOom
  split
  · refine .pre fun _ _ => ?_
    dsimp only
    cases hi : t.entries[g.getoptval]? with
    | none => exact (rfl : _ = _)
    | some h =>
      dsimp only
      by_cases hc : g.optarg = some [] ∧ h.hasValue
      · rw [if_pos hc, if_pos hc]
        have : ∀ (k : Table σ → M (Table σ × Heap)), (argvPrevMem av g heap >>= fun a => regEnd t ARG_EMISSARG a >>= k)
            = ((argvPrevMem av g heap >>= fun a => regEnd t ARG_EMISSARG a) >>= k) := by
          intro k
          cases argvPrevMem av g heap <;> rfl
        rw [this]
        refine .pre fun t1 h1 => osim_scanEntry ho ?_ _ _ _
        obtain ⟨a, _, h1⟩ := hbind_ok' h1
        exact ht.reg h1
      · rw [if_neg hc, if_neg hc]
        exact osim_scanEntry ho ht _ _ _
  · split
    · split
      · exact .up _
      · exact .up _
    · split
      · exact .up _
      · cases findShortoption (intChar copt) t.entries 0 with
        | none => exact .up _
        | some i => exact osim_scanEntry ho ht _ _ _

/-- What holds in the panic function. -/
def Lost (K : Hdr σ → Hdr σ → Prop) (m : Nat) (es0 : List (Hdr σ)) (n : Nat) (heap : Heap) (c : Crash σ) : Prop :=
  InUse K m es0 c.t ∧ Grown n heap c.heap

theorem Lost.mono {n k : Nat} {heap : Heap} {c : Crash σ} (h : Lost K m es0 n heap c) (hk : n ≤ k) :
    Lost K m es0 k heap c := ⟨h.1, h.2.mono hk⟩

theorem Lost.before {n k : Nat} {heap heap' : Heap} {c : Crash σ} (h : Lost K m es0 n heap' c) (hg : Grown k heap heap') :
    Lost K m es0 (k + n) heap c := ⟨h.1, hg.trans h.2⟩

theorem osim_loop (hK : Keeps K) {fns : List (Option (OScanFn σ))} {fns' : List (Option (ScanFn σ))} (ho : OSimFns sup fns fns')
    (env : Bool) (nargc : Nat) (sopts : CStr) (lopts : List LongOpt) (av lo so : Nat) :
    ∀ (fuel : Nat) (g : GState) (t : Table σ) (heap : Heap), SimFns fns' t.entries → InUse K m es0 t →
    IsLive heap av → IsLive heap lo → IsLive heap so →
    OSim sup (Lost K m es0 3 heap) (taggedLoopMem fns' env nargc sopts lopts av lo so fuel g t heap)
      (taggedLoopOom fns env nargc sopts lopts av lo so fuel g t heap)
  | 0, _, _, _, _, _, _, _, _ => by
    unfold taggedLoopMem taggedLoopOom
    exact (rfl : _ = _)
  | fuel + 1, g, t, heap, hs, ht, hav, hlo, hso => by
    unfold taggedLoopMem taggedLoopOom
    refine .pre fun _ _ => .pre fun _ _ => .pre fun _ _ => .pre fun r _ => ?_
    obtain ⟨copt, g⟩ := r
    dsimp only
    split
    · exact .ok
    · refine .bind (.within (osim_body ho ht av lo copt g heap) fun w hw => ⟨hw.1, hw.2⟩) ?_
      rintro ⟨t', heap'⟩ h1
      have hb := lift_body hs av lo copt g heap hav hlo
      obtain ⟨h2, h3, k, rfl⟩ := Grown.of_lift hb.1 h1
      have := osim_loop hK ho env nargc sopts lopts av lo so fuel g t' (heap ++ List.replicate k none) (hb.2 _ h2) (ht.body hK h2)
        (hav.ext _) (hlo.ext _) (hso.ext _)
      exact this.mono fun w hw => (hw.before h3).mono (by omega)

theorem osim_tagged (hK : Keeps K) (sup : Supply) {fns : List (Option (OScanFn σ))} {fns' : List (Option (ScanFn σ))}
    (ho : OSimFns sup fns fns') (env : Bool) (fuel nargc av : Nat) (g : GState) (t : Table σ) (heap : Heap)
    (hs : SimFns fns' t.entries) (ht : InUse K m es0 t) (hav : IsLive heap av) :
    OSim sup (Lost K m es0 5 heap) (parseTaggedMem fns' env fuel nargc av g t heap)
      (parseTaggedOom sup fns env fuel nargc av g t heap) := by
  unfold parseTaggedMem parseTaggedOom
  refine .bind (.within (P := fun h => Grown 0 heap h) ?_ fun w hw => ⟨ht, hw.mono (by omega)⟩) ?_
  · unfold allocLongMem allocLongOom
    refine .pre fun r _ => ?_
    obtain ⟨n, l⟩ := r
    exact .malloc (Grown.refl _) (.pre fun _ _ => .pre fun _ _ => .ok)
  rintro ⟨lopts, lo, h1⟩ e1
  obtain ⟨b1, rfl, rfl⟩ : ∃ b, lo = heap.length ∧ h1 = heap ++ [some b] := by
    unfold allocLongMem at e1
    obtain ⟨⟨n, l⟩, _, e1⟩ := hbind_ok' e1
    obtain ⟨_, _, e1⟩ := hbind_ok' e1
    obtain ⟨_, _, e1⟩ := hbind_ok' e1
    cases e1
    exact ⟨_, rfl, rfl⟩
  have g1 : Grown 1 heap (heap ++ [some b1]) := ⟨_, rfl, by simp [liveBlocks]⟩
  refine .bind (.within (P := fun h => Grown 1 heap h) ?_ fun w hw => ⟨ht, hw.mono (by omega)⟩) ?_
  · unfold allocShortMem allocShortOom
    refine .malloc g1 (.pre fun _ _ => ?_)
    dsimp only
    split
    · exact .ok
    · exact (rfl : _ = _)
  rintro ⟨sopts, so, h2⟩ e2
  obtain ⟨b2, rfl, rfl⟩ : ∃ b, so = (heap ++ [some b1]).length ∧ h2 = heap ++ [some b1] ++ [some b] := by
    unfold allocShortMem at e2
    obtain ⟨_, _, e2⟩ := hbind_ok' e2
    dsimp only at e2
    split at e2
    · cases e2
      exact ⟨_, rfl, rfl⟩
    · cases e2
  have g2 : Grown 2 heap (heap ++ [some b1] ++ [some b2]) := ⟨[some b1, some b2], by simp, by simp [liveBlocks]⟩
  dsimp only
  refine .bind ((osim_loop hK ho env nargc sopts lopts av _ _ fuel _ t _ hs ht ((hav.ext _).ext _)
    ((live_new heap b1 []).ext _) (live_new (heap ++ [some b1]) b2 [])).mono fun w hw => hw.before g2) ?_
  rintro ⟨r, h3⟩ -
  exact .pre fun _ _ => .pre fun _ _ => .ok

theorem osim_untagged {fns : List (Option (OScanFn σ))} {fns' : List (Option (ScanFn σ))} (hK : Keeps K)
    (ho : OSimFns sup fns fns') (av : Nat) (g : GState) (nargc : Nat) :
    ∀ (n tabindex optind : Nat) (last : Option (Int × CStr × Nat)) (t : Table σ) (heap : Heap),
      (nargc - optind) + (t.entries.length - tabindex) = n → SimFns fns' t.entries → InUse K m es0 t →
      OSim sup (Lost K m es0 3 heap) (parseUntaggedMem fns' av g.nargv nargc tabindex optind last t heap)
        (parseUntaggedOom fns av g nargc tabindex optind last t heap) := by
  intro n
  induction n using Nat.strongRecOn with
  | ind n ih =>
    intro tabindex optind last t heap hn hs ht
    unfold parseUntaggedMem parseUntaggedOom
    by_cases htab : tabindex < t.entries.length
    · rw [dif_pos htab, dif_pos htab]
      by_cases hopt : optind ≥ nargc
      · rw [dif_pos hopt, dif_pos hopt]; exact .ok
      · rw [dif_neg hopt, dif_neg hopt]
        dsimp only
        have hi : t.entries[tabindex]? = some t.entries[tabindex] := List.getElem?_eq_getElem htab
        have hsim := hs _ _ hi
        have hset := fun p => hs.set hi p
        have hosim := ho tabindex
        split
        · exact ih _ (by omega) _ _ _ _ _ rfl hs ht
        · revert hsim hset hosim
          cases fns[tabindex]?.join with
          | none =>
            cases fns'[tabindex]?.join with
            | none => exact fun _ _ _ => ih _ (by omega) _ _ _ _ _ rfl hs ht
            | some g => exact fun _ _ h => h.elim
          | some f =>
            cases fns'[tabindex]?.join with
            | none => exact fun _ _ h => h.elim
            | some f' =>
              intro hsim hset hosim
              dsimp only
              cases heapTouch av heap with
              | error e => exact (rfl : _ = _)
              | ok _ =>
                dsimp only
                cases g.nargv[optind]? with
                | none => exact (rfl : _ = _)
                | some a =>
                  dsimp only
                  have hl := hosim t.entries[tabindex].parent (some a) heap
                  revert hl
                  cases f t.entries[tabindex].parent (some a) heap with
                  | error e =>
                    cases e with
                    | fault e => intro h; have h : _ = _ := h; rw [h]; exact (rfl : _ = _)
                    | panic w =>
                      obtain ⟨p, h'⟩ := w
                      rintro ⟨hd, hp, hg⟩
                      dsimp only at hp hg ⊢
                      subst hp
                      refine ⟨hd, ?_, hg⟩
                      dsimp only
                      rw [set_parent_self hi]
                      exact ht
                  | ok r =>
                    intro h
                    have h : _ = _ := h
                    rw [h]
                    obtain ⟨⟨p, err⟩, heap'⟩ := r
                    dsimp only
                    have hex : ∃ sf, t.entries[tabindex].scanfn = some sf := by
                      cases hf : t.entries[tabindex].scanfn with
                      | none => rw [hf] at hsim; exact hsim.elim
                      | some sf => exact ⟨sf, rfl⟩
                    obtain ⟨sf, hf⟩ := hex
                    rw [hf] at hsim
                    obtain ⟨h1, h2, k, rfl⟩ := Grown.of_lift (hsim _ (some a) heap) h
                    have hk : List.Forall₂ K es0 (t.entries.set tabindex { t.entries[tabindex] with parent := p }) :=
                      forall₂_set_right ht.entries tabindex hi fun x hx => hK.scan _ _ _ _ _ hx hf h1
                    have key : ∀ (x : M ((Nat × Table σ) × Heap)) (y : OM (Crash σ) ((Nat × Table σ) × Heap)),
                        OSim sup (Lost K m es0 3 (heap ++ List.replicate k none)) x y → OSim sup (Lost K m es0 3 heap) x y :=
                      fun x y h => h.mono fun w hw => (hw.before h2).mono (by omega)
                    split
                    · refine key _ _ (ih _ ?_ _ _ _ _ _ rfl (hset p) ⟨ht.fin, hk⟩)
                      simp; omega
                    · refine key _ _ (ih _ ?_ _ _ _ _ _ rfl (hset p) ⟨ht.fin, hk⟩)
                      simp; omega
    · rw [dif_neg htab, dif_neg htab]
      cases last with
      | none => exact .up _
      | some x => exact .up _

/-- `arg_reset` keeps the table in use. -/
theorem InUse.reset (hK : Keeps K) {t t' : Table σ} (ht : InUse K m es0 t) (h : argReset t = .ok t') :
    InUse K m es0 t' := by
  unfold argReset at h
  rw [resetEntries_eq] at h
  obtain ⟨es, he, h⟩ := hbind_ok' h
  cases h
  exact ⟨⟨ht.fin.pos, ht.fin.max, ht.fin.len⟩, resetAll_keeps hK ht.entries he⟩

theorem InUse.loop (hK : Keeps K) (env : Bool) (nargc : Nat) (sopts : CStr) (lopts : List LongOpt) :
    ∀ (fuel : Nat) (g : GState) (t : Table σ) (r : GState × Table σ), InUse K m es0 t →
    taggedLoop env nargc sopts lopts fuel g t = .ok r → InUse K m es0 r.2
  | 0, _, _, _, _, h => by unfold taggedLoop at h; cases h
  | fuel + 1, g, t, r, ht, h => by
    unfold taggedLoop at h
    obtain ⟨⟨copt, g⟩, _, h⟩ := hbind_ok' h
    dsimp only at h
    split at h
    · cases h; exact ht
    · obtain ⟨t', h1, h⟩ := hbind_ok' h
      exact InUse.loop hK env nargc sopts lopts fuel g t' r (ht.body hK h1) h

theorem InUse.tagged (hK : Keeps K) {env : Bool} {fuel nargc : Nat} {g : GState} {t : Table σ} {r : GState × Table σ}
    (ht : InUse K m es0 t) (h : parseTagged env fuel nargc g t = .ok r) : InUse K m es0 r.2 := by
  unfold parseTagged at h
  obtain ⟨lopts, _, h⟩ := hbind_ok' h
  obtain ⟨sopts, _, h⟩ := hbind_ok' h
  exact InUse.loop hK _ _ _ _ _ _ _ _ ht h

theorem osim_parse (hK : Keeps K) (sup : Supply) {fns : List (Option (OScanFn σ))} {fns' : List (Option (ScanFn σ))}
    (ho : OSimFns sup fns fns') (env : Bool) (fuel : Nat) (argv : List CStr) (t : Table σ) (g : GState) (heap : Heap)
    (hs : SimFns fns' t.entries) (ht : InUse K m es0 t) :
    OSim sup (Lost K m es0 6 heap) (argParseMem fns' env fuel argv t g heap)
      (argParseOom sup fns env fuel argv t g heap) := by
  unfold argParseMem argParseOom
  refine .pre fun t1 ht1 => ?_
  have hs1 := sim_reset hs ht1
  have hk1 := ht.reset hK ht1
  split
  · exact .pre fun e _ => .ok
  · refine .mallocIn ⟨hk1, (Grown.refl _).mono (by omega)⟩ ?_
    have g1 := Grown.malloc (8 * (argv.length + 1)) heap
    refine .pre fun _ _ => ?_
    dsimp only
    have hav : IsLive (heapMalloc (8 * (argv.length + 1)) heap).2 heap.length := live_new heap _ []
    refine .bind ((osim_tagged hK sup ho env fuel argv.length _ { g with nargv := argv } t1 _ hs1 hk1 hav).mono
      fun w hw => hw.before g1) ?_
    rintro ⟨⟨g2, t2⟩, h2⟩ e2
    obtain ⟨hl, hout⟩ := lift_tagged (fns := fns') env fuel argv.length heap.length { g with nargv := argv } t1
      (heapMalloc (8 * (argv.length + 1)) heap).2 hs1 hav
    obtain ⟨e3, g3, k, rfl⟩ := Grown.of_lift hl e2
    dsimp only
    refine .bind ((osim_untagged hK ho _ g2 argv.length _ 0 g2.optind none t2 _ rfl (hout _ e3) (hk1.tagged hK e3)).mono
      fun w hw => ((hw.before g3).before g1).mono (by omega)) ?_
    rintro ⟨⟨optind, t3⟩, h3⟩ -
    exact .up _

end Argtable
