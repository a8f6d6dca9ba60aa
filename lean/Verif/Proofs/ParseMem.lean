import Verif.Model.ParseMem
import Verif.Proofs.RexMem
/-!
# `arg_parse` releases all memory it allocates
-/

namespace Argtable

variable {σ : Type}

/-- `y` does what `x` does, and leaves behind only dead blocks. -/
def LiftH {α : Type} (heap : Heap) (x : M α) (y : M (α × Heap)) : Prop :=
  match x with
  | .error e => y = .error e
  | .ok r => ∃ k, y = .ok (r, heap ++ List.replicate k none)

theorem LiftH.ok {α : Type} {heap : Heap} {r : α} : LiftH heap (.ok r) (.ok (r, heap)) := ⟨0, by simp⟩

theorem LiftH.bind {α β : Type} {heap : Heap} {x : M α} {y : M (α × Heap)} {f : α → M β} {g : α × Heap → M (β × Heap)}
    (h : LiftH heap x y) (hf : ∀ r k, x = .ok r → LiftH (heap ++ List.replicate k none) (f r)
      (g (r, heap ++ List.replicate k none))) : LiftH heap (x >>= f) (y >>= g) := by
  cases x with
  | error e => have : y = .error e := h; rw [this]; exact (rfl : _ = _)
  | ok r =>
    obtain ⟨k, e⟩ := h
    rw [e]
    have := hf r k rfl
    show LiftH heap (f r) (g (r, heap ++ List.replicate k none))
    revert this
    cases f r with
    | error e => exact id
    | ok b =>
      rintro ⟨k', e'⟩
      exact ⟨k + k', by rw [e']; simp [List.append_assoc]⟩

theorem LiftH.pre {α β : Type} {heap : Heap} {x : M α} {f : α → M β} {g : α → M (β × Heap)}
    (hf : ∀ r, x = .ok r → LiftH heap (f r) (g r)) : LiftH heap (x >>= f) (x >>= g) := by
  cases x with
  | error e => exact (rfl : _ = _)
  | ok r => exact hf r rfl

/-- Block `a` is allocated. -/
def IsLive (heap : Heap) (a : Nat) : Prop := ∃ b, heap[a]? = some (some b)

theorem IsLive.touch {heap : Heap} {a : Nat} (h : IsLive heap a) : heapTouch a heap = .ok () := by
  obtain ⟨b, e⟩ := h
  rw [heapTouch, e]

theorem IsLive.ext {heap : Heap} {a : Nat} (h : IsLive heap a) (l : Heap) : IsLive (heap ++ l) a := by
  obtain ⟨b, e⟩ := h
  exact ⟨b, by rw [List.getElem?_append_left (lt_of_getElem? e)]; exact e⟩

theorem live_new (heap : Heap) (b : List Byte) (l : Heap) : IsLive (heap ++ some b :: l) heap.length :=
  ⟨b, by simp⟩

theorem free_new (heap : Heap) (b : List Byte) (l : Heap) :
    heapFree heap.length (heap ++ some b :: l) = .ok (heap ++ none :: l) := by
  rw [heapFree, List.getElem?_append_right (Nat.le_refl _)]
  simp

/-! ### arg_rex -/

theorem compile_eq (pattern : CStr) : rexCompile pattern = match compileNodes pattern with
    | .ok (nodes, _) => .ok (some nodes)
    | .error (.bad _) => .ok none
    | .error (.fault f) => .error f := by
  unfold rexCompile compileNodes
  dsimp only
  cases newnode .expr ⟨pattern, [], pattern.length, 0⟩ with
  | error e => cases e <;> rfl
  | ok r =>
    obtain ⟨first, s⟩ := r
    rw [rbind_ok, rbind_ok]
    dsimp only
    cases rexList (2 * pattern.length + 2) s with
    | error e => cases e <;> rfl
    | ok r =>
      obtain ⟨res, s⟩ := r
      rw [rbind_ok, rbind_ok]
      dsimp only
      by_cases h : (s.setLeft first res).p ≠ []
      · rw [if_pos h, if_pos h]
      · rw [if_neg h, if_neg h]

/-- The object compiled into four new blocks. -/
def objAt (a : Nat) (nodes : List RNode) (n : Nat) : RexObj :=
  { self := a, nodesBlk := a + 1, jmpbuf := a + 2, matchesBlk := a + 3, nodes := nodes, nsub := n }

theorem compileMem_some {pattern : CStr} {nodes : List RNode} {n : Nat} (h : compileNodes pattern = .ok (nodes, n))
    (heap : Heap) : rexCompileMem pattern heap = .ok (some (objAt heap.length nodes n),
      heap ++ [some (List.replicate 96 none), some (List.replicate (pattern.length * 16) none),
        some (List.replicate 200 none), some (List.replicate (n * 16) none)]) := by
  unfold rexCompileMem
  rw [h]
  simp [heapMalloc, objAt, List.append_assoc]

theorem freeMem (heap : Heap) (nodes : List RNode) (n : Nat) (a b c d : List Byte) :
    rexFree (some (objAt heap.length nodes n)) (heap ++ [some a, some b, some c, some d]) =
      .ok (heap ++ List.replicate 4 none) := by
  simp [rexFree, objAt, heapTouch, heapFree, bind, Except.bind, List.set_append_right]

theorem compileMem_none {pattern : CStr} {w : String} (h : compileNodes pattern = .error (.bad w))
    (heap : Heap) : rexCompileMem pattern heap = .ok (none, heap ++ List.replicate 3 none) := by
  unfold rexCompileMem
  rw [h]
  simp [heapMalloc, heapFree, bind, Except.bind, List.set_append_right, List.append_assoc]

theorem compileMem_fault {pattern : CStr} {f : Fault} (h : compileNodes pattern = .error (.fault f))
    (heap : Heap) : rexCompileMem pattern heap = .error f := by
  unfold rexCompileMem
  rw [h]

theorem rexTry_lift (pattern : CStr) (heap : Heap) :
    LiftH heap (do let r ← rexCompile pattern; .ok r.isSome) (rexTryMem pattern heap) := by
  rw [compile_eq]
  unfold rexTryMem
  cases h : compileNodes pattern with
  | ok r =>
    obtain ⟨nodes, n⟩ := r
    rw [compileMem_some h]
    show LiftH heap (.ok true) (rexFree _ _ >>= _)
    rw [freeMem]
    exact ⟨4, rfl⟩
  | error e =>
    cases e with
    | bad w => rw [compileMem_none h]; exact ⟨3, rfl⟩
    | fault f => rw [compileMem_fault h]; exact (rfl : _ = _)

theorem rexScan_lift (pattern : CStr) (ic : Bool) (mx : Int) (o : StrObj) (a : Option CStr) (heap : Heap) :
    LiftH heap (rexScan pattern ic mx o a) (rexScanMem pattern ic mx o a heap) := by
  unfold rexScan rexScanMem
  split
  · exact .ok
  · cases a with
    | none => exact .ok
    | some a =>
      dsimp only
      rw [compile_eq]
      cases h : compileNodes pattern with
      | error e =>
        cases e with
        | bad w => rw [compileMem_none h]; exact (rfl : _ = _)
        | fault f => rw [compileMem_fault h]; exact (rfl : _ = _)
      | ok r =>
        obtain ⟨nodes, n⟩ := r
        rw [compileMem_some h]
        show LiftH heap (rexMatch nodes ic a >>= _) (rexMatchMem _ ic a _ >>= _)
        have hm : rexMatchMem (objAt heap.length nodes n) ic a
            (heap ++ [some (List.replicate 96 none), some (List.replicate (pattern.length * 16) none),
              some (List.replicate 200 none), some (List.replicate (n * 16) none)]) = rexMatch nodes ic a := by
          have hl := lift_matchnode (compileNodes_fit h) ic a ((nodes.length + 1) * (nodes.length + 1)) 0 0 none
            { caps := List.replicate n {}, curr := 0 } (by simp)
          unfold rexMatchMem rexMatch objAt
          simp only [heapTouch, List.getElem?_append_right, Nat.le_refl, Nat.sub_self, Nat.le_add_right,
            Nat.add_sub_cancel_left, List.getElem?_cons_zero, List.getElem?_cons_succ, bind_ok]
          revert hl
          cases matchnode nodes ic a ((nodes.length + 1) * (nodes.length + 1)) 0 0 none with
          | error e => intro h; have h : _ = _ := h; rw [h]; rfl
          | ok r => rintro ⟨c, e, _⟩; rw [e]; rfl
        rw [hm]
        refine .pre fun b _ => ?_
        cases b with
        | true =>
          show LiftH heap (storeAt o.sval o.count a >>= _) (storeAt o.sval o.count a >>= _)
          refine .pre fun sval _ => ?_
          rw [freeMem]
          exact ⟨4, rfl⟩
        | false =>
          show LiftH heap _ (rexFree _ _ >>= _)
          rw [freeMem]
          exact ⟨4, rfl⟩

/-! ### arg_parse -/

/-- The function at work does what the scan function does. -/
def SimFn (f : Option (ScanFn σ)) (g : Option (σ → Option CStr → M (σ × Int))) : Prop :=
  match f, g with
  | none, none => True
  | some f, some g => ∀ o a heap, LiftH heap (g o a) (f o a heap)
  | _, _ => False

def SimFns (fns : List (Option (ScanFn σ))) (es : List (Hdr σ)) : Prop :=
  ∀ (i : Nat) (h : Hdr σ), es[i]? = some h → SimFn (fns[i]?.join) h.scanfn

theorem SimFns.set {fns : List (Option (ScanFn σ))} {es : List (Hdr σ)} (hs : SimFns fns es) {i : Nat} {h : Hdr σ}
    (hi : es[i]? = some h) (p : σ) : SimFns fns (es.set i { h with parent := p }) := by
  intro j x hj
  rw [List.getElem?_set] at hj
  split at hj
  · rename_i hij
    subst hij
    split at hj
    · cases hj; exact hs i h hi
    · cases hj
  · exact hs j x hj

/-- A property of the tables that come out. -/
def OutT {α : Type} (P : α → Prop) (x : M α) : Prop := ∀ r, x = .ok r → P r

theorem regEnd_entries_mem {t t' : Table σ} {e : Int} {a : Option CStr} (h : regEnd t e a = .ok t') :
    t'.entries = t.entries := by
  unfold regEnd at h
  obtain ⟨f, _, h⟩ := hbind_ok' h
  cases h; rfl

theorem bind_map_heap {α : Type} {heap : Heap} (x : M α) : LiftH heap x (x >>= fun r => .ok (r, heap)) := by
  cases x with
  | error e => exact (rfl : _ = _)
  | ok r => exact .ok

theorem lift_scanEntry {fns : List (Option (ScanFn σ))} {t : Table σ} (hs : SimFns fns t.entries) (i : Nat)
    (a : Option CStr) (heap : Heap) :
    LiftH heap (scanEntry t i a) (scanEntryMem fns t i a heap) ∧
      OutT (fun t' => SimFns fns t'.entries) (scanEntry t i a) := by
  unfold scanEntry scanEntryMem
  cases hi : t.entries[i]? with
  | none => exact ⟨(rfl : _ = _), fun r h => by cases h⟩
  | some h =>
    have hsim := hs i h hi
    have hset := fun p => hs.set hi p
    dsimp only
    revert hsim hset
    cases fns[i]?.join with
    | none =>
      cases h.scanfn with
      | none => exact fun _ _ => ⟨.ok, fun r h => by cases h; exact hs⟩
      | some g => exact fun h _ => h.elim
    | some f =>
      cases h.scanfn with
      | none => exact fun h _ => h.elim
      | some g =>
        intro hsim hset
        refine ⟨.bind (hsim h.parent a heap) fun r k _ => ?_, ?_⟩
        · dsimp only
          split
          · exact .pre fun e _ => .ok
          · exact .ok
        · intro t' ht
          obtain ⟨⟨p, err⟩, _, ht⟩ := hbind_ok' ht
          dsimp only at ht
          split at ht
          · obtain ⟨e, _, ht⟩ := hbind_ok' ht
            cases ht
            exact hset p
          · cases ht
            exact hset p

theorem argvPrevMem_eq {av : Nat} {heap : Heap} (h : IsLive heap av) (g : GState) :
    argvPrevMem av g heap = argvPrev g := by rw [argvPrevMem, h.touch, bind_ok]

theorem lift_body {fns : List (Option (ScanFn σ))} {t : Table σ} (hs : SimFns fns t.entries) (av lo : Nat)
    (copt : Int) (g : GState) (heap : Heap) (hav : IsLive heap av) (hlo : IsLive heap lo) :
    LiftH heap (taggedBody copt g t) (taggedBodyMem fns av lo copt g t heap) ∧
      OutT (fun t' => SimFns fns t'.entries) (taggedBody copt g t) := by
  have hreg : ∀ (e : Int) (a : Option CStr) (t' : Table σ), regEnd t e a = .ok t' → SimFns fns t'.entries :=
    fun e a t' h => by rw [regEnd_entries_mem h]; exact hs
  unfold taggedBody taggedBodyMem
  split
  · rw [hlo.touch, bind_ok]
    dsimp only
    cases hi : t.entries[g.getoptval]? with
    | none => exact ⟨(rfl : _ = _), fun r h => by cases h⟩
    | some h =>
      dsimp only
      rw [argvPrevMem_eq hav]
      by_cases hc : g.optarg = some [] ∧ h.hasValue
      · rw [if_pos hc, if_pos hc]
        refine ⟨.pre fun a _ => .pre fun t' ht' => (lift_scanEntry (hreg _ _ _ ht') _ _ heap).1, fun t' ht => ?_⟩
        obtain ⟨a, _, ht⟩ := hbind_ok' ht
        obtain ⟨t1, h1, ht⟩ := hbind_ok' ht
        exact (lift_scanEntry (hreg _ _ _ h1) _ _ heap).2 _ ht
      · rw [if_neg hc, if_neg hc]
        exact lift_scanEntry hs _ _ heap
  · split
    · split
      · rw [argvPrevMem_eq hav]
        refine ⟨.pre fun a _ => bind_map_heap _, fun t' ht => ?_⟩
        obtain ⟨a, _, ht⟩ := hbind_ok' ht
        exact hreg _ _ _ ht
      · exact ⟨bind_map_heap _, fun t' ht => hreg _ _ _ ht⟩
    · split
      · rw [argvPrevMem_eq hav]
        refine ⟨.pre fun a _ => bind_map_heap _, fun t' ht => ?_⟩
        obtain ⟨a, _, ht⟩ := hbind_ok' ht
        exact hreg _ _ _ ht
      · cases findShortoption (intChar copt) t.entries 0 with
        | none => exact ⟨bind_map_heap _, fun t' ht => hreg _ _ _ ht⟩
        | some i => exact lift_scanEntry hs _ _ heap

theorem lift_loop {fns : List (Option (ScanFn σ))} (env : Bool) (nargc : Nat) (sopts : CStr) (lopts : List LongOpt)
    (av lo so : Nat) : ∀ (fuel : Nat) (g : GState) (t : Table σ) (heap : Heap), SimFns fns t.entries →
    IsLive heap av → IsLive heap lo → IsLive heap so →
    LiftH heap (taggedLoop env nargc sopts lopts fuel g t) (taggedLoopMem fns env nargc sopts lopts av lo so fuel g t heap) ∧
      OutT (fun r => SimFns fns r.2.entries) (taggedLoop env nargc sopts lopts fuel g t)
  | 0, _, _, _, _, _, _, _ => by
    unfold taggedLoop taggedLoopMem
    exact ⟨(rfl : _ = _), fun r h => by cases h⟩
  | fuel + 1, g, t, heap, hs, hav, hlo, hso => by
    unfold taggedLoop taggedLoopMem
    rw [hav.touch, hlo.touch, hso.touch, bind_ok, bind_ok, bind_ok]
    have hb := fun copt g => lift_body hs av lo copt g heap hav hlo
    refine ⟨.pre fun r _ => ?_, fun r h => ?_⟩
    · obtain ⟨copt, g⟩ := r
      dsimp only
      split
      · exact .ok
      · refine .bind (hb copt g).1 fun t' k ht' => ?_
        exact (lift_loop env nargc sopts lopts av lo so fuel g t' _ ((hb copt g).2 t' ht') (hav.ext _) (hlo.ext _)
          (hso.ext _)).1
    · obtain ⟨⟨copt, g⟩, _, h⟩ := hbind_ok' h
      dsimp only at h
      split at h
      · cases h; exact hs
      · obtain ⟨t', ht', h⟩ := hbind_ok' h
        exact (lift_loop env nargc sopts lopts av lo so fuel g t' heap ((hb copt g).2 t' ht') hav hlo hso).2 _ h

theorem lift_tagged {fns : List (Option (ScanFn σ))} (env : Bool) (fuel nargc av : Nat) (g : GState) (t : Table σ)
    (heap : Heap) (hs : SimFns fns t.entries) (hav : IsLive heap av) :
    LiftH heap (parseTagged env fuel nargc g t) (parseTaggedMem fns env fuel nargc av g t heap) ∧
      OutT (fun r => SimFns fns r.2.entries) (parseTagged env fuel nargc g t) := by
  constructor
  · unfold parseTagged parseTaggedMem allocLongoptions allocLongMem
    cases hc : countPass t.entries 1 0 with
    | error e => exact (rfl : _ = _)
    | ok r =>
      obtain ⟨n, l⟩ := r
      simp only [bind_ok, heapMalloc]
      rw [(live_new heap _ []).touch, bind_ok]
      cases hf : fillPass n l t.entries 0 [] 0 with
      | error e => exact (rfl : _ = _)
      | ok lopts =>
        simp only [bind_ok]
        unfold allocShortoptions allocShortMem
        simp only [heapMalloc]
        have e2 : ∀ b : List Byte, (heap ++ [some (List.replicate (longoptionsSize + optionSize * n + l) none)]).length = heap.length + 1 := by
          simp
        rw [(live_new (heap ++ [some (List.replicate (longoptionsSize + optionSize * n + l) none)]) _ []).touch, bind_ok]
        split
        · simp only [bind_ok]
          generalize List.replicate (longoptionsSize + optionSize * n + l) none = b1
          generalize List.replicate (t.entries.foldl (fun n h => n + 3 * (h.shortopts.getD []).length) 2) none = b2
          have hl := (lift_loop (fns := fns) env nargc (':' :: t.entries.flatMap shortChars) lopts av heap.length
            (heap ++ [some b1]).length fuel { g with optind := 0, opterr := false } t (heap ++ [some b1] ++ [some b2]) hs
            ((hav.ext _).ext _) ((live_new heap b1 []).ext _) (live_new (heap ++ [some b1]) b2 [])).1
          revert hl
          cases taggedLoop env nargc (':' :: t.entries.flatMap shortChars) lopts fuel
            { g with optind := 0, opterr := false } t with
          | error e => intro h; have h : _ = _ := h; rw [h]; exact (rfl : _ = _)
          | ok r =>
            rintro ⟨k, e⟩
            rw [e, bind_ok]
            dsimp only
            have e1 : heap ++ [some b1] ++ [some b2] ++ List.replicate k none
                = (heap ++ [some b1]) ++ some b2 :: List.replicate k none := by simp
            rw [e1, free_new, bind_ok]
            have e2 : heap ++ [some b1] ++ none :: List.replicate k none
                = heap ++ some b1 :: none :: List.replicate k none := by simp
            rw [e2, free_new, bind_ok]
            exact ⟨k + 2, by simp [List.replicate_succ]⟩
        · exact (rfl : _ = _)
  · intro r h
    unfold parseTagged at h
    obtain ⟨lopts, _, h⟩ := hbind_ok' h
    obtain ⟨sopts, _, h⟩ := hbind_ok' h
    -- the heap of the simulation does not matter here
    have hl := lift_loop (fns := fns) env nargc sopts lopts 0 0 0 fuel { g with optind := 0, opterr := false } t
      [some []] hs ⟨_, rfl⟩ ⟨_, rfl⟩ ⟨_, rfl⟩
    exact hl.2 _ h

theorem rest_eq (av : Nat) (argv : List CStr) (nargc : Nat) (heap : Heap) (hav : IsLive heap av) :
    ∀ (n optind : Nat) (t : Table σ), nargc - optind = n →
      restErrorsMem av argv nargc optind t heap = restErrors argv nargc optind t := by
  intro n
  induction n with
  | zero =>
    intro optind t h
    unfold restErrorsMem restErrors
    rw [if_neg (by omega), if_neg (by omega)]
  | succ n ih =>
    intro optind t h
    unfold restErrorsMem restErrors
    rw [if_pos (by omega), if_pos (by omega), hav.touch, bind_ok]
    congr 1; funext a
    congr 1; funext t'
    exact ih _ _ (by omega)

theorem lift_untagged {fns : List (Option (ScanFn σ))} (av : Nat) (argv : List CStr) (nargc : Nat) :
    ∀ (n tabindex optind : Nat) (last : Option (Int × CStr × Nat)) (t : Table σ) (heap : Heap),
      (nargc - optind) + (t.entries.length - tabindex) = n → SimFns fns t.entries → IsLive heap av →
      LiftH heap (parseUntagged argv nargc tabindex optind last t)
        (parseUntaggedMem fns av argv nargc tabindex optind last t heap) := by
  intro n
  induction n using Nat.strongRecOn with
  | ind n ih =>
    intro tabindex optind last t heap hn hs hav
    unfold parseUntagged parseUntaggedMem
    by_cases htab : tabindex < t.entries.length
    · rw [dif_pos htab, dif_pos htab]
      by_cases hopt : optind ≥ nargc
      · rw [dif_pos hopt, dif_pos hopt]; exact .ok
      · rw [dif_neg hopt, dif_neg hopt]
        dsimp only
        have hi : t.entries[tabindex]? = some t.entries[tabindex] := List.getElem?_eq_getElem htab
        have hsim := hs _ _ hi
        have hset := fun p => hs.set hi p
        split
        · exact ih _ (by omega) _ _ _ _ _ rfl hs hav
        · revert hsim hset
          cases fns[tabindex]?.join with
          | none =>
            cases t.entries[tabindex].scanfn with
            | none => exact fun _ _ => ih _ (by omega) _ _ _ _ _ rfl hs hav
            | some g => exact fun h _ => h.elim
          | some f =>
            cases t.entries[tabindex].scanfn with
            | none => exact fun h _ => h.elim
            | some g =>
              intro hsim hset
              dsimp only
              rw [hav.touch]
              dsimp only
              cases argv[optind]? with
              | none => exact (rfl : _ = _)
              | some a =>
                dsimp only
                have hl := hsim t.entries[tabindex].parent (some a) heap
                revert hl
                cases g t.entries[tabindex].parent (some a) with
                | error e => intro h; have h : _ = _ := h; rw [h]; exact (rfl : _ = _)
                | ok r =>
                  obtain ⟨p, err⟩ := r
                  rintro ⟨k, e⟩
                  rw [e]
                  dsimp only
                  have hlift : ∀ x y, LiftH (heap ++ List.replicate k none) x y →
                      LiftH (α := Nat × Table σ) heap x y := by
                    intro x y h
                    cases x with
                    | error e => exact h
                    | ok r => obtain ⟨k', e'⟩ := h; exact ⟨k + k', by rw [e']; simp [List.append_assoc]⟩
                  split
                  · refine hlift _ _ (ih _ ?_ _ _ _ _ _ rfl (hset p) (hav.ext _))
                    simp; omega
                  · refine hlift _ _ (ih _ ?_ _ _ _ _ _ rfl (hset p) (hav.ext _))
                    simp; omega
    · rw [dif_neg htab, dif_neg htab]
      cases last with
      | none =>
        dsimp only
        rw [rest_eq av argv nargc heap hav _ _ _ rfl]
        exact bind_map_heap _
      | some x =>
        obtain ⟨err, a, i⟩ := x
        dsimp only
        refine .pre fun e _ => ?_
        rw [rest_eq av argv nargc heap hav _ _ _ rfl]
        exact bind_map_heap _

theorem reset_sim {fns : List (Option (ScanFn σ))} : ∀ {es es' : List (Hdr σ)}, resetEntries es = .ok es' →
    es.map (·.scanfn) = es'.map (·.scanfn)
  | [], es', h => by cases h; rfl
  | d :: es, es', h => by
    unfold resetEntries at h
    cases hr : d.resetfn with
    | none =>
      rw [hr] at h
      dsimp only at h
      rw [bind_ok] at h
      obtain ⟨es1, h1, h⟩ := hbind_ok' h
      cases h
      rw [List.map_cons, List.map_cons, reset_sim (fns := fns) h1]
    | some f =>
      rw [hr] at h
      dsimp only at h
      obtain ⟨p, _, h⟩ := hbind_ok' h
      rw [bind_ok] at h
      obtain ⟨es1, h1, h⟩ := hbind_ok' h
      cases h
      rw [List.map_cons, List.map_cons, reset_sim (fns := fns) h1]

theorem lift_parse {fns : List (Option (ScanFn σ))} (env : Bool) (fuel : Nat) (argv : List CStr) (t : Table σ)
    (g : GState) (heap : Heap) (hs : SimFns fns t.entries) :
    LiftH heap (argParse env fuel argv t g) (argParseMem fns env fuel argv t g heap) := by
  unfold argParse argParseMem
  refine .pre fun t1 ht1 => ?_
  have hs1 : SimFns fns t1.entries := by
    unfold argReset at ht1
    obtain ⟨es, he, ht1⟩ := hbind_ok' ht1
    cases ht1
    have hm := reset_sim (fns := fns) he
    intro i h hi
    have : (t.entries.map (·.scanfn))[i]? = some h.scanfn := by rw [hm, List.getElem?_map, hi]; rfl
    rw [List.getElem?_map] at this
    cases hj : t.entries[i]? with
    | none => rw [hj] at this; cases this
    | some d =>
      rw [hj] at this
      simp only [Option.map_some, Option.some.injEq] at this
      rw [← this]
      exact hs i d hj
  split
  · exact .pre fun e _ => .ok
  · simp only [heapMalloc]
    generalize List.replicate (8 * (argv.length + 1)) none = b
    have hav := live_new heap b []
    rw [hav.touch, bind_ok]
    obtain ⟨hl, ho⟩ := lift_tagged (fns := fns) env fuel argv.length heap.length { g with nargv := argv } t1
      (heap ++ [some b]) hs1 hav
    revert hl ho
    cases parseTagged env fuel argv.length { g with nargv := argv } t1 with
    | error e => intro h _; have h : _ = _ := h; rw [h]; exact (rfl : _ = _)
    | ok r =>
      obtain ⟨g2, t2⟩ := r
      rintro ⟨k, e⟩ ho
      rw [e, bind_ok, bind_ok]
      dsimp only
      have hl := lift_untagged (fns := fns) heap.length g2.nargv argv.length _ 0 g2.optind none t2
        (heap ++ [some b] ++ List.replicate k none) rfl (ho _ rfl) (hav.ext _)
      revert hl
      cases parseUntagged g2.nargv argv.length 0 g2.optind none t2 with
      | error e => intro h; have h : _ = _ := h; rw [h]; exact (rfl : _ = _)
      | ok r =>
        obtain ⟨optind, t3⟩ := r
        rintro ⟨k', e'⟩
        rw [e', bind_ok, bind_ok]
        dsimp only
        have e1 : heap ++ [some b] ++ List.replicate k none ++ List.replicate k' none
            = heap ++ some b :: List.replicate (k + k') none := by simp
        rw [e1, free_new]
        split
        · refine .pre fun e _ => ?_
          rw [bind_ok]
          exact ⟨k + k' + 1, by simp [List.replicate_succ]⟩
        · rw [bind_ok]
          exact ⟨k + k' + 1, by simp [List.replicate_succ]⟩

/-! ### scan functions stay installed -/

theorem rest_entries (argv : List CStr) (nargc : Nat) : ∀ (n optind : Nat) (t : Table σ) (r : Nat × Table σ),
    nargc - optind = n → restErrors argv nargc optind t = .ok r → r.2.entries = t.entries := by
  intro n
  induction n with
  | zero =>
    intro optind t r h hr
    unfold restErrors at hr
    rw [if_neg (by omega)] at hr
    cases hr; rfl
  | succ n ih =>
    intro optind t r h hr
    unfold restErrors at hr
    rw [if_pos (by omega)] at hr
    obtain ⟨a, _, hr⟩ := hbind_ok' hr
    obtain ⟨t', ht', hr⟩ := hbind_ok' hr
    rw [ih _ _ _ (by omega) hr, regEnd_entries_mem ht']

theorem sim_untagged {fns : List (Option (ScanFn σ))} (argv : List CStr) (nargc : Nat) :
    ∀ (n tabindex optind : Nat) (last : Option (Int × CStr × Nat)) (t : Table σ) (r : Nat × Table σ),
      (nargc - optind) + (t.entries.length - tabindex) = n → SimFns fns t.entries →
      parseUntagged argv nargc tabindex optind last t = .ok r → SimFns fns r.2.entries := by
  intro n
  induction n using Nat.strongRecOn with
  | ind n ih =>
    intro tabindex optind last t r hn hs hr
    unfold parseUntagged at hr
    by_cases htab : tabindex < t.entries.length
    · rw [dif_pos htab] at hr
      by_cases hopt : optind ≥ nargc
      · rw [dif_pos hopt] at hr; cases hr; exact hs
      · rw [dif_neg hopt] at hr
        dsimp only at hr
        have hi : t.entries[tabindex]? = some t.entries[tabindex] := List.getElem?_eq_getElem htab
        have hset := fun p => hs.set hi p
        split at hr
        · exact ih _ (by omega) _ _ _ _ _ rfl hs hr
        · revert hset hr
          cases t.entries[tabindex].scanfn with
          | none => exact fun _ hr => ih _ (by omega) _ _ _ _ _ rfl hs hr
          | some g =>
            intro hset hr
            dsimp only at hr
            cases ha : argv[optind]? with
            | none => rw [ha] at hr; cases hr
            | some a =>
              rw [ha] at hr
              dsimp only at hr
              cases hg : g t.entries[tabindex].parent (some a) with
              | error e => rw [hg] at hr; cases hr
              | ok q =>
                obtain ⟨p, err⟩ := q
                rw [hg] at hr
                dsimp only at hr
                split at hr
                · refine ih _ ?_ _ _ _ _ _ rfl (hset p) hr
                  simp; omega
                · refine ih _ ?_ _ _ _ _ _ rfl (hset p) hr
                  simp; omega
    · rw [dif_neg htab] at hr
      cases last with
      | none => rw [rest_entries _ _ _ _ _ _ rfl hr]; exact hs
      | some x =>
        obtain ⟨err, a, i⟩ := x
        dsimp only at hr
        obtain ⟨e, _, hr⟩ := hbind_ok' hr
        rw [rest_entries _ _ _ _ _ _ rfl hr]; exact hs

theorem sim_reset {fns : List (Option (ScanFn σ))} {t t1 : Table σ} (hs : SimFns fns t.entries)
    (ht1 : argReset t = .ok t1) : SimFns fns t1.entries := by
  unfold argReset at ht1
  obtain ⟨es, he, ht1⟩ := hbind_ok' ht1
  cases ht1
  have hm := reset_sim (fns := fns) he
  intro i h hi
  have : (t.entries.map (·.scanfn))[i]? = some h.scanfn := by rw [hm, List.getElem?_map, hi]; rfl
  rw [List.getElem?_map] at this
  cases hj : t.entries[i]? with
  | none => rw [hj] at this; cases this
  | some d =>
    rw [hj] at this
    simp only [Option.map_some, Option.some.injEq] at this
    rw [← this]
    exact hs i d hj

theorem sim_parse {fns : List (Option (ScanFn σ))} {env : Bool} {fuel : Nat} {argv : List CStr} {t : Table σ}
    {g : GState} {r : Nat × Table σ × GState} (hs : SimFns fns t.entries) (hr : argParse env fuel argv t g = .ok r) :
    SimFns fns r.2.1.entries := by
  unfold argParse at hr
  obtain ⟨t1, ht1, hr⟩ := hbind_ok' hr
  have hs1 := sim_reset hs ht1
  split at hr
  · obtain ⟨e, _, hr⟩ := hbind_ok' hr
    cases hr; exact hs1
  · obtain ⟨⟨g2, t2⟩, h2, hr⟩ := hbind_ok' hr
    have hs2 := (lift_tagged (fns := fns) env fuel argv.length 0 { g with nargv := argv } t1 [some []] hs1 ⟨_, rfl⟩).2
      _ h2
    dsimp only at hr
    obtain ⟨⟨optind, t3⟩, h3, hr⟩ := hbind_ok' hr
    have hs3 := sim_untagged _ _ _ _ _ _ _ _ rfl hs2 h3
    dsimp only at hr
    split at hr
    · obtain ⟨e, _, hr⟩ := hbind_ok' hr
      cases hr; exact hs3
    · cases hr; exact hs3

end Argtable
