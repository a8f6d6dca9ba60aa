import Verif.Proofs.Life
import Verif.Props.Layout
/-!
# Programs that use the library (C73)
-/

namespace Argtable

open Spec

variable {δ : Type} {lc : Libc δ} {a : Abi} {addr : Nat → Nat} {env : Bool} {w0 w : World δ}

/-- C73.  At every point of every legal program, the blocks of memory that the library has allocated and not released
are exactly those of the objects in tables that the program has not freed; each object has a block of its own, and no
block that existed before has been released or changed. -/
theorem C73_balance (h0 : w0.tables = []) (h : History lc a addr env w0 w) :
    (∀ p, p < w0.heap.length → w.heap[p]? = w0.heap[p]?) ∧
    (∀ p, w0.heap.length ≤ p → (Allocated w.heap p ↔ p ∈ held w)) ∧
    (held w).Nodup ∧ ∀ p ∈ held w, w0.heap.length ≤ p :=
  have H := h.worldOK h0
  ⟨H.old, H.live0, H.nodup0, H.above0⟩

/-- C73.  When the program has freed all its tables, with `arg_freetable` or `arg_free`, all memory has been
released. -/
theorem C73_released (h0 : w0.tables = []) (h : History lc a addr env w0 w) (hf : ∀ T ∈ w.tables, Freed T) :
    Unchanged w0.heap w.heap := by
  have H := h.worldOK h0
  have hh : held w = [] := by
    unfold held
    refine List.flatMap_eq_nil_iff.2 fun T hT => pointers_freed (hf T hT)
  refine ⟨?_, H.old⟩
  have he : w.heap = w0.heap ++ w.heap.drop w0.heap.length := by
    refine List.ext_getElem? fun i => ?_
    by_cases hi : i < w0.heap.length
    · rw [List.getElem?_append_left hi, H.old i hi]
    · rw [List.getElem?_append_right (by omega), List.getElem?_drop]
      congr 1; omega
  rw [he, liveBlocks_append]
  have : liveBlocks (w.heap.drop w0.heap.length) = [] := by
    unfold liveBlocks
    refine List.filterMap_eq_nil_iff.2 fun x hx => ?_
    obtain ⟨j, hj⟩ := List.mem_iff_getElem?.1 hx
    rw [List.getElem?_drop] at hj
    cases x with
    | none => rfl
    | some b =>
      have := (H.live0 (w0.heap.length + j) (by omega)).1 ⟨b, hj⟩
      rw [hh] at this
      cases this
  rw [this, List.append_nil]

/-- C73.  Whatever is legal can be done: no step uses a block that was released or a pointer that is NULL, or releases
a block twice. -/
theorem C73_safe (h0 : w0.tables = []) (h : History lc a addr env w0 w) {op : LifeOp δ} (hl : Permitted lc env w op) :
    ∃ fuel w', lifeStep lc a addr env fuel w op = .ok w' ∧ History lc a addr env w0 w' := by
  obtain ⟨fuel, w', hw⟩ := (world_step (addr := addr) (h.worldOK h0) hl).1
  exact ⟨fuel, w', hw, .step h hl hw⟩

/-- C73.  Even with a command line that leads to an undefined operation, it is one of those of C23, C34 and C35. -/
theorem C73_no_stray (h0 : w0.tables = []) (h : History lc a addr env w0 w) {i : Nat} {T : LTable δ}
    (hi : w.tables[i]? = some T) (hu : Unfreed T) {argv : List CStr} (hargs : CArgs argv.tail) {fuel : Nat} {s : String}
    (hs : lifeStep lc a addr env fuel w (.parse i argv) = .error (.ub s)) : Hazard (.ub s) :=
  ((h.worldOK h0).parse hi hu hargs).2.2 fuel s hs

/-- C73.  `arg_parse` in a program does what it does alone: it returns the same value and fills in the table in the same
way, whatever other tables there are and whatever was done before. -/
theorem C73_parse (h0 : w0.tables = []) (h : History lc a addr env w0 w) {i : Nat} {T : LTable δ}
    (hi : w.tables[i]? = some T) (hu : Unfreed T) {argv : List CStr} (hargs : CArgs argv.tail) {fuel : Nat} {w' : World δ}
    (hs : lifeStep lc a addr env fuel w (.parse i argv) = .ok w') :
    ∃ r, Returns env argv T.t w.g r ∧ w'.ret = r.1 ∧ w'.g = r.2.2 ∧ w'.out = w.out ∧
      w'.tables[i]? = some { T with t := r.2.1 } ∧ (∀ j, j ≠ i → w'.tables[j]? = w.tables[j]?) ∧
      Unchanged w.heap w'.heap := by
  obtain ⟨r, heap, h1, rfl, h2, -⟩ := ((h.worldOK h0).parse hi hu hargs).2.1 fuel w' hs
  exact ⟨r, h1, rfl, rfl, rfl, List.getElem?_set_self (lt_of_getElem? hi),
    fun j hj => List.getElem?_set_ne (fun h => hj h.symm), h2⟩

/-- C73.  A table is either usable or completely freed: each function that frees leaves all pointers NULL, and nothing
else makes a pointer NULL. -/
theorem C73_whole (h0 : w0.tables = []) (h : History lc a addr env w0 w) {T : LTable δ} (hT : T ∈ w.tables) :
    T.ptrs.length = T.makers.length + 1 ∧ (Freed T ∨ Unfreed T) := by
  have H := (h.worldOK h0).tabs T hT
  refine ⟨H.len, H.ptrs.imp id ?_⟩
  rintro ⟨ps, h1, -⟩ p hp
  rw [h1] at hp
  obtain ⟨x, -, rfl⟩ := List.mem_map.1 hp
  simp

/-- As long as the table has not been freed, the block of each object has the size that its constructor asked for. -/
theorem blocks_sized (h0 : w0.tables = []) (h : History lc a addr env w0 w) {T : LTable δ} (hT : T ∈ w.tables)
    (hu : Unfreed T) :
    List.Forall₂ (fun p n => ∃ q b, p = some q ∧ w.heap[q]? = some (some b) ∧ b.length = n) T.ptrs
      (T.makers.map (·.size a) ++ [(endBlock a 0 T.maxerr).size]) := by
  have H := (h.worldOK h0).tabs T hT
  rcases H.ptrs with hf | ⟨ps, h1, h2⟩
  · have := H.len
    cases hp : T.ptrs with
    | nil => rw [hp] at this; simp at this
    | cons p ps => exact absurd (hf p (by simp [hp])) (hu p (by simp [hp]))
  · rw [h1, List.forall₂_map_left_iff]
    exact h2.imp fun p n hx => ⟨p, _, rfl, hx, List.length_replicate⟩

theorem forall₂_getElem? {α β : Type} {R : α → β → Prop} {l : List α} {l' : List β} (h : List.Forall₂ R l l') {i : Nat}
    {x : α} {b : β} (hx : l[i]? = some x) (hb : l'[i]? = some b) : R x b := by
  induction h generalizing i with
  | nil => cases hx
  | cons h1 _ ih =>
    cases i with
    | zero => cases hx; cases hb; exact h1
    | succ i => exact ih hx hb

theorem maker_size (ok : AbiOK a) {m : Maker} (hm : Maker.Sound m) (hfit : Maker.room a (Maker.limit m) m < 2 ^ a.bits) :
    (m.size a : Int) = Maker.room a (Maker.limit m) m := by
  cases m with
  | lit => rfl
  | rem => rfl
  | int so lo dt mn mx gl =>
    simp only [Maker.size, Maker.room, Maker.limit, foolproof_max, intBlock] at hfit ⊢
    exact sizeT_mul hm.2.2.2.2 ok.int.1 hfit
  | dbl so lo dt mn mx gl =>
    simp only [Maker.size, Maker.room, Maker.limit, foolproof_max, dblBlock] at hfit ⊢
    have := hm.2.2.2.2
    exact sizeT_mul (by omega) ok.dbl.1 hfit
  | str so lo dt mn mx gl =>
    simp only [Maker.size, Maker.room, Maker.limit, foolproof_max, strBlock] at hfit ⊢
    exact sizeT_mul hm.2.2.2.2 ok.ptr.1 hfit
  | date so lo fm dt mn mx gl =>
    simp only [Maker.size, Maker.room, Maker.limit, foolproof_max, dateBlock] at hfit ⊢
    exact sizeT_mul hm.2.2.2.2.2 ok.tm.1 hfit
  | rex so lo pat dt mn mx ic gl =>
    simp only [Maker.size, Maker.room, Maker.limit, foolproof_max, rexBlock] at hfit ⊢
    have h0 := hm.2.2.2.2.2.1
    have h1 : (0 : Int) ≤ max mn mx * a.ptr := by positivity
    have e : (a.sizeT (a.argRex + a.privhdr) : Int) = a.argRex + a.privhdr := sizeT_eq (by positivity) (by linarith)
    have e' : a.sizeT (a.argRex + a.privhdr) = a.argRex + a.privhdr := by exact_mod_cast e
    rw [e', sizeT_mul h0 ok.ptr.1 (by push_cast; exact hfit)]
    push_cast; rfl
  | file so lo dt mn mx gl =>
    simp only [Maker.size, Maker.room, Maker.limit, foolproof_max, fileBlock] at hfit ⊢
    have h0 := hm.2.2.2.2
    generalize max mn mx = n at hfit h0 ⊢
    have h1 : (0 : Int) ≤ n * a.ptr := by positivity
    have hpt : (1 : Int) ≤ a.ptr := by exact_mod_cast ok.ptr.1
    have hle : n ≤ n * a.ptr := by nlinarith
    have hh : (0 : Int) ≤ a.argFile := by positivity
    have e0 : (a.sizeT (a.ptr * a.sizeT n) : Int) = n * a.ptr := by
      rw [sizeT_eq h0 (by linarith), mul_comm, sizeT_eq h1 (by linarith)]
    rw [e0, sizeT_eq (k := a.argFile + n * a.ptr) (by linarith) (by linarith),
      sizeT_eq (k := a.argFile + n * a.ptr + n * a.ptr) (by linarith) (by linarith), sizeT_eq (by linarith) (by linarith)]
    ring

theorem end_size (ok : AbiOK a) {n : Int} (h0 : 0 ≤ n) (hfit : endRoom a n < 2 ^ a.bits) :
    ((endBlock a 0 n).size : Int) = endRoom a n := by
  unfold endRoom at hfit ⊢
  have h1 : (0 : Int) ≤ n * a.ptr := by positivity
  have h1' : (0 : Int) ≤ n * a.int := by positivity
  have hpt : (1 : Int) ≤ a.ptr := by exact_mod_cast ok.ptr.1
  have hle : n ≤ n * a.ptr := by nlinarith
  have hh : (0 : Int) ≤ a.argEnd := by positivity
  have e0 : (a.sizeT (a.sizeT n * a.ptr) : Int) = n * a.ptr := by
    rw [sizeT_eq h0 (by linarith), sizeT_eq h1 (by linarith)]
  have e1 : (a.sizeT (a.sizeT n * a.int) : Int) = n * a.int := by
    rw [sizeT_eq h0 (by linarith), sizeT_eq h1' (by linarith)]
  simp only [endBlock]
  rw [e0, e1, sizeT_eq (k := a.argEnd + n * a.int) (by linarith) (by linarith),
    sizeT_eq (k := a.argEnd + n * a.int + n * a.ptr) (by linarith) (by linarith), sizeT_eq (by linarith) (by linarith)]
  ring

/-- C73.  As long as the table has not been freed, the pointer of each object leads to a block that has exactly the room
for the object with all the values that it may take (its `maxcount`, whatever the program has parsed since), provided
that this number of bytes can be expressed as a `size_t`. -/
theorem C73_blocks (ok : AbiOK a) (h0 : w0.tables = []) (h : History lc a addr env w0 w) {T : LTable δ} (hT : T ∈ w.tables)
    (hu : Unfreed T) {i p : Nat} {m : Maker} {x : Hdr (Obj δ)} (hm : T.makers[i]? = some m) (hx : T.t.entries[i]? = some x)
    (hp : T.ptrs[i]? = some (some p)) (hfit : Maker.room a x.maxcount m < 2 ^ a.bits) :
    x.maxcount = Maker.limit m ∧ ∃ b, w.heap[p]? = some (some b) ∧ (b.length : Int) = Maker.room a x.maxcount m := by
  have H := (h.worldOK h0).tabs T hT
  have hcap := forall₂_getElem? H.cap hm hx
  rw [hcap] at hfit
  have hb := forall₂_getElem? (blocks_sized h0 h hT hu) hp (b := m.size a) (by
    rw [List.getElem?_append_left (by rw [List.length_map]; exact lt_of_getElem? hm), List.getElem?_map, hm]; rfl)
  obtain ⟨q, b, e, h1, h2⟩ := hb
  cases e
  refine ⟨hcap, b, h1, ?_⟩
  rw [hcap, h2]
  exact maker_size ok (H.sound m (List.mem_of_getElem? hm)) hfit

/-- C73.  The same for the `arg_end`. -/
theorem C73_end (ok : AbiOK a) (h0 : w0.tables = []) (h : History lc a addr env w0 w) {T : LTable δ} (hT : T ∈ w.tables)
    (hu : Unfreed T) (hfit : endRoom a T.t.fin.maxcount < 2 ^ a.bits) :
    ∃ p b, T.ptrs.getLast? = some (some p) ∧ w.heap[p]? = some (some b) ∧
      (b.length : Int) = endRoom a T.t.fin.maxcount := by
  have H := (h.worldOK h0).tabs T hT
  have hmax : T.t.fin.maxcount = T.maxerr := by
    have := H.fin.max
    have := H.more
    omega
  have hlen := H.len
  have hl : T.ptrs[T.makers.length]? = T.ptrs.getLast? := by rw [List.getLast?_eq_getElem?, hlen]; rfl
  obtain ⟨o, ho⟩ : ∃ o, T.ptrs[T.makers.length]? = some o := ⟨_, List.getElem?_eq_getElem (by omega)⟩
  have hb := forall₂_getElem? (blocks_sized h0 h hT hu) ho (b := (endBlock a 0 T.maxerr).size) (by
    rw [List.getElem?_append_right (by simp)]; simp)
  obtain ⟨q, b, rfl, h1, h2⟩ := hb
  refine ⟨q, b, hl.symm.trans ho, h1, ?_⟩
  rw [hmax] at hfit ⊢
  rw [h2]
  exact end_size ok (by have := H.more; omega) hfit

/-- C73.  `arg_nullcheck` returns 0 for a table that can be used and 1 for one that was freed. -/
theorem C73_nullcheck (h0 : w0.tables = []) (h : History lc a addr env w0 w) {T : LTable δ} (hT : T ∈ w.tables) :
    (Unfreed T → argNullcheck (flagsOf T.ptrs w.heap) (some T.ptrs) = .ok 0) ∧
    (Freed T → argNullcheck (flagsOf T.ptrs w.heap) (some T.ptrs) = .ok 1) := by
  have hW := h.worldOK h0
  have H := hW.tabs T hT
  have hlen := H.len
  constructor
  · intro hu
    rcases H.ptrs with hf | ⟨ps, h1, h2⟩
    · cases hp : T.ptrs with
      | nil => rw [hp] at hlen; simp at hlen
      | cons p ps => exact absurd (hf p (by simp [hp])) (hu p (by simp [hp]))
    · have hne : ps ≠ [] := by rintro rfl; rw [h1] at hlen; simp at hlen
      obtain ⟨objs, last, rfl⟩ : ∃ objs last, ps = objs ++ [last] :=
        ⟨ps.dropLast, ps.getLast hne, (List.dropLast_append_getLast hne).symm⟩
      have hal : ∀ p ∈ objs ++ [last], Allocated w.heap p := fun p hp =>
        H.held_alloc (by rw [h1, pointers_map]; exact hp)
      have hnd : (objs ++ [last]).Nodup := by
        obtain ⟨i, hi⟩ := List.mem_iff_getElem?.1 hT
        obtain ⟨pre, post, hs1, -, -⟩ := held_split hi
        have := hW.nodup0
        rw [hs1, h1, pointers_map] at this
        exact (List.nodup_append.1 (List.nodup_append.1 this).1).2.1
      have hlast : (List.map some (objs ++ [last])).getLast? = some (some last) := by simp
      refine (C49_zero _ _).2 ⟨T.ptrs, objs.length, last, rfl, ?_, by rw [h1]; simp, ?_⟩
      · intro j hj
        refine ⟨objs[j], by rw [h1]; simp [List.getElem?_append_left, hj], ?_⟩
        have hm := List.getElem_mem hj
        rw [flagsOf_ne (hal _ (by simp)), h1, hlast]
        have := (List.nodup_append.1 hnd).2.2 _ hm last (by simp)
        simpa using fun h => this (Eq.symm h)
      · rw [flagsOf_ne (hal last (by simp)), h1, hlast]; simp
  · intro hf
    refine (C49_one _ _).2 fun l hl => ?_
    cases hl
    refine ⟨0, fun j hj => by omega, ?_⟩
    cases hp : T.ptrs with
    | nil => rw [hp] at hlen; simp at hlen
    | cons p ps => rw [hf p (by simp [hp])]; rfl

/-- C73.  The condition is needed: a table that was freed cannot be used; freeing it once more is harmless. -/
theorem C73_dangling (h0 : w0.tables = []) (h : History lc a addr env w0 w) {i : Nat} {T : LTable δ}
    (hi : w.tables[i]? = some T) (hf : Freed T) (fuel : Nat) :
    (∀ argv, lifeStep lc a addr env fuel w (.parse i argv) = .error (.ub "NULL pointer in the table")) ∧
    (∀ prog, lifeStep lc a addr env fuel w (.errors i prog) = .error (.ub "NULL pointer in the table")) ∧
    lifeStep lc a addr env fuel w (.freetable i) = .ok w ∧ lifeStep lc a addr env fuel w (.free i) = .ok w := by
  have H := (h.worldOK h0).tabs T (List.mem_of_getElem? hi)
  have hlen := H.len
  have htouch : touchAll T.ptrs w.heap = .error (.ub "NULL pointer in the table") := by
    cases hp : T.ptrs with
    | nil => rw [hp] at hlen; simp at hlen
    | cons p ps => rw [hf p (by simp [hp])]; rfl
  have hset : w.tables.set i T = w.tables := by
    refine List.ext_getElem? fun j => ?_
    by_cases hj : j = i
    · subst hj; rw [List.getElem?_set_self (lt_of_getElem? hi), hi]
    · rw [List.getElem?_set_ne (fun h => hj h.symm)]
  have hfree : ∀ f, (f = argFreetable T.ptrs.length ∨ f = argFree) →
      freeWith f T.ptrs w.heap = .ok (T.ptrs, w.heap) := by
    intro f hff
    have hne : T.ptrs ≠ [] := by intro e; rw [e] at hlen; simp at hlen
    have key : ∃ s, f ⟨T.ptrs, flagsOf T.ptrs w.heap, []⟩ = .ok s ∧ s.freed = [] ∧ s.table = T.ptrs := by
      rcases hff with rfl | rfl
      · exact freetable_freed hf _
      · exact ⟨_, argFree_freed hf hne _, rfl, rfl⟩
    obtain ⟨s, e1, e2, e3⟩ := key
    unfold freeWith
    rw [e1, hbind_ok, e2, e3]; rfl
  refine ⟨fun argv => ?_, fun prog => ?_, ?_, ?_⟩
  · unfold lifeStep; dsimp only; rw [World.table_eq hi, hbind_ok, htouch]; rfl
  · unfold lifeStep; dsimp only; rw [World.table_eq hi, hbind_ok, htouch]; rfl
  · unfold lifeStep; dsimp only; rw [World.table_eq hi, hbind_ok, hfree _ (.inl rfl), hbind_ok]
    dsimp only
    rw [show ({ T with ptrs := T.ptrs } : LTable δ) = T from rfl, hset]
  · unfold lifeStep; dsimp only; rw [World.table_eq hi, hbind_ok, hfree _ (.inr rfl), hbind_ok]
    dsimp only
    rw [show ({ T with ptrs := T.ptrs } : LTable δ) = T from rfl, hset]

/-- C73.  `arg_freetable` and `arg_free` release exactly the blocks of the table, and set all pointers to NULL. -/
theorem C73_free (h0 : w0.tables = []) (h : History lc a addr env w0 w) {i : Nat} {T : LTable δ}
    (hi : w.tables[i]? = some T) (fuel : Nat) {op : LifeOp δ} (hop : op = .freetable i ∨ op = .free i) :
    ∃ w' ptrs, lifeStep lc a addr env fuel w op = .ok w' ∧ w'.tables = w.tables.set i { T with ptrs } ∧
      (∀ p ∈ ptrs, p = none) ∧ (∀ q ∈ pointers T.ptrs, ¬ Allocated w'.heap q) ∧
      ∀ q, q ∉ pointers T.ptrs → w'.heap[q]? = w.heap[q]? := by
  have hW := h.worldOK h0
  have key : ∀ f, (f = argFreetable T.ptrs.length ∨ f = argFree) → ∃ ptrs heap, freeWith f T.ptrs w.heap = .ok (ptrs, heap) ∧
      (∀ p ∈ ptrs, p = none) ∧ (∀ q ∈ pointers T.ptrs, ¬ Allocated heap q) ∧
      ∀ q, q ∉ pointers T.ptrs → heap[q]? = w.heap[q]? := by
    intro f hf
    obtain ⟨ptrs, heap, e1, e2, e3, e4⟩ := hW.freed hi hf
    refine ⟨ptrs, heap, e1, e2, fun q hq hc => ?_, e4⟩
    obtain ⟨pre, post, hs1, hs2, -⟩ := held_split hi
    have hmem : q ∈ held w := by rw [hs1]; simp [hq]
    have := (e3.live0 q (hW.above0 q hmem)).1 hc
    rw [hs2, pointers_freed e2, List.append_nil] at this
    have hnd := hW.nodup0
    rw [hs1] at hnd
    have ⟨h12, h3, hx⟩ := List.nodup_append.1 hnd
    rcases List.mem_append.1 this with hp | hp
    · exact (List.nodup_append.1 h12).2.2 q hp q hq rfl
    · exact hx q (by simp [hq]) q hp rfl
  rcases hop with rfl | rfl
  · obtain ⟨ptrs, heap, e1, e2, e3, e4⟩ := key _ (.inl rfl)
    refine ⟨{ w with heap, tables := w.tables.set i { T with ptrs } }, ptrs, ?_, rfl, e2, e3, e4⟩
    unfold lifeStep; dsimp only; rw [World.table_eq hi, hbind_ok, e1]; rfl
  · obtain ⟨ptrs, heap, e1, e2, e3, e4⟩ := key _ (.inr rfl)
    refine ⟨{ w with heap, tables := w.tables.set i { T with ptrs } }, ptrs, ?_, rfl, e2, e3, e4⟩
    unfold lifeStep; dsimp only; rw [World.table_eq hi, hbind_ok, e1]; rfl

/-- C73.  A program can always make another table; its objects are those that the constructors make. -/
theorem C73_make (h0 : w0.tables = []) (h : History lc a addr env w0 w) {ms : List Maker} {maxerr : Int}
    {junk : ErrRec} {junkCount : Nat} (hl : Permitted lc env w (.make ms maxerr junk junkCount)) (fuel : Nat) :
    ∃ w' T, lifeStep lc a addr env fuel w (.make ms maxerr junk junkCount) = .ok w' ∧ w'.tables = w.tables ++ [T] ∧
      Unfreed T ∧ List.Forall₂ (fun m h => ∃ p, m.header lc a p = .ok h) ms T.t.entries ∧
      argEnd maxerr junk junkCount = .ok T.t.fin := by
  obtain ⟨h1, h2, h3⟩ := hl
  obtain ⟨w', T, e1, e2, e3, -, -, e4, e5, -⟩ := (h.worldOK h0).made (addr := addr) (env := env) h1 h2 h3 junk junkCount
  exact ⟨w', T, e1 fuel, e2, e3, e4.imp fun _ _ hx => hx.made, e5⟩

/-- C73.  A step that prints adds the text to the stream and does nothing else. -/
theorem C73_print (h0 : w0.tables = []) (h : History lc a addr env w0 w) {op : LifeOp δ} (hl : Permitted lc env w op)
    {text : CStr} (ht : textOf w op = some (.ok text)) (fuel : Nat) :
    ∃ w', lifeStep lc a addr env fuel w op = .ok w' ∧ w'.out = w.out ++ text ∧ w'.tables = w.tables ∧ w'.g = w.g ∧
      w'.ret = w.ret ∧ Unchanged w.heap w'.heap :=
  print_step (h.worldOK h0) hl ht fuel

/-! ## The hypotheses are met

The program makes the demonstration table, sets `ARG_HASOPTVALUE`, parses `prog -a file1 file2`, prints the syntax and
frees the table.  At the end all memory has been released. -/

def Demo.makers : List Maker :=
  [.lit (some (cs "a")) (some (cs "all,almost")) 0 2 (some (cs "list everything")),
   .lit (some (cs "vw")) (some (cs "verbose")) 0 3 none,
   .int (some (cs "n")) (some (cs "number")) none 0 2 (some (cs "how many")),
   .str (some (cs "o")) (some (cs "out,output")) none 0 1 none,
   .str (some (cs "p")) (some (cs "paint")) none 0 1 none,
   .rem none (some (cs "some remark")),
   .file none none (some (cs "FILE")) 1 3 (some (cs "input files"))]

def Demo.world : World Unit := ⟨[some [none, none], none], cs "", Demo.g0, 0, []⟩

theorem Demo.makers_sound : ∀ m ∈ Demo.makers, Maker.Sound m := by
  intro m hm
  simp only [Demo.makers, List.mem_cons, List.not_mem_nil, or_false] at hm
  rcases hm with rfl | rfl | rfl | rfl | rfl | rfl | rfl <;> simp [Maker.Sound, CText, cs]

theorem Demo.makers_wf : WF (Demo.makers.map Maker.decl) := by
  intro d hd
  simp only [Demo.makers, List.map_cons, List.map_nil, List.mem_cons, List.not_mem_nil, or_false] at hd
  rcases hd with rfl | rfl | rfl | rfl | rfl | rfl | rfl <;>
    exact ⟨by intro s h; cases h <;> decide, by intro s h; cases h <;> decide⟩

/-- The hypotheses of `C73_blocks` and `C73_end`, for the object of `-n`, which can take two values. -/
example (addr : Nat → Nat) : ∃ (w : World Unit) (T : LTable Unit) (x : Hdr (Obj Unit)) (p : Nat) (b c : List (Option Char)),
    History Demo.lc Demo.lp64 addr false Demo.world w ∧ T ∈ w.tables ∧ Unfreed T ∧ T.t.entries[2]? = some x ∧
    T.ptrs[2]? = some (some p) ∧ w.heap[p]? = some (some b) ∧ b.length = Demo.lp64.argInt + 2 * 4 ∧
    c.length = Demo.lp64.argEnd + 4 * 4 + 2 * (4 * 8) := by
  have H0 : History Demo.lc Demo.lp64 addr false Demo.world Demo.world := .start
  have l1 : Permitted Demo.lc false Demo.world (.make Demo.makers 4 ⟨77, .endt, some (cs "rubbish")⟩ 0) :=
    ⟨Demo.makers_sound, Demo.makers_wf, by decide⟩
  obtain ⟨w1, T1, s1, t1, u1, m1, -, e1, f1, -⟩ := (H0.worldOK rfl).made (addr := addr) (env := false)
      l1.1 l1.2.1 l1.2.2 ⟨77, .endt, some (cs "rubbish")⟩ 0
  have H1 := History.step H0 l1 (s1 0)
  have hT : T1 ∈ w1.tables := by rw [t1]; simp
  have W := (H1.worldOK rfl).tabs T1 hT
  have hlen : T1.ptrs.length = 8 := by rw [W.len, m1]; rfl
  obtain ⟨x, hx⟩ : ∃ x, T1.t.entries[2]? = some x :=
    ⟨_, List.getElem?_eq_getElem (by rw [← e1.length_eq]; decide)⟩
  obtain ⟨o, ho⟩ : ∃ o, T1.ptrs[2]? = some o := ⟨_, List.getElem?_eq_getElem (by omega)⟩
  obtain ⟨p, rfl⟩ := Option.ne_none_iff_exists'.1 (u1 o (List.mem_of_getElem? ho))
  have hm : T1.makers[2]? = some (.int (some (cs "n")) (some (cs "number")) none 0 2 (some (cs "how many"))) := by
    rw [m1]; rfl
  have hc : x.maxcount = 2 := forall₂_getElem? W.cap hm hx
  obtain ⟨-, b, hb, hn⟩ := C73_blocks Demo.lp64_ok rfl H1 hT u1 hm hx ho (by rw [hc]; decide)
  have hf : T1.t.fin.maxcount = 4 := (congrArg EndTbl.maxcount (Except.ok.inj f1)).symm
  obtain ⟨-, c, -, -, hd⟩ := C73_end Demo.lp64_ok rfl H1 hT u1 (by rw [hf]; decide)
  refine ⟨w1, T1, x, p, b, c, H1, hT, u1, hx, ho, hb, ?_, ?_⟩
  · rw [hc] at hn; exact Int.ofNat.inj hn
  · rw [hf] at hd; exact Int.ofNat.inj hd

example (a : Abi) (addr : Nat → Nat) : ∃ w : World Unit, History Demo.lc a addr false Demo.world w ∧ w.ret = 0 ∧
    w.out = cs " [-av] [-n <int>] [-n <int>] [-o <string>] [-p [<string>]] FILE [FILE] [FILE]\n" ∧
    Unchanged Demo.world.heap w.heap := by
  have H0 : History Demo.lc a addr false Demo.world Demo.world := .start
  -- make
  have l1 : Permitted Demo.lc false Demo.world (.make Demo.makers 4 ⟨77, .endt, some (cs "rubbish")⟩ 0) :=
    ⟨Demo.makers_sound, Demo.makers_wf, by decide⟩
  obtain ⟨w1, T1, s1, t1, u1, e1, f1⟩ := C73_make rfl H0 l1 0
  have H1 := History.step H0 l1 s1
  obtain ⟨⟨es, fin⟩, ht⟩ : ∃ t, T1.t = t := ⟨_, rfl⟩
  rw [ht] at e1 f1
  cases f1
  simp only [Demo.makers, List.forall₂_cons_left_iff, List.forall₂_nil_left_iff] at e1
  obtain ⟨ha, _, ⟨_, ea⟩, ⟨hv, _, ⟨_, ev⟩, ⟨hn, _, ⟨_, en⟩, ⟨ho, _, ⟨_, eo⟩, ⟨hp, _, ⟨_, ep⟩, ⟨hr, _, ⟨_, er⟩,
    ⟨hf, _, ⟨_, ef⟩, rfl, rfl⟩, rfl⟩, rfl⟩, rfl⟩, rfl⟩, rfl⟩, rfl⟩ := e1
  cases ea; cases ev; cases en; cases eo; cases ep; cases er; cases ef
  have i1 : w1.tables[0]? = some T1 := by rw [t1]; rfl
  -- preset
  have p2 : List.Forall₂ (Preset Demo.lc) T1.t.entries Demo.entries := by
    rw [ht]
    have hl := Demo.live AnyPat
    simp only [Demo.entries, List.mem_cons, List.not_mem_nil, or_false, forall_eq_or_imp, forall_eq] at hl
    obtain ⟨k1, k2, k3, k4, k5, k6, k7⟩ := hl
    exact .cons ⟨rfl, k1⟩ (.cons ⟨rfl, k2⟩ (.cons ⟨rfl, k3⟩ (.cons ⟨rfl, k4⟩ (.cons ⟨rfl, k5⟩ (.cons ⟨rfl, k6⟩
      (.cons ⟨rfl, k7⟩ .nil))))))
  obtain ⟨_, s2, -, rfl⟩ := (H1.worldOK rfl).preset (addr := addr) (env := false) i1 u1 p2
  have H2 := History.step H1 (op := .preset 0 Demo.entries) ⟨T1, i1, u1, p2⟩ (s2 0)
  have g2 : w1.g = Demo.g0 ∧ w1.out = cs "" := by
    obtain ⟨w', T', x1, -, -, -, -, -, -, x2, x3, -⟩ := (H0.worldOK rfl).made (addr := addr) (env := false)
      l1.1 l1.2.1 l1.2.2 ⟨77, .endt, some (cs "rubbish")⟩ 0
    rw [x1 0] at s1
    cases s1
    exact ⟨x2, x3⟩
  generalize hw2 : ({ w1 with tables := w1.tables.set 0 { T1 with t := { T1.t with entries := Demo.entries } } } : World Unit)
    = w2 at H2
  have i2 : w2.tables[0]? = some { T1 with t := { T1.t with entries := Demo.entries } } := by
    rw [← hw2, t1]; rfl
  have hT2 : ({ T1.t with entries := Demo.entries } : Table (Obj Unit)) = Demo.table := by rw [ht]; rfl
  rw [hT2] at i2
  have g2' : w2.g = Demo.g0 ∧ w2.out = cs "" ∧ w2.tables.length = 1 := by
    rw [← hw2, t1]; exact ⟨g2.1, g2.2, rfl⟩
  -- parse
  obtain ⟨r, hr, hs⟩ := readsAs_of_tokenize (t := Demo.table) (env := false) Demo.finOK Demo.wf
    (argv := [cs "prog", cs "-a", cs "file1", cs "file2"]) (by decide)
    (evs := [.deliver 0 none]) (ops := [cs "file1", cs "file2"]) (by decide) Demo.g0
  have l3 : Permitted Demo.lc false w2 (.parse 0 [cs "prog", cs "-a", cs "file1", cs "file2"]) :=
    ⟨_, i2, u1, by decide, r, by rw [g2'.1]; exact hr⟩
  obtain ⟨n3, w3, s3, H3⟩ := C73_safe rfl H2 l3
  obtain ⟨r', hr', v1, -, v2, v3, v4, -⟩ := C73_parse rfl H2 i2 u1 (by decide) s3
  rw [g2'.1] at hr'
  cases hr.unique hr'
  -- print
  have p4 : printSyntax r.2.1.entries (some (cs "\n"))
      = .ok (cs " [-av] [-n <int>] [-n <int>] [-o <string>] [-p [<string>]] FILE [FILE] [FILE]\n") := by
    rw [hs.entries]; decide +kernel
  have l4 : Permitted Demo.lc false w3 (.syntax 0 (some (cs "\n"))) :=
    ⟨_, v3, u1, _, p4, by decide +kernel, by decide +kernel⟩
  obtain ⟨w4, s4, o4, t4, -, r4, -⟩ := C73_print rfl H3 l4 (by
    show w3.tables[0]?.map _ = _
    rw [v3]
    exact congrArg some p4) 0
  have H4 := History.step H3 l4 s4
  -- free
  rw [← t4] at v3
  obtain ⟨w5, ptrs, s5, t5, z5, -, -⟩ := C73_free rfl H4 v3 0 (.inl rfl)
  have H5 := History.step H4 (op := .freetable 0) ⟨_, v3⟩ s5
  have e5 : w5.ret = w4.ret ∧ w5.out = w4.out := by
    unfold lifeStep at s5
    dsimp only at s5
    obtain ⟨T, -, s5⟩ := hbind_ok' s5
    obtain ⟨⟨x, y⟩, -, s5⟩ := hbind_ok' s5
    cases s5
    exact ⟨rfl, rfl⟩
  refine ⟨w5, H5, ?_, ?_, C73_released rfl H5 fun T hT => ?_⟩
  · rw [e5.1, r4, v1]; exact hs.ret
  · rw [e5.2, o4, v2, g2'.2.1]; rfl
  · have hlen : w5.tables.length = 1 := by
      rw [t5, List.length_set, t4]
      have : ∀ j, j ≠ 0 → w3.tables[j]? = none := fun j hj => by
        rw [v4 j hj]; exact List.getElem?_eq_none (by omega)
      have h1 := List.getElem?_eq_none_iff.1 (this 1 (by decide))
      have h0 := lt_of_getElem? v3
      rw [t4] at h0
      omega
    obtain ⟨j, hj⟩ := List.mem_iff_getElem?.1 hT
    have := lt_of_getElem? hj
    have : j = 0 := by omega
    subst this
    rw [t5, List.getElem?_set_self (lt_of_getElem? v3)] at hj
    cases hj
    exact z5

end Argtable
