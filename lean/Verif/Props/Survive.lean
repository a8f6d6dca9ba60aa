import Verif.Proofs.LifeOom
import Verif.Props.Life
import Verif.Props.Shortage
/-!
# Programs that survive running out of memory (C81)
-/

namespace Argtable

open Spec

variable {δ : Type} {lc : Libc δ} {a : Abi} {addr : Nat → Nat} {env : Bool} {s0 s s' : Prog δ} {n objSize : Nat} {sup : Supply}

/-- C81.  Whatever is legal can be done, however little memory there is: the call returns or runs out of memory, and no
step uses a block that was released or a pointer that is NULL, or releases a block twice.  With enough memory, it
returns. -/
theorem C81_safe (h0 : s0.w.tables = []) (h1 : s0.stubs = []) (h : Survives lc a addr env s0 s n) {act : Act δ}
    (hl : MayDo lc env s act) (sup : Supply) (objSize : Nat) :
    ∃ s' b, Happens sup objSize lc a addr env s act s' b ∧ (Plenty sup → b = true) ∧
      Survives lc a addr env s0 s' (if b then n else n + 1) := by
  have H := h.progOK h0 h1
  obtain ⟨s', b, hs⟩ := H.can (addr := addr) hl sup objSize
  refine ⟨s', b, hs, fun hp => ?_, .step h hl hs⟩
  cases b with
  | true => rfl
  | false => exact absurd hp ((H.step hl hs).2 rfl)

/-- C81.  At every point, the blocks that are allocated are those that the program can reach and free, and at most six for
each call that has run out of memory; no block is counted twice, and no block that existed at the start has been released
or changed. -/
theorem C81_balance (h0 : s0.w.tables = []) (h1 : s0.stubs = []) (h : Survives lc a addr env s0 s n) :
    (∀ p, p < s0.w.heap.length → s.w.heap[p]? = s0.w.heap[p]?) ∧
    ∃ lost, lost.length ≤ 6 * n ∧ (owned s ++ lost).Nodup ∧
      ∀ p, s0.w.heap.length ≤ p → (Spec.Allocated s.w.heap p ↔ p ∈ owned s ++ lost) := by
  obtain ⟨-, lost, l1, l2⟩ := h.progOK h0 h1
  refine ⟨l2.old, lost, l1, ?_, ?_⟩
  · have := l2.nodup
    rwa [← List.append_assoc] at this
  · have := l2.live
    rwa [← List.append_assoc] at this

theorem liveBlocks_le (l : Heap) : ∀ (base : Nat) (lost : List Nat),
    (∀ j b, l[j]? = some (some b) → base + j ∈ lost) → (liveBlocks l).length ≤ lost.length := by
  induction l with
  | nil => exact fun _ _ _ => Nat.zero_le _
  | cons x l ih =>
    intro base lost h
    cases x with
    | none =>
      refine ih (base + 1) lost fun j b hj => ?_
      have := h (j + 1) b hj
      rwa [show base + (j + 1) = base + 1 + j by omega] at this
    | some b =>
      have hm : base ∈ lost := h 0 b rfl
      have := ih (base + 1) (lost.erase base) fun j c hj => by
        have := h (j + 1) c hj
        refine (List.mem_erase_of_ne (by omega)).2 ?_
        rwa [show base + (j + 1) = base + 1 + j by omega] at this
      rw [List.length_erase_of_mem hm] at this
      have hp := List.length_pos_of_mem hm
      show (liveBlocks l).length + 1 ≤ _
      omega

/-- C81.  When the program has freed all its tables, and the arrays whose construction was broken off, then at most six
blocks are lost for each call that has run out of memory; so if none has, all memory has been released. -/
theorem C81_released (h0 : s0.w.tables = []) (h1 : s0.stubs = []) (h : Survives lc a addr env s0 s n)
    (hf : ∀ T ∈ s.w.tables, Freed T) (hs : ∀ ptrs ∈ s.stubs, ∀ p ∈ ptrs, p = none) :
    (∀ p, p < s0.w.heap.length → s.w.heap[p]? = s0.w.heap[p]?) ∧
    (liveBlocks s.w.heap).length ≤ (liveBlocks s0.w.heap).length + 6 * n := by
  obtain ⟨-, lost, l1, l2⟩ := h.progOK h0 h1
  have hh : held s.w = [] := by
    unfold held
    refine List.flatMap_eq_nil_iff.2 fun T hT => pointers_freed (hf T hT)
  have hh2 : s.stubs.flatMap pointers = [] := by
    refine List.flatMap_eq_nil_iff.2 fun ptrs hp => ?_
    rw [List.eq_replicate_of_mem (hs ptrs hp)]
    exact pointers_replicate _
  refine ⟨l2.old, ?_⟩
  have he : s.w.heap = s0.w.heap ++ s.w.heap.drop s0.w.heap.length := by
    refine List.ext_getElem? fun i => ?_
    by_cases hi : i < s0.w.heap.length
    · rw [List.getElem?_append_left hi, l2.old i hi]
    · rw [List.getElem?_append_right (by omega), List.getElem?_drop]
      congr 1; omega
  rw [he, liveBlocks_append, List.length_append]
  have := liveBlocks_le (s.w.heap.drop s0.w.heap.length) s0.w.heap.length lost fun j b hj => by
    rw [List.getElem?_drop] at hj
    have := (l2.live (s0.w.heap.length + j) (by omega)).1 ⟨b, hj⟩
    rwa [hh, hh2] at this
  omega

theorem unchanged_live {h h1 h2 : Heap} (u1 : Unchanged h h1) (u2 : Unchanged h h2) (p : Nat) (b : List Byte) :
    h1[p]? = some (some b) ↔ h2[p]? = some (some b) := by
  obtain ⟨k1, rfl⟩ := grown_of_unchanged u1
  obtain ⟨k2, rfl⟩ := grown_of_unchanged u2
  have : ∀ k, (h ++ List.replicate k none)[p]? = some (some b) ↔ h[p]? = some (some b) := by
    intro k
    by_cases hp : p < h.length
    · rw [List.getElem?_append_left hp]
    · rw [List.getElem?_append_right (by omega), List.getElem?_replicate, List.getElem?_eq_none (l := h) (by omega)]
      by_cases hk : p - h.length < k
      · rw [if_pos hk]; simp
      · rw [if_neg hk]
  rw [this, this]

/-- C81.  A call that returns has done what it does when memory is plentiful: same return value, output and tables, and the
same blocks are allocated. -/
theorem C81_returns (h0 : s0.w.tables = []) (h1 : s0.stubs = []) (h : Survives lc a addr env s0 s n) {op : LifeOp δ}
    (hl : MayDo lc env s (.call op)) (hs : Happens sup objSize lc a addr env s (.call op) s' true) :
    s'.stubs = s.stubs ∧ ∃ fuel heap, lifeStep lc a addr env fuel s.w op = .ok { s'.w with heap } ∧
      ∀ (p : Nat) (b : List Byte), heap[p]? = some (some b) ↔ s'.w.heap[p]? = some (some b) := by
  obtain ⟨-, lost, l1, l2⟩ := h.progOK h0 h1
  generalize hb : true = b at hs
  generalize ha : Act.call op = act at hs
  cases hs with
  | quiet hq hs => cases ha; exact ⟨rfl, _, _, hs, fun _ _ => Iff.rfl⟩
  | @made ms maxerr junk junkCount w hs =>
    cases ha
    have := osim_makeTable (lc := lc) (a := a) (addr := addr) (env := env) sup s.w hl.1 maxerr junk junkCount 0
    rw [hs] at this
    exact ⟨rfl, 0, w.heap, this, fun _ _ => Iff.rfl⟩
  | unmade => cases hb
  | @parsed i T argv r heap hi ht hr =>
    cases ha
    obtain ⟨T', hi', hu, hargs, r', hr'⟩ := hl
    rw [hi] at hi'
    cases hi'
    have hT := l2.tabs T (List.mem_of_getElem? hi)
    obtain ⟨r1, r2⟩ := C71_never_silent hT.fin hT.live hr
    obtain ⟨p1, p2, -⟩ := l2.parse (addr := addr) (env := env) hi hu hargs
    obtain ⟨fuel, w', e⟩ := p1 r r1
    obtain ⟨q, heap', q1, rfl, q2, -⟩ := p2 fuel w' e
    cases q1.unique r1
    exact ⟨rfl, fuel, heap', e, unchanged_live q2 r2⟩
  | unparsed => cases hb
  | @printed op T f text cmds heap out b hf ht hx hc hap hss =>
    cases ha
    cases hb
    obtain ⟨w', e1, e2, e3, e4, e5, e6⟩ := print_step (addr := addr) l2 hl hx 0
    obtain ⟨T', f', out', cmds', -, -, x, -, -, x1, x2⟩ := fill_ok l2 hl hx
    cases x
    obtain ⟨heap', out', b', p1, -, p3, -⟩ := (h.progOK h0 h1).print (sup := sup) (objSize := objSize) x1 x2 hap
    rw [hss] at p1
    cases p1
    obtain ⟨p3, p4⟩ := p3 rfl
    refine ⟨rfl, 0, w'.heap, ?_, unchanged_live e6 p4⟩
    rw [e1]
    obtain ⟨_, _, _, _, _⟩ := w'
    dsimp only at e2 e3 e4 e5
    rw [e2, e3, e4, e5, ← p3]
  | cleared => cases ha

/-- C81.  A call that runs out of memory writes nothing, returns nothing and releases nothing; memory was short. -/
theorem C81_panic (h0 : s0.w.tables = []) (h1 : s0.stubs = []) (h : Survives lc a addr env s0 s n) {act : Act δ}
    (hl : MayDo lc env s act) (hs : Happens sup objSize lc a addr env s act s' false) :
    ¬ Plenty sup ∧ s'.w.out = s.w.out ∧ s'.w.ret = s.w.ret ∧
    (∀ (p : Nat) (b : List Byte), s.w.heap[p]? = some (some b) → s'.w.heap[p]? = some (some b)) ∧
    Interrupted s act s' := by
  obtain ⟨-, lost, l1, l2⟩ := h.progOK h0 h1
  refine ⟨((h.progOK h0 h1).step hl hs).2 rfl, ?_⟩
  have old : ∀ {k heap}, Grown k s.w.heap heap → ∀ (p : Nat) (b : List Byte), s.w.heap[p]? = some (some b) → heap[p]? = some (some b) := by
    rintro k heap ⟨l, rfl, -⟩ p b hp
    rw [List.getElem?_append_left (lt_of_getElem? hp)]
    exact hp
  generalize hb : false = b at hs
  cases hs with
  | quiet => cases hb
  | made => cases hb
  | parsed => cases hb
  | cleared => cases hb
  | @unmade ms maxerr junk junkCount ps heap hs =>
    have := osim_makeTable (lc := lc) (a := a) (addr := addr) (env := env) sup s.w hl.1 maxerr junk junkCount 0
    rw [hs] at this
    obtain ⟨hpl, hless, h4, g1, g2⟩ := this
    dsimp only at hless g1 g2
    refine ⟨rfl, rfl, ?_, rfl, _, rfl, by simp; omega⟩
    obtain ⟨x, rfl⟩ := g1.ext
    obtain ⟨y, hy, -⟩ := g2
    dsimp only
    intro p b hp
    rw [hy, List.append_assoc, List.getElem?_append_left (lt_of_getElem? hp)]
    exact hp
  | @unparsed i T argv c hi ht hc =>
    have hT := l2.tabs T (List.mem_of_getElem? hi)
    obtain ⟨fr, l, e, g⟩ := C71_state hT.fin hT.live hc
    exact ⟨rfl, rfl, old g, rfl, T, c.t, hi, rfl, fr, by rw [e.max, hT.fin.max]⟩
  | @printed op T f text cmds heap out b hf ht hx hc hap hss =>
    cases hb
    obtain ⟨T', f', out', cmds', -, -, x, -, -, x1, x2⟩ := fill_ok l2 hl hx
    cases x
    obtain ⟨heap', out', b', p1, -, -, p4, -⟩ := (h.progOK h0 h1).print (sup := sup) (objSize := objSize) x1 x2 hap
    rw [hss] at p1
    cases p1
    obtain ⟨p3, p4⟩ := p4 rfl
    refine ⟨p3, rfl, old p4, ?_⟩
    cases op <;> first | exact ⟨rfl, rfl⟩ | cases hx

/-- C81.  A table that `arg_parse` was filling in when memory ran out can be parsed again, and what comes out is the same
as if that call had not been made (for date formats that do not depend on what the date was before, as in C09). -/
theorem C81_again (h0 : s0.w.tables = []) (h1 : s0.stubs = []) (h : Survives lc a addr env s0 s n) {i : Nat}
    {argv : List CStr} (hl : MayDo lc env s (.call (.parse i argv)))
    (hs : Happens sup objSize lc a addr env s (.call (.parse i argv)) s' false) {T T' : LTable δ} (hT : s.w.tables[i]? = some T)
    (hT' : s'.w.tables[i]? = some T') (hsteady : ∀ h ∈ T.t.entries, Steady lc h) {argv' : List CStr} (hargs : CArgs argv'.tail)
    (g g' : GState) :
    (∀ r, Returns env argv' T.t g r → ∃ r', Returns env argv' T'.t g' r' ∧ SameOutcome r r') ∧
    (∀ r', Returns env argv' T'.t g' r' → ∃ r, Returns env argv' T.t g r ∧ SameOutcome r r') := by
  obtain ⟨-, lost, l1, l2⟩ := h.progOK h0 h1
  generalize hb : false = b at hs
  generalize ha : Act.call (.parse i argv) = act at hs
  cases hs with
  | quiet => cases hb
  | made => cases hb
  | parsed => cases hb
  | cleared => cases hb
  | unmade => cases ha
  | printed hf => cases ha; cases hf
  | @unparsed i T0 argv c hi ht hc =>
    cases ha
    rw [hi] at hT
    cases hT
    dsimp only at hT'
    rw [List.getElem?_set_self (lt_of_getElem? hi)] at hT'
    cases hT'
    have hT := l2.tabs _ (List.mem_of_getElem? hi)
    obtain ⟨T', hi', -, hargs', -⟩ := hl
    exact C71_recover hT.fin hT.wf hsteady hT.live (.panicked .refl hargs' hc) env argv' hargs g g'

/-- C81.  A table is either completely freed, or usable: all its pointers lead to blocks of the sizes that the constructors
asked for, whatever has run out of memory since. -/
theorem C81_whole (h0 : s0.w.tables = []) (h1 : s0.stubs = []) (h : Survives lc a addr env s0 s n) {T : LTable δ}
    (hT : T ∈ s.w.tables) :
    T.ptrs.length = T.makers.length + 1 ∧ (Freed T ∨
      List.Forall₂ (fun p n => ∃ q b, p = some q ∧ s.w.heap[q]? = some (some b) ∧ b.length = n) T.ptrs
        (T.makers.map (·.size a) ++ [(endBlock a 0 T.maxerr).size])) := by
  obtain ⟨-, lost, l1, l2⟩ := h.progOK h0 h1
  have H := l2.tabs T hT
  refine ⟨H.len, H.ptrs.imp id ?_⟩
  rintro ⟨ps, e1, e2⟩
  rw [e1, List.forall₂_map_left_iff]
  exact e2.imp fun p n hx => ⟨p, _, rfl, hx, List.length_replicate⟩

/-- C81.  If memory runs out while a table is constructed, then the array has the pointers to the objects of the first
constructors, each to a block of the size that the constructor asks for, and NULL from there on; `arg_nullcheck` returns
1 for it. -/
theorem C81_stub {ms : List Maker}
    {maxerr : Int} {junk : ErrRec} {junkCount : Nat} (hl : MayDo lc env s (.call (.make ms maxerr junk junkCount)))
    (hs : Happens sup objSize lc a addr env s (.call (.make ms maxerr junk junkCount)) s' false) :
    ∃ ps : List Nat, ps.length ≤ ms.length ∧
      s'.stubs = s.stubs ++ [ps.map some ++ List.replicate (ms.length + 1 - ps.length) none] ∧
      List.Forall₂ (fun p m => ∃ b, s'.w.heap[p]? = some (some b) ∧ b.length = m.size a) ps (ms.take ps.length) ∧
      argNullcheck (flagsOf (ps.map some ++ List.replicate (ms.length + 1 - ps.length) none) s'.w.heap)
        (some (ps.map some ++ List.replicate (ms.length + 1 - ps.length) none)) = .ok 1 := by
  generalize hb : false = b at hs
  generalize ha : Act.call (.make ms maxerr junk junkCount) = act at hs
  cases hs with
  | quiet => cases hb
  | made => cases hb
  | parsed => cases hb
  | cleared => cases hb
  | unparsed => cases ha
  | printed hf => cases ha; cases hf
  | @unmade ms maxerr junk junkCount ps heap hs =>
    cases ha
    have := osim_makeTable (lc := lc) (a := a) (addr := addr) (env := env) sup s.w hl.1 maxerr junk junkCount 0
    rw [hs] at this
    obtain ⟨hpl, hless, h4, g1, l, hl, -⟩ := this
    dsimp only at hless g1 hl ⊢
    have hsz : List.Forall₂ (fun p (m : Maker) => ∃ b, heap[p]? = some (some b) ∧ b.length = m.size a) ps (ms.take ps.length) := by
      have := List.forall₂_map_right_iff.1 g1.size
      refine this.imp fun p m hp => ⟨List.replicate (m.size a) none, ?_, List.length_replicate⟩
      rw [hl, List.getElem?_append_left (lt_of_getElem? hp)]
      exact hp
    refine ⟨ps, hless, rfl, hsz, (C49_one _ _).2 fun l hl => ⟨ps.length, fun j hj => ⟨ps[j], ?_, ?_⟩, ?_⟩⟩
    · cases hl; rw [List.getElem?_append_left (by simpa using hj)]; simp [hj]
    · rw [show ms.length + 1 - ps.length = ms.length - ps.length + 1 by omega]
      obtain ⟨b, hb, -⟩ := forall₂_getElem? hsz (List.getElem?_eq_getElem hj)
        (b := (ms.take ps.length)[j]'(by simp; omega)) (List.getElem?_eq_getElem _)
      exact flagsOf_stub ⟨b, hb⟩
    · cases hl
      rw [List.getElem?_append_right (by simp), List.getElem?_replicate, if_pos (by simp; omega)]

/-- C81.  `arg_freetable` and `arg_free` free such an array: they release exactly the blocks that it points to, and set all
its pointers to NULL. -/
theorem C81_clear (h0 : s0.w.tables = []) (h1 : s0.stubs = []) (h : Survives lc a addr env s0 s n) {j : Nat}
    {ptrs : List (Option Nat)} (hj : s.stubs[j]? = some ptrs) (old : Bool) (sup : Supply) (objSize : Nat) :
    ∃ heap, Happens sup objSize lc a addr env s (.clear j old)
        ⟨{ s.w with heap }, s.stubs.set j (List.replicate ptrs.length none)⟩ true ∧
      (∀ q, some q ∈ ptrs → ¬ Spec.Allocated heap q) ∧ ∀ q, some q ∉ ptrs → heap[q]? = s.w.heap[q]? := by
  obtain ⟨H, lost, h2, h3⟩ := h.progOK h0 h1
  obtain ⟨ps, k, rfl⟩ := H _ (List.mem_of_getElem? hj)
  have hpp := (flatMap_set (y := List.replicate (ps.length + (k + 1)) none) hj (pointers_replicate _))
  rw [pointers_stub] at hpp
  have h4 := h3.perm (hpp.append_right lost)
  rw [List.append_assoc] at h4
  have hnd := h4.nodup
  have hal : ∀ p ∈ ps, Spec.Allocated s.w.heap p := fun p hp =>
    (h4.live p (h4.above p (by simp [hp]))).2 (by simp [hp])
  have hnd : ps.Nodup := (List.nodup_append.1 (List.nodup_append.1 hnd).2.1).1
  obtain ⟨heap', e1, e2, e3⟩ := freeStub_ok (k := k) hnd hal old
  have hlen : (ps.map some ++ List.replicate (k + 1) (none : Option Nat)).length = ps.length + (k + 1) := by simp
  refine ⟨heap', by rw [hlen]; exact .cleared hj e1, fun q hq => ?_, fun q hq => ?_⟩
  · have : q ∈ ps := by simpa [List.mem_replicate] using hq
    rintro ⟨b, hb⟩
    rw [e3, if_pos this] at hb
    cases hb
  · have : q ∉ ps := fun hc => hq (by simp [hc])
    rw [e3, if_neg this]

/-! ## The hypotheses are met

The program constructs the demonstration table with too little memory for the seventh object, so that the array has six
pointers; frees it; constructs the table again, with success; and parses a command line when there is no memory at all. -/

namespace SurviveDemo

def junk : ErrRec := ⟨77, .endt, some (cs "rubbish")⟩

theorem broken (addr : Nat → Nat) : ∃ heap, makeTableOom (upTo 150) Demo.lc Demo.lp64 addr Demo.world Demo.makers 4 junk 0 =
    .error (.panic ([2, 3, 4, 5, 6, 7], heap)) := ⟨_, rfl⟩

/-- The table as the constructors make it. -/
def fresh : Table (Obj Unit) :=
  match makeTableOom (upTo 300) Demo.lc Demo.lp64 (fun _ => 0) Demo.world Demo.makers 4 junk 0 with
  | .ok w => (w.tables.head?.map (·.t)).getD ⟨[], Demo.fin⟩
  | .error _ => ⟨[], Demo.fin⟩

theorem works (addr : Nat → Nat) (w : World Unit) : ∃ w' T, makeTableOom (upTo 300) Demo.lc Demo.lp64 addr w Demo.makers 4 junk 0 =
    .ok w' ∧ w'.tables = w.tables ++ [T] ∧ w'.g = w.g ∧ T.t = fresh ∧ Unfreed T := by
  refine ⟨_, _, rfl, rfl, rfl, rfl, ?_⟩
  intro p hp
  simp only [List.map_cons, List.map_nil, List.cons_append, List.nil_append, List.mem_cons, List.not_mem_nil, or_false] at hp
  rcases hp with rfl | rfl | rfl | rfl | rfl | rfl | rfl | rfl <;> simp

/-- Without memory for the copy of `argv`, `arg_parse` cannot return. -/
theorem unparsable {t : Table (Obj Unit)} {argv : List CStr} {g : GState} {heap heap' : Heap} {r : Nat × Table (Obj Unit) × GState}
    (ha : argv ≠ []) : ¬ ReturnsOom (upTo 0) env argv t g heap r heap' := by
  rintro ⟨fns, fuel, -, h⟩
  have hne : ¬ argv.length = 0 := by simpa using ha
  unfold argParseOom at h
  cases hr : argReset t with
  | error e => rw [hr] at h; cases h
  | ok t' =>
    rw [hr] at h
    have h : (if argv.length = 0 then _ else _ : OM (Crash (Obj Unit)) _) = _ := h
    rw [if_neg hne] at h
    have hm : mallocOom (upTo 0) (8 * (argv.length + 1)) heap = .error (.panic heap) := by
      unfold mallocOom upTo; rw [if_neg (by simp)]
    rw [hm] at h
    cases h

example (addr : Nat → Nat) : ∃ s s' : Prog Unit, ∃ T, Survives Demo.lc Demo.lp64 addr false ⟨Demo.world, []⟩ s 1 ∧
    s.stubs = [List.replicate 8 none] ∧ s.w.tables = [T] ∧
    MayDo Demo.lc false s (.call (.parse 0 [cs "prog", cs "-a", cs "file1"])) ∧
    Happens (upTo 0) 24 Demo.lc Demo.lp64 addr false s (.call (.parse 0 [cs "prog", cs "-a", cs "file1"])) s' false ∧
    Survives Demo.lc Demo.lp64 addr false ⟨Demo.world, []⟩ s' 2 ∧ ∀ h ∈ T.t.entries, Steady Demo.lc h := by
  obtain ⟨heap1, e1⟩ := broken addr
  have l1 : MayDo Demo.lc false ⟨Demo.world, []⟩ (.call (.make Demo.makers 4 junk 0)) :=
    ⟨Demo.makers_sound, Demo.makers_wf, by decide⟩
  have S1 := Survives.step .start l1 (Happens.unmade (objSize := 24) (env := false) e1)
  obtain ⟨heap2, e2, -, -⟩ := C81_clear rfl rfl S1 (j := 0) rfl true (upTo 0) 24
  have S2 := Survives.step S1 (act := .clear 0 true) Nat.one_pos e2
  obtain ⟨w3, T, e3, t3, g3, f3, u3⟩ := works addr { Demo.world with heap := heap2 }
  have l3 : MayDo Demo.lc false ⟨{ Demo.world with heap := heap2 }, [List.replicate 8 none]⟩ (.call (.make Demo.makers 4 junk 0)) := l1
  have S3 : Survives Demo.lc Demo.lp64 addr false ⟨Demo.world, []⟩ ⟨w3, [List.replicate 8 none]⟩ 1 := Survives.step S2 l3 (Happens.made (objSize := 24) (env := false) e3)
  obtain ⟨-, lost, -, P3⟩ := S3.progOK rfl rfl
  have i3 : w3.tables[0]? = some T := by rw [t3]; rfl
  have hT := P3.tabs T (List.mem_of_getElem? i3)
  obtain ⟨r, hr, hs⟩ := readsAs_of_tokenize (t := fresh) (env := false) (f3 ▸ hT.fin) (f3 ▸ hT.wf)
    (argv := [cs "prog", cs "-a", cs "file1"]) (by decide)
    (evs := [.deliver 0 none]) (ops := [cs "file1"]) (by decide) Demo.g0
  have hr : Returns false [cs "prog", cs "-a", cs "file1"] T.t w3.g r := by rw [f3, g3]; exact hr
  have l4 : Permitted Demo.lc false w3 (.parse 0 [cs "prog", cs "-a", cs "file1"]) :=
    ⟨T, i3, u3, by decide, r, hr⟩
  obtain ⟨c, hc⟩ : ∃ c, Panics (upTo 0) false [cs "prog", cs "-a", cs "file1"] T.t w3.g w3.heap c := by
    rcases C71_outcome hT.fin hT.live (upTo 0) w3.heap hr with ⟨h, e⟩ | h
    · exact absurd e (unparsable (by decide))
    · exact h
  have H4 := Happens.unparsed (s := ⟨w3, [List.replicate 8 none]⟩) (objSize := 24) (lc := Demo.lc) (a := Demo.lp64)
    (addr := addr) i3 (unfreed_touch hT u3) hc
  refine ⟨⟨w3, [List.replicate 8 none]⟩, _, T, S3, rfl, t3, l4, H4,
    Survives.step S3 (act := .call (.parse 0 [cs "prog", cs "-a", cs "file1"])) l4 H4, fun h hh => .other h (hT.live h hh) ?_⟩
  rw [f3] at hh
  have : ∀ h ∈ fresh.entries, isDate h.parent = false := by
    rw [← List.forall_mem_map (f := fun h : Hdr (Obj Unit) => isDate h.parent) (P := fun b => b = false)]
    decide +kernel
  exact this h hh

end SurviveDemo

end Argtable
