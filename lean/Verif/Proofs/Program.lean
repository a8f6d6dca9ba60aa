import Verif.Spec.Program
import Verif.Proofs.Several
import Verif.Proofs.Life
import Verif.Proofs.Cmd
import Verif.Proofs.LifeOom
import Verif.Proofs.Decode
import Verif.Proofs.Help
/-!
# A program that uses all parts of the library
-/

namespace Argtable
open Spec

variable {δ P C : Type}

/-! ### whose blocks -/

theorem mode_blocks {heap : Heap} {d : Dstr} {s : CStr} {O : List Nat} {p : List (Nat × CStr)} (h : DMode heap d s O p) :
    O = blockOf d := by
  unfold blockOf
  cases h with
  | inline h1 h2 h3 => rw [h1, h2, h3]
  | const a h1 h2 h3 => rw [h1, h2, h3]
  | dynamic a h1 h2 h3 => rw [h1, h2, h3]
  | custom a k h1 h2 h3 => rw [h1, h2, h3]
  | append a m h1 h2 h3 => rw [h1, h2, h3]

theorem HInv.perm_of {base heap : Heap} {O O' : List Nat} (h : HInv base heap O []) (h' : HInv base heap O' []) : O.Perm O' := by
  have sub : ∀ {A B : List Nat}, HInv base heap A [] → HInv base heap B [] → ∀ a ∈ A, a ∈ B := by
    intro A B hA hB a ha
    obtain ⟨h1, b, h2⟩ := hA.own a ha
    rcases hB.live a b h1 h2 with h3 | ⟨s, h3⟩
    · exact h3
    · cases h3
  exact (List.perm_ext_iff_of_nodup h.nodup h'.nodup).2 fun a => ⟨sub h h' a, sub h' h a⟩

/-- All blocks of the objects. -/
def ownedBy (n : Nat) (Os : Nat → List Nat) : List Nat := (List.range n).flatMap Os

section shelf
variable {base : Heap} {K : List Nat} {w : Shelf} {ts : List (Option CStr)} {S : List (Nat × List Byte)}
  {cus : Nat → List (Nat × CStr)} {Os : Nat → List Nat} {ps : Nat → List (Nat × CStr)}

theorem SInv.mem_owned (h : SInv base K w ts S cus Os ps) {a : Nat} : a ∈ ownedBy ts.length Os ↔ ∃ i, a ∈ Os i := by
  unfold ownedBy
  rw [List.mem_flatMap]
  constructor
  · rintro ⟨i, -, hi⟩; exact ⟨i, hi⟩
  · rintro ⟨i, hi⟩
    refine ⟨i, List.mem_range.2 ?_, hi⟩
    by_contra hc
    have := (h.gone i fun ⟨s, hs⟩ => by rw [List.getElem?_eq_none (by omega)] at hs; cases hs).1
    rw [this] at hi; cases hi

theorem SInv.nodup_owned (h : SInv base K w ts S cus Os ps) : (ownedBy ts.length Os).Nodup := by
  unfold ownedBy
  refine List.nodup_flatMap.2 ⟨fun i _ => h.nodup i, ?_⟩
  refine (List.pairwise_lt_range (n := ts.length)).imp fun {i j} hij => ?_
  intro a ha hb
  exact h.apart i j a (by omega) ha hb

/-- The blocks of the objects, as their members tell. -/
theorem SInv.owned_eq (h : SInv base K w ts S cus Os ps) : ownedBy ts.length Os = stringBlocks w.objs := by
  have key : ∀ i, i < ts.length → Os i = match w.objs[i]? with | some (some d) => blockOf d | _ => [] := by
    intro i hi
    cases hs : ts[i]? with
    | none => rw [List.getElem?_eq_none_iff] at hs; omega
    | some x =>
      cases x with
      | none =>
        rw [h.void i hs, (h.gone i fun ⟨s, h2⟩ => by rw [hs] at h2; cases h2).1]
      | some s =>
        obtain ⟨d, h1, -, -, -, h2, -⟩ := h.obj i s hs
        rw [h1, mode_blocks h2]
  unfold ownedBy stringBlocks
  have hr : w.objs = (List.range ts.length).map fun i => (w.objs[i]?).getD none := by
    refine List.ext_getElem? fun i => ?_
    rw [List.getElem?_map]
    rcases Nat.lt_or_ge i ts.length with hlt | hge
    · have : i < w.objs.length := by rw [h.len]; exact hlt
      rw [List.getElem?_range hlt, Option.map_some, List.getElem?_eq_getElem this]; rfl
    · rw [List.getElem?_eq_none (by rw [h.len]; exact hge), List.getElem?_eq_none (by simpa using hge)]; rfl
  rw [hr, List.flatMap_map]
  refine List.flatMap_congr fun i hi => ?_
  rw [key i (List.mem_range.1 hi)]
  cases hx : w.objs[i]? with
  | none => rfl
  | some x => cases x <;> rfl

/-- All blocks. -/
theorem SInv.blocks (h : SInv base K w ts S cus Os ps) : HInv base w.heap (ownedBy ts.length Os ++ S.map (·.1)) [] where
  len := h.hlen
  frame := h.frame
  user e he := by cases he
  own a ha := by
    rcases List.mem_append.1 ha with ha | ha
    · obtain ⟨i, hi⟩ := h.mem_owned.1 ha; exact h.own i a hi
    · obtain ⟨e, he, rfl⟩ := List.mem_map.1 ha
      exact ⟨(h.user e he).1, e.2, (h.user e he).2.1⟩
  nodup := by
    refine List.nodup_append.2 ⟨h.nodup_owned, h.sorted.imp (fun h => Nat.ne_of_lt h), ?_⟩
    rintro a ha b hb rfl
    obtain ⟨i, hi⟩ := h.mem_owned.1 ha
    obtain ⟨e, he, rfl⟩ := List.mem_map.1 hb
    exact (h.user e he).2.2 i hi
  live a b h1 h2 := by
    refine Or.inl (List.mem_append.2 ?_)
    rcases h.live a b h1 h2 with h3 | ⟨s, h3⟩
    · exact Or.inl (h.mem_owned.2 h3)
    · exact Or.inr (List.mem_map.2 ⟨_, h3, rfl⟩)
  sorted := by simp

/-- Others change the memory. -/
theorem SInv.rebase (h : SInv base K w ts S cus Os ps) {heap' : Heap} {K' : List Nat} (hlen : base.length ≤ heap'.length)
    (hframe : ∀ a < base.length, heap'[a]? = base[a]?)
    (keep : ∀ a b, base.length ≤ a → a ∉ K → w.heap[a]? = some (some b) → heap'[a]? = some (some b))
    (hK : ∀ a ∈ K', base.length ≤ a ∧ Spec.Allocated heap' a ∧ (a ∈ K ∨ ¬ Spec.Allocated w.heap a)) :
    ∃ S', SInv base K' { w with heap := heap' } ts S' cus Os ps := by
  have notK : ∀ i a, a ∈ Os i → a ∉ K := by
    intro i a ha hk
    obtain ⟨b, hb⟩ := h.kept a hk
    exact (h.user _ hb).2.2 i ha
  have live : ∀ (i : Nat) (s : CStr), ts[i]? = some (some s) → ∀ d : Dstr, w.objs[i]? = some (some d) → ∀ a, d.data.loc = .blk a → Spec.Allocated w.heap a := by
    intro i s hs d hd a ha
    obtain ⟨d', e1, e2, -, -, e5, -⟩ := h.obj i s hs
    rw [hd] at e1; cases e1
    obtain ⟨-, b, hb, -⟩ := mode_blk e2 e5 ha
    exact ⟨b, hb⟩
  refine ⟨otherBlocks base heap' (ownedBy ts.length Os), h.len, h.gone, ?_, hlen, hframe, ?_, ?_, h.nodup, h.apart, ?_,
    otherBlocks_sorted _ _ _, h.log, ?_, h.void⟩
  · intro i s hs
    obtain ⟨d, e1, e2, e3, e4, e5, e6⟩ := h.obj i s hs
    refine ⟨d, e1, e2, e3, e4, e5.mono fun a b ha hb => ?_, fun a ha => ?_⟩
    · have := e6 a (by rw [ha])
      exact keep a b this.1 this.2.2 hb
    · obtain ⟨k1, k2, k3⟩ := e6 a ha
      refine ⟨k1, k2, fun hc => ?_⟩
      rcases (hK a hc).2.2 with h1 | h1
      · exact k3 h1
      · exact h1 (live i s hs d e1 a ha)
  · rintro ⟨a, b⟩ he
    obtain ⟨h1, h2, h3⟩ := mem_otherBlocks.1 he
    exact ⟨h1, h3, fun i hi => h2 (h.mem_owned.2 ⟨i, hi⟩)⟩
  · intro i a ha
    obtain ⟨h1, b, h2⟩ := h.own i a ha
    exact ⟨h1, b, keep a b h1 (notK i a ha) h2⟩
  · intro a b h1 h2
    by_cases ho : a ∈ ownedBy ts.length Os
    · exact Or.inl (h.mem_owned.1 ho)
    · exact Or.inr ⟨b, mem_otherBlocks.2 ⟨h1, ho, h2⟩⟩
  · intro a ha
    obtain ⟨h1, ⟨b, h2⟩, h3⟩ := hK a ha
    refine ⟨b, mem_otherBlocks.2 ⟨h1, fun ho => ?_, h2⟩⟩
    obtain ⟨i, hi⟩ := h.mem_owned.1 ho
    rcases h3 with h3 | h3
    · exact notK i a hi h3
    · obtain ⟨-, b', hb⟩ := h.own i a hi
      exact h3 ⟨b', hb⟩

end shelf

/-! ### writing -/

/-- A function that only appends. -/
theorem Spec.Appending.run_apart {cmds : List DCmd} {text : CStr} (h : Appending cmds text) : '\x00' ∉ text →
    ∀ (base : Heap) (st : DState) (t : CStr) (S : List (Nat × List Byte)) (cus : List (Nat × CStr)),
    DInv base st t S cus → t.length + text.length ≤ 500000000 →
    ∃ st', execAll st cmds = .ok st' ∧ DInv base st' (t ++ text) S cus ∧ (st'.ds.data = st.ds.data ∨ Apart base S st'.ds) := by
  have tail : ∀ {base : Heap} {S : List (Nat × List Byte)} {d1 d2 d3 : Dstr}, (d2.data = d1.data ∨ Apart base S d2) →
      (d3.data = d2.data ∨ Apart base S d3) → (d3.data = d1.data ∨ Apart base S d3) := by
    intro base S d1 d2 d3 h1 h2
    rcases h2 with h2 | h2
    · rcases h1 with h1 | h1
      · exact Or.inl (h2.trans h1)
      · exact Or.inr fun a ha => h1 a (by rw [← h2]; exact ha)
    · exact Or.inr h2
  induction h with
  | nil => intro _ base st t S cus h _; exact ⟨st, rfl, by simpa using h, Or.inl rfl⟩
  | cat s _ ih =>
    intro hn base st t S cus h hl
    simp only [List.mem_append, not_or, List.length_append] at hn hl
    obtain ⟨st2, X, e2, h2, hx, ha⟩ := h.exec_apart (.cat s) hn.1 (by simp only [DCmd.size]; omega)
    obtain rfl : X = [] := by simpa [DCmd.static] using hx
    simp only [DCmd.custom, List.append_nil, DCmd.after] at h2
    obtain ⟨st3, e3, h3, ha3⟩ := ih hn.2 base st2 _ S cus h2 (by simp only [List.length_append]; omega)
    exact ⟨st3, by unfold execAll; rw [e2, bind_ok]; exact e3, by simpa using h3, tail ha ha3⟩
  | catc c _ ih =>
    intro hn base st t S cus h hl
    simp only [List.mem_cons, not_or, List.length_cons] at hn hl
    obtain ⟨st2, X, e2, h2, hx, ha⟩ := h.exec_apart (.catc c) (fun e => hn.1 e.symm) (by simp only [DCmd.size]; omega)
    obtain rfl : X = [] := by simpa [DCmd.static] using hx
    simp only [DCmd.custom, List.append_nil, DCmd.after] at h2
    obtain ⟨st3, e3, h3, ha3⟩ := ih hn.2 base st2 _ S cus h2 (by simp only [List.length_append, List.length_cons, List.length_nil]; omega)
    exact ⟨st3, by unfold execAll; rw [e2, bind_ok]; exact e3, by simpa using h3, tail ha ha3⟩
  | catf s hf _ ih =>
    intro hn base st t S cus h hl
    simp only [List.mem_append, not_or, List.length_append] at hn hl
    obtain ⟨st2, e2, h2, ha⟩ := h.catf_apart hn.1 (by omega) hf
    obtain ⟨st3, e3, h3, ha3⟩ := ih hn.2 base st2 _ S cus h2 (by simp only [List.length_append]; omega)
    refine ⟨st3, ?_, by simpa using h3, tail (Or.inr ha) ha3⟩
    unfold execAll DCmd.exec
    dsimp only
    rw [e2, bind_ok]
    exact e3

/-- Writing to one of the objects. -/
theorem SInv.append {base : Heap} {K : List Nat} {w : Shelf} {ts : List (Option CStr)} {S : List (Nat × List Byte)}
    {cus : Nat → List (Nat × CStr)} {Os : Nat → List Nat} {ps : Nat → List (Nat × CStr)} (h : SInv base K w ts S cus Os ps)
    {k : Nat} {s : CStr} (hs : ts[k]? = some (some s)) {f : DState → M DState} {text : CStr} (hf : Appends f text)
    (hn : '\x00' ∉ text) (hl : s.length + text.length ≤ 500000000) :
    ∃ w' Os' ps', w.on k f = .ok w' ∧ SInv base K w' (ts.set k (some (s ++ text))) S cus Os' ps' := by
  obtain ⟨cmds, h1, h2⟩ := hf
  obtain ⟨w', X, Os', ps', e, hi, hx⟩ := h.on hs (f := f) (s' := s ++ text) (sx := []) (cu := []) (by simpa using hl) (fun d hd => by
    obtain ⟨st', e1, e2, e3⟩ := h1.run_apart hn _ _ _ _ _ hd hl
    exact ⟨st', [], by rw [h2]; exact e1, by simpa using e2, rfl, e3⟩)
  obtain rfl : X = [] := by simpa using hx
  refine ⟨w', Os', ps', e, ?_⟩
  have hc : put cus k (cus k ++ []) = cus := by
    funext j
    by_cases hj : j = k
    · subst hj; rw [put_self, List.append_nil]
    · rw [put_ne _ _ hj]
  rw [hc, List.append_nil] at hi
  exact hi

/-! ### the tables -/

section tables
variable {lc : Libc δ} {a : Abi} {heap0 : Heap} {X : List Nat} {w : World δ} {addr : Nat → Nat} {env : Bool}

theorem WorldOK.hinv (h : WorldOK lc a heap0 X w) : HInv heap0 w.heap (held w ++ X) [] where
  len := h.len
  frame := h.old
  user e he := by cases he
  own p hp := ⟨h.above p hp, (h.live p (h.above p hp)).2 hp⟩
  nodup := h.nodup
  live p b h1 h2 := Or.inl ((h.live p h1).1 ⟨b, h2⟩)
  sorted := by simp

theorem TabOK.moved {heap heap' : Heap} {T : LTable δ} (h : TabOK lc a heap T)
    (hk : ∀ p ∈ pointers T.ptrs, heap'[p]? = heap[p]?) : TabOK lc a heap' T := by
  refine { h with ptrs := h.ptrs.imp id ?_ }
  rintro ⟨ps, h1, h2⟩
  refine ⟨ps, h1, ?_⟩
  rw [h1, pointers_map] at hk
  generalize T.makers.map (·.size a) ++ [(endBlock a 0 T.maxerr).size] = ns at h2
  clear h1
  induction h2 with
  | nil => exact .nil
  | cons hx _ ih => exact .cons (by rw [hk _ (by simp)]; exact hx) (ih fun p hp => hk p (by simp [hp]))

/-- Others change the memory. -/
theorem WorldOK.moved (h : WorldOK lc a heap0 X w) {heap' : Heap} {X' : List Nat} (hh : HInv heap0 heap' (held w ++ X') [])
    (hk : ∀ p ∈ held w, heap'[p]? = w.heap[p]?) : WorldOK lc a heap0 X' { w with heap := heap' } where
  len := hh.len
  old := hh.frame
  live p hp := by
    constructor
    · rintro ⟨b, hb⟩
      rcases hh.live p b hp hb with h1 | ⟨s, h1⟩
      · exact h1
      · cases h1
    · exact fun h1 => (hh.own p h1).2
  nodup := hh.nodup
  above p hp := (hh.own p hp).1
  tabs T hT := (h.tabs T hT).moved fun p hp => hk p (List.mem_flatMap.2 ⟨T, hT, hp⟩)

/-- What a step does not touch. -/
theorem world_frame (h : WorldOK lc a heap0 X w) {op : LifeOp δ} (hl : Permitted lc env w op) {fuel : Nat} {w' : World δ}
    (hs : lifeStep lc a addr env fuel w op = .ok w') : ∀ p, p < w.heap.length → p ∉ held w → w'.heap[p]? = w.heap[p]? := by
  have pr : ∀ text, textOf w op = some (.ok text) → ∀ p, p < w.heap.length → w'.heap[p]? = w.heap[p]? := by
    intro text ht p hp
    obtain ⟨w2, e, -, -, -, -, hu⟩ := print_step (addr := addr) h hl ht fuel
    rw [e] at hs; cases hs
    exact hu.2 p hp
  have fr : ∀ (i : Nat) (T : LTable δ), w.tables[i]? = some T → ∀ p, p ∉ held w → p ∉ pointers T.ptrs := by
    intro i T hi p hp hc
    exact hp (List.mem_flatMap.2 ⟨T, List.mem_of_getElem? hi, hc⟩)
  intro p hp hh
  cases op with
  | make ms maxerr junk junkCount =>
    obtain ⟨h1, h2, h3⟩ := hl
    obtain ⟨xs, heap1, e1, e2, e3⟩ := makeAll_ok (lc := lc) (a := a) (addr := addr) ms w.heap h1
    obtain ⟨l, hl⟩ := e3.ext
    unfold lifeStep heapMalloc at hs
    dsimp only at hs
    rw [e1, hbind_ok] at hs
    dsimp only at hs
    obtain ⟨fin, -, hs⟩ := mbind_ok_inv hs
    cases hs
    dsimp only
    rw [hl, List.append_assoc, List.getElem?_append_left hp]
  | preset i es =>
    obtain ⟨T, hi, hu, hp'⟩ := hl
    obtain ⟨w2, e1, -, e3⟩ := h.preset (addr := addr) (env := env) hi hu hp'
    rw [e1] at hs; cases hs
    rw [e3]
  | parse i argv =>
    obtain ⟨T, hi, hu, hargs, r, hr⟩ := hl
    obtain ⟨-, p2, -⟩ := h.parse (addr := addr) (env := env) hi hu hargs
    obtain ⟨r', heap, -, rfl, hun, -⟩ := p2 fuel w' hs
    exact hun.2 p hp
  | «syntax» i suffix =>
    obtain ⟨T, hi, hu, out, h1, -⟩ := hl
    exact pr out (by simp only [textOf, hi, Option.map_some, h1]) p hp
  | syntaxv i suffix =>
    obtain ⟨T, hi, hu, out, h1, -⟩ := hl
    exact pr out (by simp only [textOf, hi, Option.map_some, h1]) p hp
  | glossary i fmtlen fmt2 =>
    obtain ⟨T, hi, hu, -, out, h1, -⟩ := hl
    exact pr out (by simp only [textOf, hi, Option.map_some, h1]) p hp
  | glossaryGnu i f =>
    obtain ⟨T, hi, hu, out, h1, -⟩ := hl
    exact pr out (by simp only [textOf, hi, Option.map_some, h1]) p hp
  | errors i prog =>
    obtain ⟨T, hi, hu, out, h1, -⟩ := hl
    exact pr out (by simp only [textOf, hi, Option.map_some, h1]) p hp
  | freetable i =>
    obtain ⟨T, hi⟩ := hl
    obtain ⟨ptrs, heap, e1, -, -, e2⟩ := h.freed hi (.inl rfl)
    unfold lifeStep at hs
    dsimp only at hs
    rw [World.table_eq hi, hbind_ok, e1] at hs
    cases hs
    exact e2 p (fr i T hi p hh)
  | free i =>
    obtain ⟨T, hi⟩ := hl
    obtain ⟨ptrs, heap, e1, -, -, e2⟩ := h.freed hi (.inr rfl)
    unfold lifeStep at hs
    dsimp only at hs
    rw [World.table_eq hi, hbind_ok, e1] at hs
    cases hs
    exact e2 p (fr i T hi p hh)

end tables

/-! ### the invariant -/

structure CourseOK (lc : Libc δ) (a : Abi) (limit : Nat → Nat) (heap0 : Heap) (P : Program δ P' C) (l : Ledger P' C) (St : List Nat)
    (S : List (Nat × List Byte)) (cus : Nat → List (Nat × CStr)) (Os : Nat → List Nat) (ps : Nat → List (Nat × CStr)) : Prop where
  shelf : SInv heap0 (held P.world ++ moduleBlocks P) P.shelf l.texts S cus Os ps
  tabs : WorldOK lc a heap0 (ownedBy l.texts.length Os ++ moduleBlocks P ++ St) P.world
  mod : ModInv heap0 P.mod (l.mods.foldl runMod modInit) (held P.world ++ ownedBy l.texts.length Os ++ St)
  both : P.tag.isSome = P.ver.isSome
  reg : RegInv limit P.reg l.cmds
  stat : List.Forall₂ (fun p s => P.world.heap[p]? = some (some (strBytes s))) St l.statics
  cus : ∀ i, cus i = (callsOn i l.strings).flatMap DCmd.custom

section steps
variable {P' C' : Type} {lc : Libc δ} {a : Abi} {limit : Nat → Nat} {heap0 : Heap} {P : Program δ P' C'} {l : Ledger P' C'}
  {St : List Nat} {S : List (Nat × List Byte)} {cus : Nat → List (Nat × CStr)} {Os : Nat → List Nat}
  {ps : Nat → List (Nat × CStr)} {addr : Nat → Nat} {env : Bool}

theorem opt_congr {x : Option Nat} {h h' : Heap} (hk : ∀ q ∈ x.toList, h'[q]? = h[q]?) :
    x.map (fun a => h'[a]?) = x.map (fun a => h[a]?) := by
  cases x with
  | none => rfl
  | some q => rw [Option.map_some, Option.map_some, hk q (by simp)]

/-- Others change the memory. -/
theorem ModInv.moved {m : ModMem} {i : ModInfo} {L L' : List Nat} (h : ModInv heap0 m i L) {heap' : Heap}
    (hh : HInv heap0 heap' (m.name.toList ++ m.tag.toList ++ m.ver.toList ++ L') [])
    (hk : ∀ q ∈ m.name.toList ++ m.tag.toList ++ m.ver.toList, heap'[q]? = m.heap[q]?) :
    ModInv heap0 { m with heap := heap' } i L' where
  inv := hh
  name := by
    rw [← h.name]
    exact opt_congr fun q hq => hk q (by simp only [List.mem_append]; exact Or.inl (Or.inl hq))
  ver := by
    rw [← h.ver]
    exact opt_congr fun q hq => hk q (by simp only [List.mem_append]; exact Or.inr hq)
  nulName := h.nulName
  nulVer := h.nulVer

theorem stat_moved {heap heap' : Heap} : ∀ {St : List Nat} {ss : List CStr},
    List.Forall₂ (fun p s => heap[p]? = some (some (strBytes s))) St ss → (∀ p ∈ St, heap'[p]? = heap[p]?) →
    List.Forall₂ (fun p s => heap'[p]? = some (some (strBytes s))) St ss
  | _, _, .nil, _ => .nil
  | _, _, .cons hx h, hk => .cons (by rw [hk _ (by simp)]; exact hx) (stat_moved h fun p hp => hk p (by simp [hp]))

/-- Something with tables. -/
theorem CourseOK.table (h : CourseOK lc a limit heap0 P l St S cus Os ps) {op : LifeOp δ} (hl : Permitted lc env P.world op)
    {fuel : Nat} {w' : World δ} (hs : lifeStep lc a addr env fuel P.world op = .ok w') :
    ∃ S', CourseOK lc a limit heap0 { P with world := w' } l St S' cus Os ps := by
  have hw := (world_step (addr := addr) h.tabs hl).2 fuel w' hs
  have hf := world_frame (addr := addr) h.tabs hl hs
  have hx : ∀ p ∈ ownedBy l.texts.length Os ++ moduleBlocks P ++ St, w'.heap[p]? = P.world.heap[p]? := by
    intro p hp
    have hn := (List.nodup_append.1 h.tabs.nodup).2.2
    obtain ⟨b, hb⟩ := (h.tabs.live p (h.tabs.above p (by simp only [List.mem_append] at hp ⊢; exact Or.inr hp))).2
      (by simp only [List.mem_append] at hp ⊢; exact Or.inr hp)
    exact hf p (lt_of_live hb) fun hc => hn p hc p hp rfl
  have hm : moduleBlocks ({ P with world := w' } : Program δ P' C') = moduleBlocks P := rfl
  obtain ⟨S', hS'⟩ := h.shelf.rebase (heap' := w'.heap) (K' := held w' ++ moduleBlocks P) hw.len hw.old
    (fun q b h1 h2 h3 => by
      rw [hf q (lt_of_live h3) fun hc => h2 (List.mem_append_left _ hc)]; exact h3)
    (fun q hq => by
      rcases List.mem_append.1 hq with hq | hq
      · have h1 := hw.above q (List.mem_append_left _ hq)
        refine ⟨h1, (hw.live q h1).2 (List.mem_append_left _ hq), ?_⟩
        by_cases ha : Spec.Allocated P.world.heap q
        · rcases List.mem_append.1 ((h.tabs.live q h1).1 ha) with h2 | h2
          · exact Or.inl (List.mem_append_left _ h2)
          · exact absurd rfl ((List.nodup_append.1 hw.nodup).2.2 q hq q h2)
        · exact Or.inr ha
      · have h2 : q ∈ held w' ++ (ownedBy l.texts.length Os ++ moduleBlocks P ++ St) := by
          simp only [List.mem_append]; exact Or.inr (Or.inl (Or.inr hq))
        have h1 := hw.above q h2
        exact ⟨h1, (hw.live q h1).2 h2, Or.inl (List.mem_append_right _ hq)⟩)
  refine ⟨S', hS', ?_, ?_, h.both, h.reg, ?_, h.cus⟩
  · exact hw
  · refine h.mod.moved (heap' := w'.heap) (hw.hinv.perm ?_) fun q hq => hx q ?_
    · show (held w' ++ (ownedBy l.texts.length Os ++ moduleBlocks P ++ St)).Perm
        (moduleBlocks P ++ (held w' ++ ownedBy l.texts.length Os ++ St))
      generalize held w' = A; generalize ownedBy l.texts.length Os = B; generalize moduleBlocks P = D
      simp only [List.append_assoc]
      exact ((List.perm_append_comm_assoc B D St).append_left A).trans (List.perm_append_comm_assoc A D (B ++ St))
    · have : q ∈ moduleBlocks P := hq
      simp only [List.mem_append]; exact Or.inl (Or.inr this)
  · exact stat_moved h.stat fun q hq => hx q (List.mem_append_right _ hq)

theorem callsOn_append (i : Nat) : ∀ cs cs' : List SCmd, callsOn i (cs ++ cs') = callsOn i cs ++ callsOn i cs'
  | [], _ => rfl
  | c :: cs, cs' => by
    have ih := callsOn_append i cs cs'
    cases c with
    | call k d =>
      show (if k = i then d :: callsOn i (cs ++ cs') else callsOn i (cs ++ cs')) =
        (if k = i then d :: callsOn i cs else callsOn i cs) ++ _
      rw [ih]
      split <;> rfl
    | _ => exact ih

/-- Something with an `arg_dstr` object. -/
theorem CourseOK.shelved (h : CourseOK lc a limit heap0 P l St S cus Os ps) {s' : Shelf} {ts' : List (Option CStr)}
    {X : List (Nat × List Byte)} {cus' : Nat → List (Nat × CStr)} {Os' : Nat → List Nat} {ps' : Nat → List (Nat × CStr)}
    {cs' : List SCmd} (hS : SInv heap0 (held P.world ++ moduleBlocks P) s' ts' (S ++ X) cus' Os' ps')
    (hX : X.map (·.2) = (cs'.flatMap SCmd.static).map strBytes)
    (hc : ∀ i, cus' i = cus i ++ (callsOn i cs').flatMap DCmd.custom) :
    CourseOK lc a limit heap0 (P.withShelf s') { l with texts := ts', strings := l.strings ++ cs' } (St ++ X.map (·.1)) (S ++ X)
      cus' Os' ps' := by
  have hp : (S.map (·.1)).Perm (held P.world ++ moduleBlocks P ++ St) := by
    have h1 := h.shelf.blocks.perm_of h.tabs.hinv
    refine (List.perm_append_left_iff (ownedBy l.texts.length Os)).1 (h1.trans ?_)
    generalize held P.world = A; generalize ownedBy l.texts.length Os = B; generalize moduleBlocks P = D
    simp only [List.append_assoc]
    exact List.perm_append_comm_assoc A B (D ++ St)
  have hk : ∀ q ∈ held P.world ++ moduleBlocks P ++ St, s'.heap[q]? = P.world.heap[q]? := by
    intro q hq
    obtain ⟨e, he, rfl⟩ := List.mem_map.1 (hp.mem_iff.2 hq)
    rw [(hS.user e (List.mem_append_left _ he)).2.1]
    exact (h.shelf.user e he).2.1.symm
  have hh : HInv heap0 s'.heap (held P.world ++ (ownedBy ts'.length Os' ++ moduleBlocks P ++ (St ++ X.map (·.1)))) [] := by
    refine hS.blocks.perm ?_
    rw [List.map_append]
    refine ((hp.append_right _).append_left _).trans ?_
    generalize held P.world = A; generalize ownedBy ts'.length Os' = B; generalize moduleBlocks P = D
    simp only [List.append_assoc]
    exact List.perm_append_comm_assoc B A _
  refine ⟨?_, ?_, ?_, h.both, h.reg, ?_, ?_⟩
  · exact hS
  · exact h.tabs.moved hh fun q hq => hk q (by simp only [List.mem_append]; exact Or.inl (Or.inl hq))
  · refine h.mod.moved (heap' := s'.heap) (hh.perm ?_) fun q hq => hk q ?_
    · show (held P.world ++ (ownedBy ts'.length Os' ++ moduleBlocks P ++ (St ++ X.map (·.1)))).Perm
        (moduleBlocks P ++ (held P.world ++ ownedBy ts'.length Os' ++ (St ++ X.map (·.1))))
      generalize held P.world = A; generalize ownedBy ts'.length Os' = B; generalize moduleBlocks P = D
      simp only [List.append_assoc]
      exact ((List.perm_append_comm_assoc B D _).append_left A).trans (List.perm_append_comm_assoc A D _)
    · have : q ∈ moduleBlocks P := hq
      simp only [List.mem_append]; exact Or.inl (Or.inr this)
  · show List.Forall₂ _ _ (List.flatMap SCmd.static (l.strings ++ cs'))
    rw [List.flatMap_append]
    refine List.rel_append (stat_moved h.stat fun q hq => hk q (List.mem_append_right _ hq)) ?_
    have hu : ∀ e ∈ X, s'.heap[e.1]? = some (some e.2) := fun e he => (hS.user e (List.mem_append_right _ he)).2.1
    have key : ∀ (X : List (Nat × List Byte)) (ss : List CStr), X.map (·.2) = ss.map strBytes →
        (∀ e ∈ X, s'.heap[e.1]? = some (some e.2)) →
        List.Forall₂ (fun p s => s'.heap[p]? = some (some (strBytes s))) (X.map (·.1)) ss := by
      intro X
      induction X with
      | nil =>
        intro ss h1 h2
        cases ss with
        | nil => exact .nil
        | cons s ss => cases h1
      | cons e X ih =>
        intro ss h1 h2
        cases ss with
        | nil => cases h1
        | cons s ss =>
          rw [List.map_cons, List.map_cons, List.cons.injEq] at h1
          exact .cons (by rw [← h1.1]; exact h2 e (by simp)) (ih ss h1.2 fun e he => h2 e (by simp [he]))
    exact key X _ hX hu
  · intro i
    rw [hc i, h.cus i]
    show _ = (callsOn i (l.strings ++ cs')).flatMap _
    rw [callsOn_append, List.flatMap_append]

/-- A call of a function of arg_dstr.c. -/
theorem CourseOK.string (h : CourseOK lc a limit heap0 P l St S cus Os ps) {c : SCmd} (hc : c.Sensible l.texts) :
    ∃ s' St' S' cus' Os' ps', c.exec P.shelf = .ok s' ∧
      CourseOK lc a limit heap0 (P.withShelf s') { l with texts := c.after l.texts, strings := l.strings ++ [c] } St' S' cus' Os' ps' := by
  obtain ⟨s', X, cus', Os', ps', e1, e2, e3, e4⟩ := h.shelf.exec c hc
  exact ⟨s', _, _, _, _, _, e1, h.shelved (cs' := [c]) e2 (by simpa using e3) e4⟩

/-- Writing to an object. -/
theorem CourseOK.append (h : CourseOK lc a limit heap0 P l St S cus Os ps) {k : Nat} {s : CStr} (hk : l.texts[k]? = some (some s))
    {f : DState → M DState} {text : CStr} (hf : Appends f text) (hn : '\x00' ∉ text) (hl : s.length + text.length ≤ 500000000) :
    ∃ s' Os' ps', P.shelf.on k f = .ok s' ∧
      CourseOK lc a limit heap0 (P.withShelf s') { l with texts := l.texts.set k (some (s ++ text)) } St S cus Os' ps' := by
  obtain ⟨s', Os', ps', e1, e2⟩ := h.shelf.append hk hf hn hl
  refine ⟨s', Os', ps', e1, ?_⟩
  have := h.shelved (X := []) (cs' := []) (by simpa using e2) rfl (by simp [callsOn])
  simpa using this

/-- Setting name or version. -/
theorem CourseOK.module (h : CourseOK lc a limit heap0 P l St S cus Os ps) {e : ModEvent} (he : e.Sane) :
    ∃ m' S', runModMem P.mod e = .ok m' ∧ CourseOK lc a limit heap0 (P.withMod m') { l with mods := l.mods ++ [e] } St S' cus Os ps := by
  obtain ⟨m', e1, e2, e3⟩ := h.mod.event he
  have hmb : moduleBlocks (P.withMod m') = m'.name.toList ++ m'.tag.toList ++ m'.ver.toList := rfl
  have hh : HInv heap0 m'.heap (moduleBlocks (P.withMod m') ++ (held P.world ++ ownedBy l.texts.length Os ++ St)) [] := e2.inv
  have hh2 : HInv heap0 m'.heap (held P.world ++ (ownedBy l.texts.length Os ++ moduleBlocks (P.withMod m') ++ St)) [] := by
    refine hh.perm ?_
    generalize held P.world = A; generalize ownedBy l.texts.length Os = B; generalize moduleBlocks (P.withMod m') = D
    simp only [List.append_assoc]
    exact (List.perm_append_comm_assoc D A _).trans ((List.perm_append_comm_assoc D B St).append_left A)
  have whose : ∀ q b, heap0.length ≤ q → P.world.heap[q]? = some (some b) →
      q ∈ held P.world ++ moduleBlocks P ∨ q ∈ held P.world ++ ownedBy l.texts.length Os ++ St := by
    intro q b h1 h2
    have := (h.tabs.live q h1).1 ⟨b, h2⟩
    simp only [List.mem_append] at this ⊢
    tauto
  obtain ⟨S', hS'⟩ := h.shelf.rebase (heap' := m'.heap) (K' := held P.world ++ moduleBlocks (P.withMod m')) hh.len hh.frame
    (fun q b h1 h2 h3 => by
      rcases whose q b h1 h3 with h4 | h4
      · exact absurd h4 h2
      · rw [e3 q h4]; exact h3)
    (fun q hq => by
      have hm : q ∈ moduleBlocks (P.withMod m') ++ (held P.world ++ ownedBy l.texts.length Os ++ St) := by
        simp only [List.mem_append] at hq ⊢; tauto
      obtain ⟨h1, h2⟩ := hh.own q hm
      refine ⟨h1, h2, ?_⟩
      rcases List.mem_append.1 hq with hq | hq
      · exact Or.inl (List.mem_append_left _ hq)
      · by_cases ha : Spec.Allocated P.world.heap q
        · obtain ⟨b, hb⟩ := ha
          rcases whose q b h1 hb with h4 | h4
          · exact Or.inl h4
          · exact absurd rfl ((List.nodup_append.1 hh.nodup).2.2 q hq q h4)
        · exact Or.inr ha)
  refine ⟨m', S', e1, hS', ?_, ?_, ?_, h.reg, ?_, h.cus⟩
  · exact h.tabs.moved hh2 fun q hq => e3 q (by simp only [List.mem_append]; exact Or.inl (Or.inl hq))
  · show ModInv heap0 m' ((l.mods ++ [e]).foldl runMod modInit) _
    rw [List.foldl_append]
    exact e2
  · exact both_run [e] (m := P.mod) h.both (by show runModMem P.mod e >>= _ = _; rw [e1]; rfl)
  · exact stat_moved h.stat fun q hq => e3 q (List.mem_append_right _ hq)

theorem CourseOK.about (h : CourseOK lc a limit heap0 P l St S cus Os ps) :
    P.about = .ok ⟨some (progName l.mods), some (progVersion l.mods)⟩ := by
  unfold Program.about
  rw [h.mod.moduleName, moduleName_eq, bind_ok, h.mod.moduleVersion, moduleVersion_eq, bind_ok]

theorem moduleName_again (i : ModInfo) (v : Option CStr) : moduleName ⟨some (moduleName i), v⟩ = moduleName i := by
  have : (moduleName i).length ≠ 0 := by
    unfold moduleName
    cases i.name with
    | none => decide
    | some n =>
      dsimp only
      split
      · decide
      · assumption
  generalize moduleName i = x at this
  unfold moduleName
  exact if_neg this

theorem moduleVersion_again (i : ModInfo) (n : Option CStr) : moduleVersion ⟨n, some (moduleVersion i)⟩ = moduleVersion i := by
  have : (moduleVersion i).length ≠ 0 := by
    unfold moduleVersion
    cases i.ver with
    | none => decide
    | some n =>
      dsimp only
      split
      · decide
      · assumption
  generalize moduleVersion i = x at this
  unfold moduleVersion
  exact if_neg this

/-- What is written. -/
theorem CourseOK.writes (h : CourseOK lc a limit heap0 P l St S cus Os ps) {t : Writing} {out : CStr}
    (hu : ∀ i, tableOf t = some i → ∃ T, P.world.tables[i]? = some T ∧ Unfreed T) (hf : formatOf t ≤ 500000000)
    (ht : toWrite limit P.world.tables l.mods P.reg t = some (.ok out)) : ∃ f, t.run limit P = .ok f ∧ Appends f out := by
  have he : ∀ i T, P.world.tables[i]? = some T → Unfreed T → P.entry i = .ok T := by
    intro i T hi hT
    unfold Program.entry
    rw [World.table_eq hi, hbind_ok, unfreed_touch (h.tabs.tabs T (List.mem_of_getElem? hi)) hT, bind_ok]
  have hm : moduleName ⟨some (progName l.mods), some (progVersion l.mods)⟩ = moduleName (l.mods.foldl runMod modInit) := by
    rw [← moduleName_eq]; exact moduleName_again _ _
  have hv : moduleVersion ⟨some (progName l.mods), some (progVersion l.mods)⟩ = moduleVersion (l.mods.foldl runMod modInit) := by
    rw [← moduleVersion_eq]; exact moduleVersion_again _ _
  cases t with
  | «syntax» i suffix =>
    obtain ⟨T, hi, hT⟩ := hu i rfl
    simp only [toWrite, hi, Option.map_some, Option.some.injEq] at ht
    exact ⟨_, by unfold Writing.run; dsimp only; rw [he i T hi hT, bind_ok], appends_syntax ht⟩
  | syntaxv i suffix =>
    obtain ⟨T, hi, hT⟩ := hu i rfl
    simp only [toWrite, hi, Option.map_some, Option.some.injEq] at ht
    exact ⟨_, by unfold Writing.run; dsimp only; rw [he i T hi hT, bind_ok], appends_syntaxv ht⟩
  | glossary i fmtlen fmt2 =>
    obtain ⟨T, hi, hT⟩ := hu i rfl
    simp only [toWrite, hi, Option.map_some, Option.some.injEq] at ht
    exact ⟨_, by unfold Writing.run; dsimp only; rw [he i T hi hT, bind_ok], appends_glossary (fmtlen := fmtlen) hf fmt2 _ ht⟩
  | glossaryGnu i fuel =>
    obtain ⟨T, hi, hT⟩ := hu i rfl
    simp only [toWrite, hi, Option.map_some, Option.some.injEq] at ht
    exact ⟨_, by unfold Writing.run; dsimp only; rw [he i T hi hT, bind_ok], appends_glossaryGnu ht⟩
  | errors i prog =>
    obtain ⟨T, hi, hT⟩ := hu i rfl
    have hO := h.tabs.tabs T (List.mem_of_getElem? hi)
    simp only [toWrite, hi, Option.map_some, Option.some.injEq] at ht
    exact ⟨_, by unfold Writing.run; dsimp only; rw [he i T hi hT, bind_ok], appends_errors (fnsOf_errSim hO.err) ht⟩
  | formatted fuel lm rm text =>
    simp only [toWrite, Option.some.injEq] at ht
    exact ⟨_, rfl, appends_formatted ht⟩
  | getHelp =>
    simp only [toWrite, Option.some.injEq, Except.ok.injEq] at ht
    subst ht
    refine ⟨_, by unfold Writing.run; dsimp only; rw [h.about, bind_ok], ?_⟩
    have : makeGetHelpMsg (l.mods.foldl runMod modInit) =
        makeGetHelpMsg ⟨some (progName l.mods), some (progVersion l.mods)⟩ := by
      unfold makeGetHelpMsg; rw [hm, hv]
    rw [this]
    exact appends_getHelp _
  | help name i =>
    obtain ⟨T, hi, hT⟩ := hu i rfl
    simp only [toWrite, hi, Option.map_some, Option.some.injEq] at ht
    refine ⟨_, by unfold Writing.run; dsimp only; rw [he i T hi hT, bind_ok, h.about, bind_ok], appends_help ?_⟩
    rw [← ht]
    unfold makeHelpMsg
    rw [hm]
  | syntaxErr i =>
    obtain ⟨T, hi, hT⟩ := hu i rfl
    have hO := h.tabs.tabs T (List.mem_of_getElem? hi)
    simp only [toWrite, hi, Option.map_some, Option.some.injEq] at ht
    refine ⟨_, by unfold Writing.run; dsimp only; rw [he i T hi hT, bind_ok, h.about, bind_ok],
      appends_syntaxErr (fnsOf_errSim hO.err) ?_⟩
    rw [← ht]
    unfold makeSyntaxErrMsg
    rw [hm]

/-- One step. -/
theorem CourseOK.step (h : CourseOK lc a limit heap0 P l St S cus Os ps) {op : ProgOp δ P' C'} (hl : LegalOp lc env limit P l op) :
    (∃ fuel p', progStep lc a addr env limit fuel P op = .ok p') ∧
    ∀ fuel p', progStep lc a addr env limit fuel P op = .ok p' →
      ∃ St' S' cus' Os' ps', CourseOK lc a limit heap0 p' (noted limit P l op) St' S' cus' Os' ps' := by
  have key : (∃ p' St' S' cus' Os' ps', (∀ fuel, progStep lc a addr env limit fuel P op = .ok p') ∧
        CourseOK lc a limit heap0 p' (noted limit P l op) St' S' cus' Os' ps') →
      (∃ fuel p', progStep lc a addr env limit fuel P op = .ok p') ∧
      ∀ fuel p', progStep lc a addr env limit fuel P op = .ok p' →
        ∃ St' S' cus' Os' ps', CourseOK lc a limit heap0 p' (noted limit P l op) St' S' cus' Os' ps' := by
    rintro ⟨p', St', S', cus', Os', ps', h1, h2⟩
    refine ⟨⟨0, p', h1 0⟩, fun fuel p2 h3 => ?_⟩
    rw [h1 fuel] at h3
    cases h3
    exact ⟨_, _, _, _, _, h2⟩
  cases op with
  | table op =>
    constructor
    · obtain ⟨fuel, w', hw⟩ := (world_step (addr := addr) h.tabs hl).1
      exact ⟨fuel, _, by unfold progStep; dsimp only; rw [hw, bind_ok]⟩
    · intro fuel p' hp
      unfold progStep at hp
      obtain ⟨w', hw, hp⟩ := mbind_ok_inv hp
      cases hp
      obtain ⟨S', hS⟩ := h.table hl hw
      exact ⟨_, _, _, _, _, hS⟩
  | string c =>
    obtain ⟨s', St', S', cus', Os', ps', e1, e2⟩ := h.string hl
    exact key ⟨_, St', S', cus', Os', ps', fun fuel => by unfold progStep; dsimp only; rw [e1, bind_ok], e2⟩
  | module e =>
    obtain ⟨m', S', e1, e2⟩ := h.module hl
    exact key ⟨_, _, _, _, _, _, fun fuel => by unfold progStep; dsimp only; rw [e1, bind_ok], e2⟩
  | command e =>
    obtain ⟨r', e1, e2⟩ := h.reg.step hl
    refine key ⟨{ P with reg := r' }, St, S, cus, Os, ps, fun fuel => by unfold progStep; dsimp only; rw [e1, bind_ok], ?_⟩
    exact ⟨h.shelf, h.tabs, h.mod, h.both, e2, h.stat, h.cus⟩
  | write k t =>
    obtain ⟨⟨s, hs⟩, hu, hf, out, ht, hn, hlen⟩ := hl
    have hso : stringOf l.texts k = s := stringOf_eq hs
    rw [hso] at hlen
    obtain ⟨f, e1, e2⟩ := h.writes hu hf ht
    obtain ⟨s', Os', ps', e3, e4⟩ := h.append hs e2 hn hlen
    refine key ⟨_, St, S, cus, Os', ps', fun fuel => by unfold progStep; dsimp only; rw [e1, bind_ok, e3, bind_ok], ?_⟩
    have hno : noted limit P l (.write k t) = { l with texts := l.texts.set k (some (s ++ out)) } := by
      unfold noted; dsimp only; rw [ht, hso]
    rw [hno]
    exact e4

theorem CourseOK.start (lc : Libc δ) (a : Abi) (limit : Nat → Nat) (w0 : World δ) :
    CourseOK lc a limit w0.heap (Beginning limit w0 : Program δ P' C') Ledger.empty [] [] (fun _ => []) (fun _ => []) (fun _ => []) where
  shelf := SInv.start w0.heap
  tabs := by
    refine ⟨Nat.le_refl _, fun _ _ => rfl, ?_, ?_, ?_, ?_⟩ <;> simp [Beginning, held, ownedBy, Ledger.empty, moduleBlocks]
    intro p hp ⟨b, hb⟩
    have := lt_of_live hb
    omega
  mod := ModInv.init _
  both := rfl
  reg := RegInv.init limit
  stat := .nil
  cus _ := rfl

theorem Spec.Course.ok {w0 : World δ} (h : Course lc a addr env limit w0 P l) :
    ∃ St S cus Os ps, CourseOK lc a limit w0.heap P l St S cus Os ps := by
  induction h with
  | start => exact ⟨_, _, _, _, _, CourseOK.start lc a limit w0⟩
  | step _ hl hs ih =>
    obtain ⟨St, S, cus, Os, ps, h⟩ := ih
    exact (h.step hl).2 _ _ hs

end steps
end Argtable
