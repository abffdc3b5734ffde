import Verif.Dist.Lib
/-
The chunk index: invariant and the effect of its operations.
-/
namespace Verif.Dist
open Verif Verif.ND Verif.Tree

variable {C : Cfg} {S : Sorter} {Z : SlabSize}

/-- The tree entry of record number `i`. -/
def entOf (i : Nat) (m : Meta) : Tree.Entry Nat := ⟨Box.mk' m.start m.stop, i⟩

/-- The index stands for the records `ms`: one tree entry for each record, with its box. -/
structure IdxInv (C : Cfg) (S : Sorter) (Z : SlabSize) (x : Index) (ms : List Meta) : Prop where
  heap : x.heap = ms
  ents : ∀ i, x.tree.entries[i]? = (ms[i]?).map (entOf i)
  reach : Reach S Z C.dims true false x.tree
  box : ∀ m ∈ ms, IsBox C.dims m.start m.stop

theorem IdxInv.congr {x y : Index} {ms : List Meta} (h : IdxInv C S Z x ms) (h1 : y.heap = x.heap) (h2 : y.tree = x.tree) : IdxInv C S Z y ms :=
  ⟨h1.trans h.heap, by rw [h2]; exact h.ents, by rw [h2]; exact h.reach, h.box⟩

theorem IdxInv.len {x : Index} {ms : List Meta} (h : IdxInv C S Z x ms) : x.tree.entries.length = ms.length := by
  have a := h.ents x.tree.entries.length
  have b := h.ents ms.length
  rw [List.getElem?_eq_none (Nat.le_refl _)] at a
  rw [List.getElem?_eq_none (l := ms) (Nat.le_refl _)] at b
  simp only [Option.map_none, List.getElem?_eq_none_iff] at b
  have : ms[x.tree.entries.length]? = none := by
    cases e : ms[x.tree.entries.length]? with
    | none => rfl
    | some v => rw [e] at a; cases a
  rw [List.getElem?_eq_none_iff] at this
  omega

theorem IdxInv.ne {x : Index} {ms : List Meta} (h : IdxInv C S Z x ms) (hne : ms ≠ []) : x.tree.entries ≠ [] := by
  intro e
  have := h.len
  rw [e] at this
  exact hne (List.length_eq_zero_iff.1 this.symm)

theorem IdxInv.mem {x : Index} {ms : List Meta} (h : IdxInv C S Z x ms) {e : Tree.Entry Nat} (he : e ∈ x.tree.entries) :
    ∃ i m, ms[i]? = some m ∧ e = entOf i m := by
  obtain ⟨i, hi⟩ := List.getElem?_of_mem he
  have := h.ents i
  rw [hi] at this
  cases e' : ms[i]? with
  | none => rw [e'] at this; cases this
  | some m => rw [e'] at this; exact ⟨i, m, e', by simpa using this⟩

theorem IdxInv.empty (dir : Nat) : IdxInv C S Z (Index.empty C dir) [] where
  heap := rfl
  ents i := by simp [Index.empty, Tree.empty]
  reach := .empty
  box m h := by cases h

theorem IdxInv.insert_ok (hC : C.Ok) {x : Index} {ms : List Meta} (h : IdxInv C S Z x ms) {m : Meta} (hb : IsBox C.dims m.start m.stop) :
    ∃ t, x.insert S m = .ok { x with tree := t, heap := x.heap ++ [m] } ∧ IdxInv C S Z { x with tree := t, heap := x.heap ++ [m] } (ms ++ [m]) := by
  obtain ⟨t, e1, e2⟩ := C20_insert_adds hC.dims h.reach x.heap.length hb
  refine ⟨t, by unfold Index.insert; rw [e1]; rfl, by simp only [h.heap], ?_, .insert h.reach hb e1, ?_⟩
  · intro i
    show t.entries[i]? = _
    rw [e2]
    rcases Nat.lt_trichotomy i ms.length with hi | hi | hi
    · rw [List.getElem?_append_left (by rw [h.len]; exact hi), h.ents i, List.getElem?_append_left hi]
    · subst hi
      rw [List.getElem?_append_right (by rw [h.len]; exact Nat.le_refl _), List.getElem?_append_right (Nat.le_refl _)]
      simp [h.len, entOf, h.heap]
    · rw [List.getElem?_eq_none (by simp [h.len]; omega), List.getElem?_eq_none (by simp; omega)]; rfl
  · intro m' hm'
    rcases List.mem_append.1 hm' with hm' | hm'
    · exact h.box m' hm'
    · simp only [List.mem_singleton] at hm'; subst hm'; exact hb

theorem IdxInv.insertAll_ok (hC : C.Ok) : ∀ {x : Index} {ms : List Meta} (ns : List Meta), IdxInv C S Z x ms → (∀ m ∈ ns, IsBox C.dims m.start m.stop) →
    ∃ t, x.insertAll S ns = .ok { x with tree := t, heap := x.heap ++ ns } ∧ IdxInv C S Z { x with tree := t, heap := x.heap ++ ns } (ms ++ ns)
  | x, ms, [], h, _ => ⟨x.tree, by simp [Index.insertAll], by simpa using h⟩
  | x, ms, m :: ns, h, hb => by
      obtain ⟨t, e1, e2⟩ := h.insert_ok hC (hb m (by simp))
      obtain ⟨t', e3, e4⟩ := e2.insertAll_ok hC ns (fun m hm => hb m (by simp [hm]))
      refine ⟨t', ?_, ?_⟩
      · show (x.insert S m).bind _ = _
        rw [e1]
        show Index.insertAll S _ ns = _
        rw [e3]
        simp
      · simpa using e4

/-- Record number `i` is the only one whose box contains `p`. -/
def OnlyAt (ms : List Meta) (p : List Nat) (i : Nat) : Prop :=
  (∃ m, ms[i]? = some m ∧ InBox m.start m.stop p) ∧ ∀ j m, ms[j]? = some m → InBox m.start m.stop p → j = i

theorem IdxInv.getChunk_ok (hC : C.Ok) {x : Index} {ms : List Meta} (h : IdxInv C S Z x ms) {p : List Nat} (hp : IsPoint C.dims p) {i : Nat} {m : Meta}
    (hm : ms[i]? = some m) (ho : OnlyAt ms p i) :
    ∃ t, x.getChunk p = .ok ({ x with tree := t, valid := false }, some (i, m)) ∧ IdxInv C S Z { x with tree := t, valid := false } ms := by
  have hne : ms ≠ [] := by intro e; rw [e] at hm; simp at hm
  obtain ⟨t, o, e1, e2, e3, e4⟩ := C21_point_search hC.dims h.reach (h.ne hne) hp
  have hmem : entOf i m ∈ x.tree.entries := List.mem_of_getElem? (i := i) (by rw [h.ents i, hm]; rfl)
  obtain ⟨⟨m', hm', hin⟩, hu⟩ := ho
  have : m' = m := by rw [hm] at hm'; cases hm'; rfl
  subst this
  have ho : o = some i := by
    cases o with
    | none => exact absurd hin (e4 rfl _ hmem)
    | some y =>
      obtain ⟨e, f1, f2, f3⟩ := e3 y rfl
      obtain ⟨j, n, g1, g2⟩ := h.mem f1
      subst g2
      rw [← f2]
      show some j = some i
      rw [hu j n g1 f3]
  subst ho
  refine ⟨t, ?_, h.heap, ?_, .search h.reach (h.ne hne) hp e1, h.box⟩
  · unfold Index.getChunk
    rw [e1]
    simp only [Res.bind, h.heap, hm]
  · intro j; show t.entries[j]? = _; rw [e2]; exact h.ents j

theorem derefAll_ok {heap : List Meta} : ∀ (hs : List Nat) (ms : List Meta), hs.map (heap[·]?) = ms.map some → derefAll heap hs = .ok ms
  | [], [], _ => rfl
  | [], m :: ms, h => by simp at h
  | i :: hs, [], h => by simp at h
  | i :: hs, m :: ms, h => by
      simp only [List.map_cons, List.cons.injEq] at h
      unfold derefAll
      rw [h.1]
      simp only
      rw [derefAll_ok hs ms h.2]; rfl

theorem IdxInv.entries_eq {x : Index} {ms : List Meta} (h : IdxInv C S Z x ms) : x.tree.entries = ms.zipIdx.map fun q => entOf q.2 q.1 := by
  apply List.ext_getElem?
  intro i
  rw [h.ents i, List.getElem?_map, List.getElem?_zipIdx]
  cases ms[i]? <;> simp

theorem derefAll_perm {heap : List Meta} {hs : List Nat} {qs : List (Meta × Nat)} (hp : hs.Perm (qs.map Prod.snd))
    (hq : ∀ q ∈ qs, heap[q.2]? = some q.1) : ∃ ms, derefAll heap hs = .ok ms ∧ ms.Perm (qs.map Prod.fst) := by
  refine ⟨hs.map fun i => (heap[i]?).getD (defaultMeta 0), ?_, ?_⟩
  · apply derefAll_ok
    rw [List.map_map]
    apply List.map_congr_left
    intro i hi
    obtain ⟨q, hq1, rfl⟩ := List.mem_map.1 (hp.mem_iff.1 hi)
    simp [hq q hq1]
  · refine (hp.map _).trans ?_
    rw [List.map_map]
    rw [List.map_congr_left (g := Prod.fst) (fun q hq1 => by simp [hq q hq1])]

theorem IdxInv.getChunks_ok (hC : C.Ok) {x : Index} {ms : List Meta} (h : IdxInv C S Z x ms) {lo hi : List Nat} (hlo : lo.length = C.dims) :
    ∃ r, x.getChunks lo hi = .ok r ∧ r.Perm (ms.filter fun m => decide (Overlap lo hi m.start m.stop)) := by
  obtain ⟨l, e1, e2⟩ := C22_region_search hC.dims h.reach (lo := lo) (hi := hi) hlo
  have e3 : l.Perm ((ms.zipIdx.filter fun q => decide (Overlap lo hi q.1.start q.1.stop)).map Prod.snd) := by
    refine e2.trans (List.Perm.of_eq ?_)
    rw [h.entries_eq, List.filter_map, List.map_map]; rfl
  obtain ⟨r, f1, f2⟩ := derefAll_perm (heap := x.heap) e3 (fun q hq => by
    have := (List.mem_filter.1 hq).1
    rw [List.mem_zipIdx_iff_getElem?] at this
    rw [h.heap]; exact this)
  refine ⟨r, by unfold Index.getChunks; rw [e1]; exact f1, f2.trans (List.Perm.of_eq ?_)⟩
  have : ms = ms.zipIdx.map Prod.fst := by simp
  conv => rhs; rw [this, List.filter_map]
  rfl

theorem IdxInv.all_ok {x : Index} {ms : List Meta} (h : IdxInv C S Z x ms) : x.all = .ok ms := by
  unfold Index.all getAllEntries
  apply derefAll_ok
  rw [h.entries_eq, h.heap]
  apply List.ext_getElem?
  intro i
  simp only [List.getElem?_map, List.getElem?_zipIdx, Option.map_map]
  cases e : ms[i]? <;> simp [entOf, e]

/-- A record and its box in the tree are replaced by a larger one. -/
theorem IdxInv.grow_ok (hC : C.Ok) {x : Index} {ms : List Meta} (h : IdxInv C S Z x ms) {p : List Nat} (hp : IsPoint C.dims p) {i : Nat} {m m' : Meta}
    (hm : ms[i]? = some m) (ho : OnlyAt ms p i) (hb : IsBox C.dims m'.start m'.stop) (hle : BoxLe m.start m.stop m'.start m'.stop) :
    ∃ t, (x.setMeta i m').updateBox p m' = .ok { x with tree := t, heap := ms.set i m' } ∧
      IdxInv C S Z { x with tree := t, heap := ms.set i m' } (ms.set i m') := by
  have hne : ms ≠ [] := by intro e; rw [e] at hm; simp at hm
  obtain ⟨⟨m₁, hm₁, hin⟩, hu⟩ := ho
  have : m₁ = m := by rw [hm] at hm₁; cases hm₁; rfl
  subst this
  have hmem : entOf i m₁ ∈ x.tree.entries := List.mem_of_getElem? (i := i) (by rw [h.ents i, hm]; rfl)
  obtain ⟨t, e1, e2⟩ := C20_update_changes_one_box hC.dims h.reach (h.ne hne) hp hb
  have e3 : t.entries = x.tree.entries.set i (entOf i m') := by
    rcases e2 with ⟨_, e2⟩ | ⟨c, e, f1, f2, f3⟩
    · exact absurd hin (e2 _ hmem)
    · rw [h.ents c] at f1
      cases hc : ms[c]? with
      | none => rw [hc] at f1; cases f1
      | some n =>
        rw [hc] at f1
        simp only [Option.map_some, Option.some.injEq] at f1
        subst f1
        have := hu c n hc f2
        subst this
        exact f3
  refine ⟨t, by unfold Index.updateBox Index.setMeta; simp only; rw [e1, h.heap]; rfl, rfl, ?_, ?_, ?_⟩
  · intro j
    show t.entries[j]? = _
    rw [e3, List.getElem?_set, List.getElem?_set, h.len]
    by_cases hj : i = j
    · subst hj
      have : i < ms.length := by
        rcases Nat.lt_or_ge i ms.length with h | h
        · exact h
        · rw [List.getElem?_eq_none h] at hm; cases hm
      simp [this]
    · simp only [hj, if_false]; exact h.ents j
  · refine .update h.reach (h.ne hne) hp hb (fun _ e he hin' => ?_) e1
    obtain ⟨j, n, g1, rfl⟩ := h.mem he
    have := hu j n g1 hin'
    subst this
    rw [hm] at g1; cases g1
    exact hle
  · intro n hn
    rcases List.mem_or_eq_of_mem_set hn with hn | rfl
    · exact h.box n hn
    · exact hb

end Verif.Dist
