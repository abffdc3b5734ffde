import Verif.Tree.Rebuild
/-
C20-C25: what a client of the R*-tree may rely on.
-/
namespace Verif.Tree
open Verif Verif.ND

variable {P : Type}

/-! ### Histories -/

/-- The calls that change the tree (a point search moves the last-accessed marker). -/
inductive Op (P : Type) where
  | insert (x : P) (lo hi : List Nat)
  | update (p lo hi : List Nat)
  | rebuild
  | search (p : List Nat)
  | clear

def step (S : Sorter) (Z : SlabSize) (t : Tree P) : Op P → Res (Tree P)
  | .insert x lo hi => insertElement S t x lo hi
  | .update p lo hi => updateBoundingBox t p lo hi
  | .rebuild => rebuildSTR S Z t
  | .search p => (searchPoint t p).bind fun r => .ok r.1
  | .clear => .ok (clear t)

def run (S : Sorter) (Z : SlabSize) : List (Op P) → Tree P → Res (Tree P)
  | [], t => .ok t
  | o :: os, t => (step S Z t o).bind fun t1 => run S Z os t1

/-- A query point. -/
def IsPoint (d : Nat) (p : List Nat) : Prop := p.length = d ∧ Small p

/-- The client passes boxes and points of the right kind; it does not update, rebuild or point-search an empty tree (these are outside of
    what the code supports; see the examples at the end). The first argument says whether the tree has entries. -/
def Valid (d : Nat) : Bool → List (Op P) → Prop
  | _, [] => True
  | _, .insert _ lo hi :: os => IsBox d lo hi ∧ Valid d true os
  | ne, .update p lo hi :: os => ne = true ∧ IsPoint d p ∧ IsBox d lo hi ∧ Valid d ne os
  | ne, .rebuild :: os => ne = true ∧ Valid d ne os
  | ne, .search p :: os => ne = true ∧ IsPoint d p ∧ Valid d ne os
  | _, .clear :: os => Valid d false os

/-- The payloads inserted since the last `Clear`. -/
def inserted : List (Op P) → List P → List P
  | [], acc => acc
  | .insert x _ _ :: os, acc => inserted os (acc ++ [x])
  | .clear :: os, _ => inserted os []
  | _ :: os, acc => inserted os acc

/-- States of a tree over `d` directions under calls as in `Valid`.
    `gr`: updates only enlarge boxes. `rb`: `RebuildSTR` may occur. -/
inductive Reach (S : Sorter) (Z : SlabSize) (d : Nat) (gr rb : Bool) : Tree P → Prop where
  | empty : Reach S Z d gr rb (empty d)
  | insert {t t' : Tree P} {x lo hi} : Reach S Z d gr rb t → IsBox d lo hi → insertElement S t x lo hi = .ok t' → Reach S Z d gr rb t'
  | update {t t' : Tree P} {p lo hi} : Reach S Z d gr rb t → t.entries ≠ [] → IsPoint d p → IsBox d lo hi →
      (gr = true → ∀ e ∈ t.entries, InBox e.box.start e.box.stop p → BoxLe e.box.start e.box.stop lo hi) →
      updateBoundingBox t p lo hi = .ok t' → Reach S Z d gr rb t'
  | rebuild {t t' : Tree P} : Reach S Z d gr rb t → rb = true → t.entries ≠ [] → rebuildSTR S Z t = .ok t' → Reach S Z d gr rb t'
  | search {t t' : Tree P} {p o} : Reach S Z d gr rb t → t.entries ≠ [] → IsPoint d p → searchPoint t p = .ok (t', o) → Reach S Z d gr rb t'
  | clear {t : Tree P} : Reach S Z d gr rb t → Reach S Z d gr rb (clear t)

/-! ### Lemmas -/

def minKids (rb : Bool) : Nat := if rb then 1 else 2

theorem minKids_le (rb : Bool) : minKids rb ≤ 2 := by cases rb <;> decide

theorem WF.inv {m : Nat} {tg : Bool} {t : Tree P} (h : WF m tg t) (hne : t.entries ≠ []) : Inv m tg t [] none := by
  rcases h.shape with ⟨_, _, h⟩ | h
  · exact absurd h hne
  · exact h

theorem hit_iff {m : Nat} {tg : Bool} {t : Tree P} {orph} {ov} (h : Core m tg t orph ov) {p : List Nat} (hp : IsPoint t.dims p) {c : Nat} {e : Entry P}
    (he : t.entries[c]? = some e) : hit t p c = true ↔ InBox e.box.start e.box.stop p := by
  have hG := h.ent e (List.mem_of_getElem? he)
  rw [hit_eq he, hG.1]
  exact contains_iff hG.2 hp.1 hp.2

theorem contains_iff' {d : Nat} {b : Box} {p : List Nat} (hG : Good d b) (hp : IsPoint d p) : b.contains p = true ↔ InBox b.start b.stop p := by
  rw [hG.1]; exact contains_iff hG.2 hp.1 hp.2

/-- Point search on a non-empty tree. -/
theorem searchPoint_spec {m : Nat} {tg : Bool} {t : Tree P} (h : Inv m tg t [] none) (hlast : ∀ l, t.last = some l → l < t.entries.length)
    {p : List Nat} (hp : IsPoint t.dims p) :
    ∃ l o, searchPoint t p = .ok ({ t with last := l }, o) ∧ (∀ i, l = some i → i < t.entries.length) ∧
      (∀ x, o = some x → ∃ e ∈ t.entries, e.payload = x ∧ InBox e.box.start e.box.stop p) ∧
      (o = none → ∀ e ∈ t.entries, ¬ InBox e.box.start e.box.stop p) := by
  have full : ∃ l o, searchFull t p = .ok ({ t with last := l }, o) ∧ (∀ i, l = some i → i < t.entries.length) ∧
      (∀ x, o = some x → ∃ e ∈ t.entries, e.payload = x ∧ InBox e.box.start e.box.stop p) ∧
      (o = none → ∀ e ∈ t.entries, ¬ InBox e.box.start e.box.stop p) := by
    obtain ⟨r, n, hr, hn, _⟩ := h.top
    have hsub := h.sub_root hr hn
    have hs : searchFull t p = (searchRec t p (height t) r).bind (fun o => match o with
        | none => .ok (t, none)
        | some e => (getEntry t e).bind fun en => .ok ({ t with last := some e }, some en.payload)) := by
      unfold searchFull; rw [hr]; rfl
    rw [hs, height_eq hr hn, h.core.searchRec_eq hp.1 hp.2 n.level r n hn rfl, Res.ok_bind]
    cases hf : (sub t n.level r).find? (hit t p) with
    | none =>
      refine ⟨t.last, none, rfl, hlast, by simp, fun _ e he hin => ?_⟩
      obtain ⟨c, hc⟩ := List.getElem?_of_mem he
      rw [List.find?_eq_none] at hf
      exact hf c (hsub.mem_iff.2 (List.mem_range.2 (lt_of_get hc))) ((hit_iff h.core hp hc).2 hin)
    | some c =>
      have hlt : c < t.entries.length := List.mem_range.1 (hsub.mem_iff.1 (List.mem_of_find?_eq_some hf))
      have hc := List.getElem?_eq_getElem hlt
      dsimp only
      rw [getEntry, hc]
      refine ⟨some c, some t.entries[c].payload, rfl, fun i hi => by cases hi; exact hlt, fun x hx => ?_, by simp⟩
      cases hx
      exact ⟨_, List.getElem_mem hlt, rfl, (hit_iff h.core hp hc).1 (List.find?_some hf)⟩
  unfold searchPoint
  cases hl : t.last with
  | none => exact full
  | some l =>
    have hlt := hlast l hl
    dsimp only
    rw [getEntry, List.getElem?_eq_getElem hlt]
    dsimp only
    rw [Res.ok_bind]
    by_cases hc : t.entries[l].box.contains p = true
    · rw [if_pos hc]
      refine ⟨t.last, some t.entries[l].payload, rfl, hlast, fun x hx => ?_, by simp⟩
      cases hx
      exact ⟨_, List.getElem_mem hlt, rfl, (contains_iff' (h.core.ent _ (List.getElem_mem hlt)) hp).1 hc⟩
    · rw [if_neg hc]; exact full

theorem Inv.setLast {m : Nat} {tg : Bool} {t : Tree P} {orph} {ov} (h : Inv m tg t orph ov) (l : Option Nat) : Inv m tg { t with last := l } orph ov :=
  ⟨⟨h.core.ent, h.core.nodeG, h.core.cnt, h.core.le, h.core.size, h.core.tight⟩, h.top⟩

theorem Core.weaken {m m' : Nat} {tg : Bool} {t : Tree P} {orph} {ov} (h : Core m tg t orph ov) (hm : m' ≤ m) : Core m' tg t orph ov :=
  ⟨h.ent, h.nodeG, h.cnt, h.le, fun i n hn => by
    obtain ⟨a, b, c, d, e⟩ := h.size i n hn
    exact ⟨a, b, c, fun hr => Nat.le_trans hm (d hr), e⟩, h.tight⟩

theorem growCond {m : Nat} {tg : Bool} {t : Tree P} (h : Inv m tg t [] none) {p lo hi : List Nat} (hp : IsPoint t.dims p) {gr : Bool}
    (hg : gr = true → ∀ e ∈ t.entries, InBox e.box.start e.box.stop p → BoxLe e.box.start e.box.stop lo hi) (ht : gr = true) (c : Nat) (e : Entry P)
    (he : t.entries[c]? = some e) (hh : hit t p c = true) : Le t.dims e.box (Box.mk' lo hi) := by
  have hm := List.mem_of_getElem? he
  have := hg ht e hm ((hit_iff h.core hp he).1 hh)
  intro i hi
  exact this i (by rw [(h.core.ent e hm).2.1]; exact hi)

/-- The invariant holds in every reachable state. -/
theorem Reach.wf {S : Sorter} {Z : SlabSize} {d : Nat} (hd : 0 < d) {gr rb : Bool} {t : Tree P} (h : Reach S Z d gr rb t) :
    t.dims = d ∧ WF (minKids rb) gr t := by
  induction h with
  | empty => exact ⟨rfl, WF.empty _ _ _⟩
  | insert _ hb he ih =>
    obtain ⟨h1, h2⟩ := ih
    subst h1
    obtain ⟨t2, e1, e2, e3, _⟩ := insertElement_spec S (minKids_le rb) h2 hb _
    rw [e1] at he; cases he
    exact ⟨e3, e2⟩
  | update _ hne hp hb hg he ih =>
    obtain ⟨h1, h2⟩ := ih
    subst h1
    have hi := h2.inv hne
    obtain ⟨t2, e1, e2, _, e3, _⟩ := updateBoundingBox_spec hi h2.last hb (fun ht c e => growCond hi hp hg ht c e)
    rw [e1] at he; cases he
    exact ⟨e3, e2⟩
  | rebuild _ hrb hne he ih =>
    obtain ⟨h1, h2⟩ := ih
    subst h1
    obtain ⟨k, hk⟩ : ∃ k, _ = k + 1 := ⟨_ - 1, (Nat.sub_add_cancel hd).symm⟩
    obtain ⟨t2, e1, e2, e3, e4, e5⟩ := rebuildSTR_spec (tg := gr) S Z hk hne (h2.inv hne).core.ent
    rw [e1] at he; cases he
    subst hrb
    exact ⟨e3, Or.inr e2, fun l hl => by rw [e5] at hl; cases hl⟩
  | search _ hne hp he ih =>
    obtain ⟨h1, h2⟩ := ih
    subst h1
    have hi := h2.inv hne
    obtain ⟨l, o, e1, e2, _⟩ := searchPoint_spec hi h2.last hp
    rw [e1] at he; cases he
    exact ⟨rfl, Or.inr (hi.setLast l), e2⟩
  | clear _ ih => exact ⟨ih.1, WF.empty _ _ _⟩

/-! ### C20 -/

/-- C20, one call at a time: in every reachable state `InsertElement` succeeds and adds exactly the new entry. -/
theorem C20_insert_adds {S : Sorter} {Z : SlabSize} {d : Nat} (hd : 0 < d) {gr rb : Bool} {t : Tree P} (h : Reach S Z d gr rb t) (x : P)
    {lo hi : List Nat} (hb : IsBox d lo hi) :
    ∃ t', insertElement S t x lo hi = .ok t' ∧ t'.entries = t.entries ++ [⟨Box.mk' lo hi, x⟩] := by
  obtain ⟨h1, h2⟩ := h.wf hd
  subst h1
  obtain ⟨t', e1, _, _, e4⟩ := insertElement_spec S (minKids_le rb) h2 hb x
  exact ⟨t', e1, e4⟩

/-- C20: `UpdateBoundingBox` changes the box of at most one entry, one that contains the point, and nothing else; if no entry contains the point
    nothing changes. -/
theorem C20_update_changes_one_box {S : Sorter} {Z : SlabSize} {d : Nat} (hd : 0 < d) {gr rb : Bool} {t : Tree P} (h : Reach S Z d gr rb t)
    (hne : t.entries ≠ []) {p lo hi : List Nat} (hp : IsPoint d p) (hb : IsBox d lo hi) :
    ∃ t', updateBoundingBox t p lo hi = .ok t' ∧
      ((t' = t ∧ ∀ e ∈ t.entries, ¬ InBox e.box.start e.box.stop p) ∨
       ∃ c e, t.entries[c]? = some e ∧ InBox e.box.start e.box.stop p ∧ t'.entries = t.entries.set c ⟨Box.mk' lo hi, e.payload⟩) := by
  obtain ⟨h1, h2⟩ := h.wf hd
  subst h1
  have hi := h2.inv hne
  have hi' : Inv (minKids rb) false t [] none := ⟨⟨hi.core.ent, hi.core.nodeG, hi.core.cnt, hi.core.le, hi.core.size, fun h => by cases h⟩, hi.top⟩
  obtain ⟨t', e1, _, _, _, e5⟩ := updateBoundingBox_spec (tg := false) hi' h2.last hb (p := p) (fun h => by cases h)
  refine ⟨t', e1, ?_⟩
  rcases e5 with ⟨rfl, e5⟩ | ⟨c, e, f1, f2, f3⟩
  · refine Or.inl ⟨rfl, fun e he hin => ?_⟩
    obtain ⟨c, hc⟩ := List.getElem?_of_mem he
    have := e5 c e hc
    rw [(contains_iff' (hi.core.ent e he) hp).2 hin] at this
    cases this
  · exact Or.inr ⟨c, e, f1, (contains_iff' (hi.core.ent e (List.mem_of_getElem? f1)) hp).1 f2, f3⟩

theorem map_payload_set {t : List (Entry P)} {c : Nat} {e e' : Entry P} (h : t[c]? = some e) (hp : e'.payload = e.payload) :
    (t.set c e').map Entry.payload = t.map Entry.payload := by
  apply List.ext_getElem?
  intro i
  rw [List.getElem?_map, List.getElem?_map, List.getElem?_set]
  by_cases hci : c = i
  · subst hci
    rw [if_pos rfl, if_pos (lt_of_get h), h]
    simp [hp]
  · rw [if_neg hci]

/-- C20: whatever the history (splits, forced re-insertions, root growth, box updates, rebuilds, lookups), every call succeeds and iterating over all
    entries yields exactly the inserted payloads, each as often as it was inserted. -/
theorem C20_all_entries {S : Sorter} {Z : SlabSize} {d : Nat} (hd : 0 < d) : ∀ (os : List (Op P)) (t : Tree P) (acc : List P) (ne : Bool),
    Reach S Z d false true t → (ne = true ↔ t.entries ≠ []) → (getAllEntries t).Perm acc → Valid d ne os →
    ∃ t', run S Z os t = .ok t' ∧ Reach S Z d false true t' ∧ (getAllEntries t').Perm (inserted os acc)
  | [], t, acc, ne, h, _, hp, _ => ⟨t, rfl, h, hp⟩
  | .insert x lo hi :: os, t, acc, ne, h, hne, hp, ⟨v1, v2⟩ => by
      obtain ⟨t1, e1, e2⟩ := C20_insert_adds hd h x v1
      obtain ⟨t', f1, f2, f3⟩ := C20_all_entries hd os t1 (acc ++ [x]) true (h.insert v1 e1) (by rw [e2]; simp)
        (by unfold getAllEntries; rw [e2, List.map_append]; exact hp.append_right _) v2
      exact ⟨t', by rw [run, step, e1]; exact f1, f2, f3⟩
  | .update p lo hi :: os, t, acc, ne, h, hne, hp, ⟨v1, v2, v3, v4⟩ => by
      obtain ⟨t1, e1, e2⟩ := C20_update_changes_one_box hd h (hne.1 v1) v2 v3
      have key : (getAllEntries t1) = getAllEntries t ∧ t1.entries ≠ [] := by
        rcases e2 with ⟨rfl, _⟩ | ⟨c, e, g1, _, g3⟩
        · exact ⟨rfl, hne.1 v1⟩
        · constructor
          · unfold getAllEntries; rw [g3]; exact map_payload_set g1 rfl
          · rw [g3]; intro h0; exact hne.1 v1 (List.length_eq_zero_iff.1 (by have := congrArg List.length h0; simpa using this))
      obtain ⟨t', f1, f2, f3⟩ := C20_all_entries hd os t1 acc ne (h.update (hne.1 v1) v2 v3 (fun h => by cases h) e1) (by simp [v1, key.2])
        (by rw [key.1]; exact hp) v4
      exact ⟨t', by rw [run, step, e1]; exact f1, f2, f3⟩
  | .rebuild :: os, t, acc, ne, h, hne, hp, ⟨v1, v2⟩ => by
      obtain ⟨h1, h2⟩ := h.wf hd
      subst h1
      obtain ⟨k, hk⟩ : ∃ k, t.dims = k + 1 := ⟨t.dims - 1, (Nat.sub_add_cancel hd).symm⟩
      obtain ⟨t1, e1, _, _, e4, _⟩ := rebuildSTR_spec (tg := false) S Z hk (hne.1 v1) (h2.inv (hne.1 v1)).core.ent
      obtain ⟨t', f1, f2, f3⟩ := C20_all_entries hd os t1 acc ne (h.rebuild rfl (hne.1 v1) e1)
        (by simp only [v1, true_iff]; intro h0; exact hne.1 v1 (by rw [h0] at e4; exact e4.nil_eq.symm))
        ((e4.map _).trans hp) v2
      exact ⟨t', by rw [run, step, e1]; exact f1, f2, f3⟩
  | .search p :: os, t, acc, ne, h, hne, hp, ⟨v1, v2, v3⟩ => by
      obtain ⟨h1, h2⟩ := h.wf hd
      subst h1
      obtain ⟨l, o, e1, e2, _⟩ := searchPoint_spec (h2.inv (hne.1 v1)) h2.last v2
      obtain ⟨t', f1, f2, f3⟩ := C20_all_entries hd os _ acc ne (h.search (hne.1 v1) v2 e1) hne hp v3
      exact ⟨t', by rw [run, step, e1]; exact f1, f2, f3⟩
  | .clear :: os, t, acc, ne, h, hne, hp, v => by
      obtain ⟨t', f1, f2, f3⟩ := C20_all_entries hd os (clear t) [] false h.clear (by simp [clear, Tree.empty]) (List.Perm.refl _) v
      exact ⟨t', by rw [run, step]; exact f1, f2, f3⟩

/-- C20 from the empty tree. -/
theorem C20_history {S : Sorter} {Z : SlabSize} {d : Nat} (hd : 0 < d) (os : List (Op P)) (hv : Valid d false os) :
    ∃ t, run S Z os (empty d) = .ok t ∧ (getAllEntries t).Perm (inserted os []) := by
  obtain ⟨t, h1, _, h2⟩ := C20_all_entries (S := S) (Z := Z) hd os (empty d) [] false .empty (by simp [Tree.empty]) (List.Perm.refl _) hv
  exact ⟨t, h1, h2⟩

/-! ### C21, C22 -/

/-- C21: a point lookup returns an entry that contains the point, or the null result if there is none; whatever was looked up before. -/
theorem C21_point_search {S : Sorter} {Z : SlabSize} {d : Nat} (hd : 0 < d) {gr rb : Bool} {t : Tree P} (h : Reach S Z d gr rb t)
    (hne : t.entries ≠ []) {p : List Nat} (hp : IsPoint d p) :
    ∃ t' o, searchPoint t p = .ok (t', o) ∧ t'.entries = t.entries ∧
      (∀ x, o = some x → ∃ e ∈ t.entries, e.payload = x ∧ InBox e.box.start e.box.stop p) ∧
      (o = none → ∀ e ∈ t.entries, ¬ InBox e.box.start e.box.stop p) := by
  obtain ⟨h1, h2⟩ := h.wf hd
  subst h1
  obtain ⟨l, o, e1, _, e3, e4⟩ := searchPoint_spec (h2.inv hne) h2.last hp
  exact ⟨_, o, e1, rfl, e3, e4⟩

/-- C21 for disjoint boxes: the entry that contains the point is found. -/
theorem C21_point_search_disjoint {S : Sorter} {Z : SlabSize} {d : Nat} (hd : 0 < d) {gr rb : Bool} {t : Tree P} (h : Reach S Z d gr rb t)
    {p : List Nat} (hp : IsPoint d p) {e : Entry P} (he : e ∈ t.entries) (hin : InBox e.box.start e.box.stop p)
    (hu : ∀ e' ∈ t.entries, InBox e'.box.start e'.box.stop p → e' = e) :
    ∃ t', searchPoint t p = .ok (t', some e.payload) := by
  obtain ⟨t', o, e1, _, e3, e4⟩ := C21_point_search hd h (List.ne_nil_of_mem he) hp
  cases o with
  | none => exact absurd hin (e4 rfl e he)
  | some x =>
    obtain ⟨e', h1, h2, h3⟩ := e3 x rfl
    rw [hu e' h1 h3] at h2
    exact ⟨t', by rw [e1, h2]⟩

/-- `[lo, hi)` and `[lo', hi')` overlap in every direction. -/
def Overlap (lo hi lo' hi' : List Nat) : Prop := ∀ i < lo.length, lo.getD i 0 < hi'.getD i 0 ∧ lo'.getD i 0 < hi.getD i 0

instance (lo hi lo' hi' : List Nat) : Decidable (Overlap lo hi lo' hi') := by unfold Overlap; infer_instance

theorem overlaps_iff {lo hi : List Nat} {b : Box} : (Box.mk' lo hi).overlaps b = true ↔ Overlap lo hi b.start b.stop := by
  unfold Box.overlaps Overlap Box.mk'
  simp [List.all_eq_true]

/-- C22: a region lookup returns exactly the entries that overlap the region, each once. -/
theorem C22_region_search {S : Sorter} {Z : SlabSize} {d : Nat} (hd : 0 < d) {gr rb : Bool} {t : Tree P} (h : Reach S Z d gr rb t)
    {lo hi : List Nat} (hlo : lo.length = d) :
    ∃ l, searchRegion t lo hi = .ok l ∧ l.Perm ((t.entries.filter fun e => decide (Overlap lo hi e.box.start e.box.stop)).map Entry.payload) := by
  obtain ⟨h1, h2⟩ := h.wf hd
  subst h1
  unfold searchRegion
  rcases h2.shape with ⟨r1, _, r3⟩ | hi'
  · rw [r1, r3]; exact ⟨[], rfl, List.Perm.refl _⟩
  · obtain ⟨r, n, hr, hn, _⟩ := hi'.top
    rw [hr]
    dsimp only
    rw [height_eq hr hn, hi'.core.regionRec_eq (q := Box.mk' lo hi) hlo n.level r n hn rfl]
    refine ⟨_, rfl, ((hi'.sub_root hr hn).filterMap _).trans ?_⟩
    have e1 : (List.range t.entries.length).filterMap (pick t (Box.mk' lo hi)) =
        t.entries.filterMap (fun e => if (Box.mk' lo hi).overlaps e.box then some e.payload else none) := by
      refine Eq.trans ?_ (filterMap_range (fun e : Entry P => if (Box.mk' lo hi).overlaps e.box then some e.payload else none) t.entries)
      congr 1
      funext c
      unfold pick
      cases t.entries[c]? <;> rfl
    rw [e1]
    have e2 : ∀ l : List (Entry P), l.filterMap (fun e => if (Box.mk' lo hi).overlaps e.box then some e.payload else none) =
        (l.filter fun e => decide (Overlap lo hi e.box.start e.box.stop)).map Entry.payload := by
      intro l
      induction l with
      | nil => rfl
      | cons e l ih =>
        rw [List.filterMap_cons, List.filter_cons]
        by_cases ho : Overlap lo hi e.box.start e.box.stop
        · rw [if_pos (overlaps_iff.2 ho), decide_eq_true ho, if_pos rfl, List.map_cons, ih]
        · rw [if_neg (fun h => ho (overlaps_iff.1 h)), decide_eq_false ho, if_neg (by simp), ih]
    rw [e2]

/-! ### C23 -/

/-- Entry `c` is reached from node slot `i` by going down through `k` further nodes, the last of which is a leaf node. -/
inductive Below (t : Tree P) : Nat → Nat → Nat → Prop where
  | leaf {i c : Nat} {n : Node} : t.nodes[i]? = some n → n.level = 0 → c ∈ n.ch → c < t.entries.length → Below t 0 i c
  | node {i j k c : Nat} {n : Node} : t.nodes[i]? = some n → n.level ≠ 0 → j ∈ n.ch → Below t k j c → Below t (k + 1) i c

theorem Core.below_of_sub {m : Nat} {tg : Bool} {t : Tree P} {orph} {ov} (h : Core m tg t orph ov) : ∀ (k i : Nat) (n : Node), t.nodes[i]? = some n →
    n.level = k → ∀ c ∈ sub t k i, Below t k i c
  | 0, i, n, hn, hl, c, hc => by
      have hc' : c ∈ kids t i := hc
      rw [kids_eq hn] at hc'
      obtain ⟨e, he, _⟩ := h.kid_entry hn hl hc'
      exact .leaf hn hl hc' (lt_of_get he)
  | k + 1, i, n, hn, hl, c, hc => by
      have hc' : c ∈ (kids t i).flatMap (sub t k) := hc
      rw [kids_eq hn] at hc'
      obtain ⟨d, hd, hcd⟩ := List.mem_flatMap.1 hc'
      obtain ⟨nd, h1, h2, _⟩ := h.kid_node hn hl hd
      exact .node hn (by omega) hd (h.below_of_sub k d nd h1 h2 c hcd)

theorem Core.below_level {m : Nat} {tg : Bool} {t : Tree P} {orph} {ov} (h : Core m tg t orph ov) {k i c : Nat} (hb : Below t k i c) :
    ∃ n, t.nodes[i]? = some n ∧ n.level = k := by
  induction hb with
  | leaf hn hl _ _ => exact ⟨_, hn, hl⟩
  | node hn hl hj hb ih =>
    obtain ⟨nj, h1, h2⟩ := ih
    obtain ⟨q, hq⟩ : ∃ q, _ = q + 1 := ⟨_ - 1, (Nat.sub_add_cancel (Nat.pos_of_ne_zero hl)).symm⟩
    obtain ⟨nd, h3, h4, _⟩ := h.kid_node hn hq hj
    rw [h1] at h3; cases h3
    exact ⟨_, hn, by omega⟩

/-- C23: all entries sit at the same depth below the root, every node has at most 10 children, every node but the root at least 2 (1 once the tree was
    rebuilt), a root that is not a leaf at least 2, and the box of a node encloses the boxes of all entries below it. -/
theorem C23_balanced {S : Sorter} {Z : SlabSize} {d : Nat} (hd : 0 < d) {gr rb : Bool} {t : Tree P} (h : Reach S Z d gr rb t) (hne : t.entries ≠ []) :
    ∃ r L, t.root = some r ∧ (∀ c < t.entries.length, Below t L r c) ∧ (∀ k c, Below t k r c → k = L) ∧
      (∀ i n, t.nodes[i]? = some n → n.ch.length ≤ 10 ∧ 1 ≤ n.ch.length ∧ (i ≠ r → rb = false → 2 ≤ n.ch.length) ∧
        (i = r → n.level ≠ 0 → 2 ≤ n.ch.length)) ∧
      (∀ k i c n e, Below t k i c → t.nodes[i]? = some n → t.entries[c]? = some e → BoxLe e.box.start e.box.stop n.box.start n.box.stop) := by
  obtain ⟨h1, h2⟩ := h.wf hd
  subst h1
  have hi := h2.inv hne
  obtain ⟨r, n, hr, hn, _⟩ := hi.top
  have hsub := hi.sub_root hr hn
  refine ⟨r, n.level, hr, ?_, ?_, ?_, ?_⟩
  · intro c hc
    exact hi.core.below_of_sub n.level r n hn rfl c (hsub.mem_iff.2 (List.mem_range.2 hc))
  · intro k c hb
    obtain ⟨n', h3, h4⟩ := hi.core.below_level hb
    rw [hn] at h3; cases h3; exact h4.symm
  · intro i n' hn'
    obtain ⟨s1, _, s3, s4, s5⟩ := hi.core.size i n' hn'
    refine ⟨s1 (by simp), s3, fun hir hrb => ?_, fun hir hl => ?_⟩
    · have := s4 (by rw [hr]; intro he; exact hir (by simpa using he.symm))
      rw [hrb] at this; exact this
    · exact s5 (by rw [hr, hir]) (by omega)
  · intro k i c n' e hb hn' he
    have key : ∀ {k i c}, Below t k i c → ∀ n', t.nodes[i]? = some n' → ∀ e, t.entries[c]? = some e → Le t.dims e.box n'.box := by
      intro k i c hb
      induction hb with
      | leaf h3 hl hc _ =>
        intro n' hn' e he
        rw [h3] at hn'; cases hn'
        exact hi.core.le _ _ _ _ h3 hc (by rw [hl]; exact getBox_zero he)
      | node h3 hl hj hb ih =>
        intro n' hn' e he
        rw [h3] at hn'; cases hn'
        obtain ⟨q, hq⟩ : ∃ q, _ = q + 1 := ⟨_ - 1, (Nat.sub_add_cancel (Nat.pos_of_ne_zero hl)).symm⟩
        obtain ⟨nd, h4, _, h6⟩ := hi.core.kid_node h3 hq hj
        exact (ih nd h4 e he).trans h6
    intro j hj
    exact key hb n' hn' e he j (by rw [← (hi.core.ent e (List.mem_of_getElem? he)).2.1]; exact hj)

/-! ### C24 -/

theorem Reach.toRebuild {S : Sorter} {Z : SlabSize} {d : Nat} {gr rb : Bool} {t : Tree P} (h : Reach S Z d gr rb t) : Reach S Z d gr true t := by
  induction h with
  | empty => exact .empty
  | insert _ a b ih => exact .insert ih a b
  | update _ a b c d e ih => exact .update ih a b c d e
  | rebuild _ _ b c ih => exact .rebuild ih rfl b c
  | search _ a b c ih => exact .search ih a b c
  | clear _ ih => exact .clear ih

/-- C24: `RebuildSTR` of a non-empty tree terminates, keeps the entries, and the same lookups succeed: a region lookup returns the same payloads. -/
theorem C24_rebuild {S : Sorter} {Z : SlabSize} {d : Nat} (hd : 0 < d) {gr rb : Bool} {t : Tree P} (h : Reach S Z d gr rb t) (hne : t.entries ≠ []) :
    ∃ t', rebuildSTR S Z t = .ok t' ∧ t'.entries.Perm t.entries ∧
      (∀ lo hi l l', lo.length = d → searchRegion t lo hi = .ok l → searchRegion t' lo hi = .ok l' → l'.Perm l) ∧
      (∀ p o o', IsPoint d p → (∃ t1, searchPoint t p = .ok (t1, o)) → (∃ t1, searchPoint t' p = .ok (t1, o')) → (o = none ↔ o' = none)) ∧
      (∀ (i : Nat) (n : Node), t'.nodes[i]? = some n → 1 ≤ n.ch.length ∧ n.ch.length ≤ 10) := by
  have hr := h.toRebuild
  obtain ⟨h1, h2⟩ := h.wf hd
  subst h1
  obtain ⟨k, hk⟩ : ∃ k, t.dims = k + 1 := ⟨t.dims - 1, (Nat.sub_add_cancel hd).symm⟩
  obtain ⟨t', e1, e2, e3, e4, _⟩ := rebuildSTR_spec (tg := gr) S Z hk hne (h2.inv hne).core.ent
  have hr' := hr.rebuild rfl hne e1
  have hne' : t'.entries ≠ [] := fun h0 => hne (by rw [h0] at e4; exact e4.nil_eq.symm)
  refine ⟨t', e1, e4, ?_, ?_, ?_⟩
  · intro lo hi l l' hlo hl hl'
    obtain ⟨m, f1, f2⟩ := C22_region_search hd hr (hi := hi) hlo
    obtain ⟨m', g1, g2⟩ := C22_region_search hd hr' (hi := hi) hlo
    rw [hl] at f1; cases f1
    rw [hl'] at g1; cases g1
    exact g2.trans (((e4.filter _).map _).trans f2.symm)
  · intro p o o' hp ⟨t1, ho⟩ ⟨t2, ho'⟩
    obtain ⟨_, m, f1, _, f3, f4⟩ := C21_point_search hd hr hne hp
    obtain ⟨_, m', g1, _, g3, g4⟩ := C21_point_search hd hr' hne' hp
    rw [ho] at f1; cases f1
    rw [ho'] at g1; cases g1
    constructor
    · rintro rfl
      cases o' with
      | none => rfl
      | some x =>
        obtain ⟨e, a1, _, a3⟩ := g3 x rfl
        exact absurd a3 (f4 rfl e (e4.mem_iff.1 a1))
    · rintro rfl
      cases o with
      | none => rfl
      | some x =>
        obtain ⟨e, a1, _, a3⟩ := f3 x rfl
        exact absurd a3 (g4 rfl e (e4.mem_iff.2 a1))
  · intro i n hn
    obtain ⟨s1, _, s3, _⟩ := e2.core.size i n hn
    exact ⟨s3, s1 (by simp)⟩

/-- C24: where at most one entry contains the point, the lookup gives the same answer before and after. -/
theorem C24_point_lookup_same {S : Sorter} {Z : SlabSize} {d : Nat} (hd : 0 < d) {gr rb : Bool} {t t' : Tree P} (h : Reach S Z d gr rb t)
    (hne : t.entries ≠ []) (hr : rebuildSTR S Z t = .ok t') {p : List Nat} (hp : IsPoint d p)
    (hu : ∀ e1 ∈ t.entries, ∀ e2 ∈ t.entries, InBox e1.box.start e1.box.stop p → InBox e2.box.start e2.box.stop p → e1 = e2) :
    ∃ t1 t2 o, searchPoint t p = .ok (t1, o) ∧ searchPoint t' p = .ok (t2, o) := by
  obtain ⟨t'', f1, f2, _⟩ := C24_rebuild hd h hne
  rw [hr] at f1; cases f1
  have hne' : t'.entries ≠ [] := fun h0 => hne (by rw [h0] at f2; exact f2.nil_eq.symm)
  have h' := h.toRebuild.rebuild rfl hne hr
  obtain ⟨t1, o, a1, _, a3, a4⟩ := C21_point_search hd h hne hp
  obtain ⟨t2, o', b1, _, b3, b4⟩ := C21_point_search hd h' hne' hp
  refine ⟨t1, t2, o, a1, ?_⟩
  rw [b1]
  congr 2
  cases o with
  | none =>
    cases o' with
    | none => rfl
    | some y => obtain ⟨e, c1, _, c3⟩ := b3 y rfl; exact absurd c3 (a4 rfl e (f2.mem_iff.1 c1))
  | some x =>
    obtain ⟨e, c1, c2, c3⟩ := a3 x rfl
    cases o' with
    | none => exact absurd c3 (b4 rfl e (f2.mem_iff.2 c1))
    | some y =>
      obtain ⟨e', d1, d2, d3⟩ := b3 y rfl
      rw [← c2, ← d2, hu e c1 e' (f2.mem_iff.1 d1) c3 d3]

/-! ### C25 -/

/-- C25: when updates only enlarge boxes, the reported bounding box contains the box of every entry and lies in every box that does. -/
theorem C25_bounding_box {S : Sorter} {Z : SlabSize} {d : Nat} (hd : 0 < d) {rb : Bool} {t : Tree P} (h : Reach S Z d true rb t) (hne : t.entries ≠ []) :
    ∃ b, getBoundingBox t = .ok b ∧ IsBox d b.start b.stop ∧
      (∀ e ∈ t.entries, BoxLe e.box.start e.box.stop b.start b.stop) ∧
      (∀ lo hi, (∀ e ∈ t.entries, BoxLe e.box.start e.box.stop lo hi) → BoxLe b.start b.stop lo hi) := by
  obtain ⟨h1, h2⟩ := h.wf hd
  subst h1
  have hi := h2.inv hne
  obtain ⟨r, n, hr, hn, _⟩ := hi.top
  have hG := hi.core.nodeG n (List.mem_of_getElem? hn)
  unfold getBoundingBox
  rw [hr]
  dsimp only
  rw [getNode_ok hn, Res.ok_bind]
  refine ⟨_, rfl, hG.2, ?_, ?_⟩
  · intro e he
    obtain ⟨c, hc⟩ := List.getElem?_of_mem he
    have hmem := (hi.sub_root hr hn).mem_iff.2 (List.mem_range.2 (lt_of_get hc))
    obtain ⟨e', he', hle⟩ := hi.core.sub_entry n.level r n hn rfl c hmem
    rw [hc] at he'; cases he'
    intro i hi'
    exact hle i (by rw [← (hi.core.ent e he).2.1]; exact hi')
  · intro lo hi' hH
    have := hi.core.tight rfl (Box.mk' lo hi') (fun e he i hi2 => hH e he i (by rw [(hi.core.ent e he).2.1]; exact hi2)) n (List.mem_of_getElem? hn)
    intro i hi2
    exact this i (by rw [← hG.2.1]; exact hi2)

/-- Without that restriction the reported box still contains every entry. -/
theorem C25_bounding_box_encloses {S : Sorter} {Z : SlabSize} {d : Nat} (hd : 0 < d) {gr rb : Bool} {t : Tree P} (h : Reach S Z d gr rb t)
    (hne : t.entries ≠ []) :
    ∃ b, getBoundingBox t = .ok b ∧ ∀ e ∈ t.entries, BoxLe e.box.start e.box.stop b.start b.stop := by
  obtain ⟨h1, h2⟩ := h.wf hd
  subst h1
  have hi := h2.inv hne
  obtain ⟨r, n, hr, hn, _⟩ := hi.top
  unfold getBoundingBox
  rw [hr]
  dsimp only
  rw [getNode_ok hn, Res.ok_bind]
  refine ⟨_, rfl, fun e he => ?_⟩
  obtain ⟨c, hc⟩ := List.getElem?_of_mem he
  have hmem := (hi.sub_root hr hn).mem_iff.2 (List.mem_range.2 (lt_of_get hc))
  obtain ⟨e', he', hle⟩ := hi.core.sub_entry n.level r n hn rfl c hmem
  rw [hc] at he'; cases he'
  intro i hi'
  exact hle i (by rw [← (hi.core.ent e he).2.1]; exact hi')

/-! ### Concrete cases

An actual sort and slab size, a history with splits, forced re-insertions, root growth, an update, a rebuild and lookups. -/

namespace Ex

def ins {α : Type} (lt : α → α → Bool) (a : α) : List α → List α
  | [] => [a]
  | b :: l => if lt b a then b :: ins lt a l else a :: b :: l

def isort {α : Type} (lt : α → α → Bool) (l : List α) : List α := l.foldr (ins lt) []

theorem ins_perm {α : Type} (lt : α → α → Bool) (a : α) : ∀ l : List α, (ins lt a l).Perm (a :: l)
  | [] => .refl _
  | b :: l => by
      unfold ins
      split
      · exact ((ins_perm lt a l).cons b).trans (.swap a b l)
      · exact .refl _

theorem isort_perm {α : Type} (lt : α → α → Bool) : ∀ l : List α, (isort lt l).Perm l
  | [] => .refl _
  | a :: l => (ins_perm lt a _).trans ((isort_perm lt l).cons a)

def S : Sorter := ⟨isort, isort_perm⟩
def Z : SlabSize := ⟨fun n _ => n * MAXN, fun n _ h => by show 10 ≤ n * 10; omega⟩

/-- 30 cells `[3i, 3i+2) × [5(i%4), 5(i%4)+4)`, added out of order. -/
def cells (k : Nat) : List (Op Nat) :=
  (List.range k).map fun j => let i := (7 * j) % 30; .insert i [3 * i, 5 * (i % 4)] [3 * i + 2, 5 * (i % 4) + 4]

def hist : List (Op Nat) := cells 30 ++ [.search [4, 6], .update [4, 6] [3, 5] [5, 30], .rebuild, .search [4, 29]]

instance (d : Nat) (a b : List Nat) : Decidable (IsBox d a b) := by unfold IsBox; infer_instance
instance (d : Nat) (a : List Nat) : Decidable (IsPoint d a) := by unfold IsPoint Verif.ND.Small; infer_instance

instance decValid (d : Nat) : ∀ (b : Bool) (os : List (Op Nat)), Decidable (Valid d b os)
  | _, [] => .isTrue trivial
  | _, .insert _ lo hi :: os => by have := decValid d true os; unfold Valid; infer_instance
  | ne, .update _ _ _ :: os => by have := decValid d ne os; unfold Valid; infer_instance
  | ne, .rebuild :: os => by have := decValid d ne os; unfold Valid; infer_instance
  | ne, .search _ :: os => by have := decValid d ne os; unfold Valid; infer_instance
  | _, .clear :: os => by have := decValid d false os; unfold Valid; infer_instance

def get {α : Type} (d : α) : Res α → α
  | .ok a => a
  | _ => d

def tree (os : List (Op Nat)) : Tree Nat := get (empty 2) (run S Z os (empty 2))

/-- The hypotheses of `C20_history` and (through `C20_all_entries`) of the theorems about reachable states hold here. -/
example : Valid 2 false hist := by decide +kernel
example : ∃ t, run S Z hist (empty 2) = .ok t ∧ (getAllEntries t).Perm (inserted hist []) := C20_history (by decide) hist (by decide +kernel)

/-- 30 entries; the tree before the rebuild has an inner root. -/
example : (tree (cells 30)).entries.length = 30 ∧ height (tree (cells 30)) = 2 ∧ 3 ≤ (tree (cells 30)).nodes.length := by decide +kernel
example : height (tree hist) = 2 := by decide +kernel

/-- C21: a hit, a hit only possible after the update, a miss. -/
example : (searchPoint (tree (cells 30)) [4, 6]).map Prod.snd = .ok (some 1) := by decide +kernel
example : (searchPoint (tree (cells 30)) [4, 29]).map Prod.snd = .ok none := by decide +kernel
example : (searchPoint (tree hist) [4, 29]).map Prod.snd = .ok (some 1) := by decide +kernel

/-- C22. -/
example : (searchRegion (tree (cells 30)) [4, 0] [12, 8]).map (isort (fun a b => decide (a < b))) = .ok [1] := by decide +kernel
example : (searchRegion (tree (cells 30)) [4, 0] [13, 20]).map (isort (fun a b => decide (a < b))) = .ok [1, 2, 3, 4] := by decide +kernel

/-- C25. -/
example : (getBoundingBox (tree (cells 30))).map (fun b => (b.start, b.stop)) = .ok ([0, 0], [89, 19]) := by decide +kernel

/-- Outside of what the code supports: point lookup and box update on an empty tree read `m_nodes[INVALID_SLOT]`, and rebuilding an empty tree
    fails the assertion at the end of `RebuildSTR`. -/
example : searchPoint (empty 2 : Tree Nat) [0, 0] = .ub := rfl
example : updateBoundingBox (empty 2 : Tree Nat) [0, 0] [0, 0] [1, 1] = .ub := rfl
example : rebuildSTR S Z (empty 2 : Tree Nat) = .abort := by decide +kernel

end Ex

end Verif.Tree
