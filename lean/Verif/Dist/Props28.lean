import Verif.Dist.Hist
import Verif.Dist.Props27
/-
C28 (flushed libraries reopen), C29 (identifiers), C30 (reads), C31 (AppendSlice), C47 (merging libraries).
-/
namespace Verif.Dist
open Verif Verif.ND Verif.Tree Verif.Bytes Verif.Stream Verif.NullSup

variable {C : Cfg} {S : Sorter} {Z : SlabSize}

/-! ### C30: every history -/

/-- **C30 (part).** Every allowed history of opening, closing, registering, appending, reading, filling, flushing, swapping axes, moving, clearing
    and importing runs without error for every cache size and every admissible sorting function of the tree, and every call answers as if each
    library were a list of boxes with values: an element read at a global index is the value of the chunk covering it, and `FillArray` writes exactly
    the values of the covered indices of the region.

    Missing from the full property: reading a region that is not covered is not detected (`C30_uncovered_not_detected`), padded chunks stored as
    "all zero" cannot be read element by element (`C30_padded_null_aborts`), and identifiers must not have been used before
    (`C29_reopened_library_mixes_chunks`); these are excluded in `Legal`. -/
theorem C30_library_history_partial (C : Cfg) (hC : C.Ok) (S : Sorter) (Z : SlabSize) (fs : FS) (hfs : ∀ d, fs (d, .index) = none) (ops : List LOp)
    (hops : AllLegal C (World.init fs) ops) :
    ∃ st rs, MState.run C S ⟨none, fs⟩ ops = .ok (st, rs) ∧ AllAnswer C (World.init fs) ops rs := by
  obtain ⟨st, rs, h1, h2, _⟩ := runW_ok (Z := Z) hC ops (WInv.init hfs) hops
  exact ⟨st, rs, h1, h2⟩

/-! ### Continuing a history -/

theorem MState.run_append (C : Cfg) (S : Sorter) : ∀ (ops ops' : List LOp) (st st₁ : MState) (rs : List Out), st.run C S ops = .ok (st₁, rs) →
    st.run C S (ops ++ ops') = (st₁.run C S ops').bind fun r => .ok (r.1, rs ++ r.2)
  | [], ops', st, st₁, rs, h => by
      cases h
      show st.run C S ops' = _
      cases st.run C S ops' <;> rfl
  | op :: ops, ops', st, st₁, rs, h => by
      simp only [MState.run, List.cons_append] at h ⊢
      cases e : st.step C S op with
      | ok r =>
        rw [e] at h
        simp only [Res.ok_bind] at h ⊢
        cases e' : r.1.run C S ops with
        | ok r' =>
          rw [e'] at h
          simp only [Res.ok_bind] at h
          cases h
          rw [MState.run_append C S ops ops' r.1 r'.1 r'.2 e']
          cases r'.1.run C S ops' <;> rfl
        | _ => rw [e'] at h; cases h
      | _ => rw [e] at h; cases h

theorem World.run_append (C : Cfg) : ∀ (ops ops' : List LOp) (w : World), w.run C (ops ++ ops') = (w.run C ops).run C ops'
  | [], _, _ => rfl
  | op :: ops, ops', w => World.run_append C ops ops' (w.next C op)

theorem AllLegal.append : ∀ {ops ops' : List LOp} {w : World}, AllLegal C w (ops ++ ops') ↔ AllLegal C w ops ∧ AllLegal C (w.run C ops) ops'
  | [], _, _ => ⟨fun h => ⟨trivial, h⟩, fun h => h.2⟩
  | op :: ops, ops', w => by
      show (Legal C w op ∧ AllLegal C (w.next C op) (ops ++ ops')) ↔ (Legal C w op ∧ AllLegal C (w.next C op) ops) ∧ _
      rw [AllLegal.append]
      exact ⟨fun h => ⟨⟨h.1, h.2.1⟩, h.2.2⟩, fun h => ⟨h.1.1, h.1.2, h.2⟩⟩

/-- What `operator[]` returns after a history. -/
def readsAfter (C : Cfg) (S : Sorter) (fs : FS) (ops : List LOp) (i : List Nat) (v : List Nat) : Prop :=
  ∃ st rs, MState.run C S ⟨none, fs⟩ (ops ++ [.get i]) = .ok (st, rs ++ [.vec v])

theorem reads_ok (hC : C.Ok) (S : Sorter) (Z : SlabSize) {fs : FS} (hfs : ∀ d, fs (d, .index) = none) {ops : List LOp} (hops : AllLegal C (World.init fs) ops)
    {l : LibSpec} (hl : ((World.init fs).run C ops).cur = some l) {p : Piece} (hp : p ∈ l.pieces) (hpl : p.Plain)
    {i : List Nat} (hi : InBox p.start p.stop i) :
    ∃ v, readsAfter C S fs ops i v ∧ VEq (p.val i) v := by
  obtain ⟨st, rs, h1, h2, h3⟩ := runW_ok (S := S) (Z := Z) hC ops (WInv.init hfs) hops
  obtain ⟨st', r, e1, e2, e3⟩ := stepW_ok hC h3 (.get i) ⟨l, p, hl, hp, hi, hpl⟩
  cases r with
  | vec v =>
    refine ⟨v, ⟨st', rs, ?_⟩, e2 l hl p hp hi⟩
    rw [MState.run_append C S ops [.get i] _ _ _ h1]
    simp only [MState.run, e1, Res.ok_bind]
  | unit => exact e2.elim
  | buf b => exact e2.elim
  | ind b => exact e2.elim
  | num b => exact e2.elim
  | calls b => exact e2.elim

/-! ### C31: AppendSlice -/

/-- **C31 (part).** After any allowed history, appending a slice directly behind a chunk (stored in a file, without padding) succeeds; every element
    that could be read before still reads the same, and every element of the slice is found at its global index.

    Missing from the full property: chunks stored as "all zero" reject the slice (`C31_append_to_null_throws`). -/
theorem C31_append_slice_partial (C : Cfg) (hC : C.Ok) (S : Sorter) (Z : SlabSize) (fs : FS) (hfs : ∀ d, fs (d, .index) = none) (ops : List LOp) (start : List Nat) (s : Arr)
    (hops : AllLegal C (World.init fs) (ops ++ [.append start s])) (l : LibSpec) (hl : ((World.init fs).run C ops).cur = some l) :
    (∀ p ∈ l.pieces, p.Plain → ∀ i, InBox p.start p.stop i → ∃ v, readsAfter C S fs (ops ++ [.append start s]) i v ∧ VEq (p.val i) v) ∧
    (∀ i, InBox start (addVec start s.shape) i → ∃ u v, s.get C.vd (subVec i start) = .ok u ∧ readsAfter C S fs (ops ++ [.append start s]) i v ∧ VEq u v) := by
  have hops' := hops
  rw [AllLegal.append] at hops
  obtain ⟨ho, ⟨l', k, p, hl', hc⟩, _⟩ := hops
  rw [hl] at hl'; cases hl'
  obtain ⟨st, rs, h1, h2, h3⟩ := runW_ok (S := S) (Z := Z) hC ops (WInv.init hfs) ho
  obtain ⟨lib, cs, a1, a2, a3, a4, a5, a6, a7, a8⟩ := h3.opened l hl
  obtain ⟨c, c1, c2⟩ := a3.right hc.at_
  have hpl := a2.chunky.placed c (List.mem_of_getElem? c1)
  have kd := hC.dims
  have b1 := hpl.startLen
  have b2 := hpl.stopLen
  rw [c2.start] at b1
  rw [c2.stop] at b2
  have hso : ∀ d < C.dims, p.start.getD d 0 < p.stop.getD d 0 := fun d hd => by
    have := hpl.getD_stop d
    have := hpl.pos d hd
    rw [← c2.start, ← c2.stop]; omega
  have hnext : ((World.init fs).run C (ops ++ [.append start s])).cur =
      some { l with pieces := l.pieces.map fun p => if start = p.start.set 0 (p.stop.getD 0 0) then p.extend C s else p } := by
    rw [World.run_append]
    show (World.next C _ _).cur = _
    unfold World.next; rw [hl]
  have hsl : s.shape.length = C.dims := hc.arr.fit.len
  have hsh : ∀ d, 0 < d → d < C.dims → s.shape.getD d 0 = p.stop.getD d 0 - p.start.getD d 0 := by
    intro d hd0 hd
    have h9 : s.shape.tail.getD (d - 1) 0 = (subVec p.stop p.start).tail.getD (d - 1) 0 := by rw [hc.tail]
    rw [List.getD_eq_getElem?_getD, List.getD_eq_getElem?_getD, List.getElem?_tail, List.getElem?_tail, show d - 1 + 1 = d by omega, ← List.getD_eq_getElem?_getD,
      ← List.getD_eq_getElem?_getD, getD_subVec (by omega)] at h9
    exact h9
  constructor
  · intro q hq hqp i hi
    by_cases he : start = q.start.set 0 (q.stop.getD 0 0)
    · have hval : (q.extend C s).val i = q.val i := by
        show (if i.getD 0 0 < q.stop.getD 0 0 then q.val i else _) = _
        obtain ⟨c', d1, d2⟩ := a3.rightMem hq
        have := (a2.chunky.placed c' d1).startLen
        rw [d2.start] at this
        have hil := hi.1
        rw [if_pos (hi.2.2 0 (by omega)).2]
      obtain ⟨v, g1, g2⟩ := reads_ok hC S Z hfs hops' hnext (p := q.extend C s) (List.mem_map.2 ⟨q, hq, if_pos he⟩) hqp (i := i) (by
        obtain ⟨c', d1, d2⟩ := a3.rightMem hq
        have hq1 := (a2.chunky.placed c' d1).startLen
        have hq2 := (a2.chunky.placed c' d1).stopLen
        rw [d2.start] at hq1; rw [d2.stop] at hq2
        have hil := hi.1
        refine ⟨hi.1, by show _ = (q.stop.set 0 _).length; rw [List.length_set]; exact hi.2.1, fun d hd => ?_⟩
        have := hi.2.2 d hd
        show q.start.getD d 0 ≤ _ ∧ _ < (q.stop.set 0 _).getD d 0
        rw [getD_set0 (by omega)]
        split
        · rename_i e; subst e; omega
        · exact this)
      exact ⟨v, g1, by rw [hval] at g2; exact g2⟩
    · exact reads_ok hC S Z hfs hops' hnext (p := q) (List.mem_map.2 ⟨q, hq, if_neg he⟩) hqp hi
  · intro i hi
    have hst : start.length = C.dims := by rw [hc.start, List.length_set]; exact b1
    have hil : i.length = C.dims := by rw [hi.1, hst]
    have hgd : ∀ d, start.getD d 0 = if d = 0 then p.stop.getD 0 0 else p.start.getD d 0 := fun d => by rw [hc.start, getD_set0 (by omega)]
    have hi' : ∀ d < C.dims, start.getD d 0 ≤ i.getD d 0 ∧ i.getD d 0 < start.getD d 0 + s.shape.getD d 0 := fun d hd => by
      have := hi.2.2 d (by omega)
      rwa [getD_addVec (by omega)] at this
    obtain ⟨u, hu, _⟩ := hc.arr.get hC (i := subVec i start) ⟨by rw [length_subVec (by omega)]; omega, fun d hd => by
      rw [getD_subVec (by omega)]
      have := hi' d (by omega)
      omega⟩
    obtain ⟨v, g1, g2⟩ := reads_ok hC S Z hfs hops' hnext (p := p.extend C s) (List.mem_map.2 ⟨p, List.mem_of_getElem? hc.at_, if_pos hc.start⟩) (fun h => absurd h hc.file) (i := i) (by
      refine ⟨by rw [hil]; exact b1.symm, by show _ = (p.stop.set 0 _).length; rw [List.length_set]; omega, fun d hd => ?_⟩
      have h8 := hi' d (by omega)
      rw [hgd] at h8
      have := hso d (by omega)
      show p.start.getD d 0 ≤ _ ∧ _ < (p.stop.set 0 _).getD d 0
      rw [getD_set0 (by omega)]
      by_cases hd0 : d = 0
      · subst hd0; simp only [if_true] at *; omega
      · have := hsh d (by omega) (by omega)
        simp only [if_neg hd0] at *; omega)
    refine ⟨u, v, hu, g1, ?_⟩
    have hval : (p.extend C s).val i = u := by
      show (if i.getD 0 0 < p.stop.getD 0 0 then p.val i else elemOr (s.get C.vd (subVec i (p.start.set 0 (p.stop.getD 0 0))))) = u
      have h8 := hi' 0 kd
      rw [hgd 0, if_pos rfl] at h8
      rw [if_neg (by omega), ← hc.start, hu]; rfl
    rw [hval] at g2; exact g2

/-! ### C28: flush and reopen -/

/-- **C28 (part).** After any allowed history, flushing the open library and constructing a second library from its directory succeeds; the second
    library lists the same metadata, and reads the same value as the first one at every index covered by a chunk.

    Missing from the full property: padded chunks stored as "all zero" (`C30_padded_null_aborts`). -/
theorem C28_flush_reopen_partial (C : Cfg) (hC : C.Ok) (S : Sorter) (Z : SlabSize) (fs : FS) (hfs : ∀ d, fs (d, .index) = none) (ops : List LOp)
    (hops : AllLegal C (World.init fs) ops) (l : LibSpec) (hl : ((World.init fs).run C ops).cur = some l) (hn : l.pieces.length < 2 ^ 64) (init : List Nat) :
    ∃ st rs lib lib₁ fs₁ lib₂ ms, MState.run C S ⟨none, fs⟩ ops = .ok (st, rs) ∧ st.lib = some lib ∧ lib.flush C st.fs = .ok (lib₁, fs₁) ∧
      Lib.open C S fs₁ l.dir init = .ok lib₂ ∧ lib₁.idx.all = .ok ms ∧ lib₂.idx.all = .ok ms ∧ ms.length = l.pieces.length ∧
      ∀ p ∈ l.pieces, p.Plain → ∀ i, InBox p.start p.stop i →
        ∃ r₁ r₂, lib₁.get C fs₁ i = .ok r₁ ∧ lib₂.get C fs₁ i = .ok r₂ ∧ VEq r₁.2.2 r₂.2.2 ∧ VEq (p.val i) r₂.2.2 := by
  obtain ⟨st, rs, h1, h2, h3⟩ := runW_ok (S := S) (Z := Z) hC ops (WInv.init hfs) hops
  obtain ⟨lib, cs, a1, a2, a3, a4, a5, a6, a7, a8⟩ := h3.opened l hl
  obtain ⟨lib₁, fs₁, e1, e2, e3, e4, e5⟩ := flushLib_ok hC a2
  rw [a5] at e4
  obtain ⟨lib₂, g1, g2, g3, g4⟩ := reopen_ok (S := S) (Z := Z) hC e4 (by rw [a3.1]; exact hn) init
  refine ⟨st, rs, lib, lib₁, fs₁, lib₂, cs.map Prod.fst, h1, a1, e1, g1, e2.idx.all_ok, g4.idx.all_ok, by rw [List.length_map, a3.1], fun p hp hpl i hi => ?_⟩
  obtain ⟨c, c1, c2⟩ := a3.rightMem hp
  have hic : InBox c.1.start c.1.stop i := by rw [c2.start, c2.stop]; exact hi
  obtain ⟨l1, f1, v, w, k1, _, _, _, k2, k3, _⟩ := get_ok hC e2 c1 hic (c2.plain a2.chunky c1 hpl)
  obtain ⟨l2, f2, v', w', k1', _, _, _, k2', k3', _⟩ := get_ok hC g4 c1 hic (c2.plain a2.chunky c1 hpl)
  rw [k2] at k2'; cases k2'
  obtain ⟨u, q1, q2⟩ := c2.val i hi
  rw [k2] at q1; cases q1
  exact ⟨_, _, k1, k1', k3.symm.trans k3', q2.trans k3'⟩

/-! ### C47: merging libraries -/

/-- **C47 (part).** After any allowed history, importing the library of another directory makes all its chunks readable at their indices, and all
    chunks that were readable before read the same; the imported chunks get new, different identifiers; if the library is copied, it can
    still be opened and is unchanged.

    Missing from the full property: identifiers of existing chunks must be below the counter of the importing library, which fails after
    reopening (`C47_import_after_reopen_mixes_chunks`). -/
theorem C47_import_partial (C : Cfg) (hC : C.Ok) (S : Sorter) (Z : SlabSize) (fs : FS) (hfs : ∀ d, fs (d, .index) = none) (ops : List LOp) (dir : Nat) (mv : Bool)
    (l : LibSpec) (ps : List Piece) (hl : ((World.init fs).run C ops).cur = some l) (hd : ((World.init fs).run C ops).disk dir = some ps)
    (hops : AllLegal C (World.init fs) (ops ++ [.import dir mv])) :
    (∀ p ∈ l.pieces ++ ps, p.Plain → ∀ i, InBox p.start p.stop i → ∃ v, readsAfter C S fs (ops ++ [.import dir mv]) i v ∧ VEq (p.val i) v) ∧
    (∃ l', ((World.init fs).run C (ops ++ [.import dir mv])).cur = some l' ∧ l'.pieces.length = l.pieces.length + ps.length ∧ l'.pieces.take l.pieces.length = l.pieces ∧
      (l'.pieces.map Piece.id).drop l.pieces.length = (List.range ps.length).map (l.next + ·) ∧ ∀ p ∈ l.pieces, p.id < l.next) ∧
    (mv = false → ((World.init fs).run C (ops ++ [.import dir mv])).disk dir = some ps) := by
  have hops' := hops
  rw [AllLegal.append] at hops
  obtain ⟨ho, ⟨l', ps', hl', hc⟩, _⟩ := hops
  rw [hl] at hl'; cases hl'
  have := hc.disk
  rw [hd] at this; cases this
  have hnext : (World.init fs).run C (ops ++ [.import dir mv]) =
    { cur := some ⟨l.dir, l.next + ps.length, l.pieces ++ renumbered l.next ps⟩
      disk := if mv then upd ((World.init fs).run C ops).disk dir none else ((World.init fs).run C ops).disk
      names := upd (if mv then upd ((World.init fs).run C ops).names dir fun _ => False else ((World.init fs).run C ops).names) l.dir
        fun n => ((World.init fs).run C ops).names l.dir n ∨ ((World.init fs).run C ops).names dir n } := by
    rw [World.run_append]
    show World.next C _ _ = _
    unfold World.next; rw [hl]; simp only [hd, Option.getD_some]
  have hcur : ((World.init fs).run C (ops ++ [.import dir mv])).cur = some ⟨l.dir, l.next + ps.length, l.pieces ++ renumbered l.next ps⟩ := by rw [hnext]
  refine ⟨fun p hp hpl i hi => ?_, ⟨_, hcur, ?_, ?_, ?_, hc.fresh⟩, fun hm => by rw [hnext, hm]; exact hd⟩
  · rcases List.mem_append.1 hp with hp | hp
    · exact reads_ok hC S Z hfs hops' hcur (p := p) (List.mem_append_left _ hp) hpl hi
    · obtain ⟨k, hk⟩ := List.getElem?_of_mem hp
      have hmem : { p with id := l.next + k } ∈ renumbered l.next ps := by
        unfold renumbered
        exact List.mem_map.2 ⟨(p, k), List.mem_zipIdx_iff_getElem?.2 hk, rfl⟩
      exact reads_ok hC S Z hfs hops' hcur (p := { p with id := l.next + k }) (List.mem_append_right _ hmem) hpl hi
  · simp [renumbered]
  · simp
  · simp only [List.map_append]
    rw [List.drop_left' (by simp)]
    apply List.ext_getElem?
    intro k
    unfold renumbered
    rw [List.getElem?_map, List.getElem?_map, List.getElem?_zipIdx, List.getElem?_map]
    by_cases hk : k < ps.length
    · rw [List.getElem?_eq_getElem hk, List.getElem?_range hk]; simp
    · rw [List.getElem?_eq_none (by omega), List.getElem?_eq_none (by simp; omega)]; rfl

/-! ### C29: identifiers -/

/-- Every `open` of the history finds a directory without a library. -/
def OpensNew (C : Cfg) : World → List LOp → Prop
  | _, [] => True
  | w, op :: ops => (match op with | .open dir _ => w.disk dir = none | _ => True) ∧ OpensNew C (w.next C op) ops

/-- **C29 (part).** In every allowed history in which no library is reopened, the identifiers of the chunks of the open library are different and
    below the counter: a new chunk (whose identifier is the counter) gets a new identifier, and every import finds the identifiers it issues
    unused.

    Missing from the full property: after reopening, the counter starts at 0 again (`C29_reopened_library_mixes_chunks`). -/
theorem C29_identifiers_fresh_partial (C : Cfg) : ∀ (ops : List LOp) (w : World), AllLegal C w ops → OpensNew C w ops →
    (∀ l, w.cur = some l → (∀ p ∈ l.pieces, p.id < l.next) ∧ (l.pieces.map Piece.id).Nodup) →
    ∀ l, (w.run C ops).cur = some l → (∀ p ∈ l.pieces, p.id < l.next) ∧ (l.pieces.map Piece.id).Nodup
  | [], w, _, _, h => h
  | op :: ops, w, hl, ho, h => by
      refine C29_identifiers_fresh_partial C ops (w.next C op) hl.2 ho.2 ?_
      intro l' hl'
      have hleg := hl.1
      have hopen := ho.1
      cases hcur : w.cur with
      | none =>
        cases op with
        | «open» dir init =>
          unfold World.next at hl'
          simp only [hcur] at hl'
          have hopen : w.disk dir = none := hopen
          rw [hopen] at hl'
          cases hl'
          exact ⟨fun p hp => (by cases hp), .nil⟩
        | _ =>
          exfalso
          simp only [Legal, hcur] at hleg
          simp at hleg
      | some l =>
        obtain ⟨h1, h2⟩ := h l hcur
        unfold World.next at hl'
        cases op with
        | «open» dir init => simp only [Legal, hcur] at hleg; simp at hleg
        | register uuid a start stop overlap opt =>
          simp only [hcur] at hl'
          cases hl'
          refine ⟨fun p hp => ?_, ?_⟩
          · rcases List.mem_append.1 hp with hp | hp
            · have := h1 p hp
              show p.id < l.next + 1; omega
            · rw [List.mem_singleton] at hp; subst hp
              show l.next < l.next + 1; omega
          · rw [List.map_append, List.nodup_append]
            refine ⟨h2, by simp, fun x hx y hy e => ?_⟩
            subst e
            obtain ⟨p, hp, rfl⟩ := List.mem_map.1 hx
            have := h1 p hp
            simp only [List.map_cons, List.map_nil, List.mem_singleton] at hy
            have hy : p.id = l.next := hy
            omega
        | append start s =>
          simp only [hcur] at hl'
          cases hl'
          have hid : ∀ p : Piece, (if start = p.start.set 0 (p.stop.getD 0 0) then p.extend C s else p).id = p.id := fun p => by split <;> rfl
          refine ⟨fun p hp => ?_, ?_⟩
          · obtain ⟨q, hq, rfl⟩ := List.mem_map.1 hp
            rw [hid]; exact h1 q hq
          · rw [List.map_map]
            have : (Piece.id ∘ fun p : Piece => if start = p.start.set 0 (p.stop.getD 0 0) then p.extend C s else p) = Piece.id := funext hid
            rw [this]; exact h2
        | swap x y =>
          simp only [hcur] at hl'
          cases hl'
          refine ⟨fun p hp => ?_, ?_⟩
          · obtain ⟨q, hq, rfl⟩ := List.mem_map.1 hp
            exact h1 q hq
          · rw [List.map_map]; exact h2
        | move dir => simp only [hcur] at hl'; cases hl'; exact ⟨h1, h2⟩
        | clear => simp only [hcur] at hl'; cases hl'; exact ⟨fun p hp => (by cases hp), .nil⟩
        | «import» dir mv =>
          simp only [hcur] at hl'
          cases hl'
          have hr : ∀ ps : List Piece, ∀ p ∈ renumbered l.next ps, l.next ≤ p.id ∧ p.id < l.next + ps.length := by
            intro ps p hp
            unfold renumbered at hp
            obtain ⟨q, q1, rfl⟩ := List.mem_map.1 hp
            rw [List.mem_zipIdx_iff_getElem?] at q1
            have := lt_of_get? q1
            show l.next ≤ l.next + q.2 ∧ l.next + q.2 < _
            omega
          refine ⟨fun p hp => ?_, ?_⟩
          · rcases List.mem_append.1 hp with hp | hp
            · have := h1 p hp
              show p.id < l.next + _; omega
            · exact (hr _ p hp).2
          · rw [List.map_append, List.nodup_append]
            refine ⟨h2, ?_, fun x hx y hy e => ?_⟩
            · unfold renumbered
              rw [List.map_map]
              unfold List.Nodup
              rw [List.pairwise_map, List.pairwise_iff_getElem]
              intro i j hi hj hij
              simp only [List.length_zipIdx] at hi hj
              simp only [List.getElem_zipIdx, Function.comp]
              omega
            · subst e
              obtain ⟨p, hp, rfl⟩ := List.mem_map.1 hx
              obtain ⟨p', hp', e⟩ := List.mem_map.1 hy
              have := h1 p hp
              have := (hr _ p' hp').1
              omega
        | close => simp only [hcur] at hl'; cases hl'
        | get i => simp only at hl'; rw [hcur] at hl'; cases hl'; exact ⟨h1, h2⟩
        | fill P st hd buf lo hi out => simp only at hl'; rw [hcur] at hl'; cases hl'; exact ⟨h1, h2⟩
        | flush => simp only at hl'; rw [hcur] at hl'; cases hl'; exact ⟨h1, h2⟩
        | query q => simp only at hl'; rw [hcur] at hl'; cases hl'; exact ⟨h1, h2⟩
        | loop lo hi => simp only at hl'; rw [hcur] at hl'; cases hl'; exact ⟨h1, h2⟩
        | loopAll => simp only at hl'; rw [hcur] at hl'; cases hl'; exact ⟨h1, h2⟩

end Verif.Dist
