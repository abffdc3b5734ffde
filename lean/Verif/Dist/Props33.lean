import Verif.Dist.Props29
/-
C33 (shape queries) and C53 (loops over the elements of a library), for every allowed history.
-/
namespace Verif.Dist
open Verif Verif.ND Verif.Tree Verif.Bytes Verif.Stream Verif.NullSup

variable {C : Cfg}

/-- What the last call of a history returns. -/
theorem last_answer (hC : C.Ok) (S : Sorter) (Z : SlabSize) {fs : FS} (hfs : ∀ d, fs (d, .index) = none) {ops : List LOp} (hops : AllLegal C (World.init fs) ops)
    (op : LOp) (hl : Legal C ((World.init fs).run C ops) op) :
    ∃ st rs r, MState.run C S ⟨none, fs⟩ (ops ++ [op]) = .ok (st, rs ++ [r]) ∧ Answer C ((World.init fs).run C ops) op r := by
  obtain ⟨st, rs, h1, h2, h3⟩ := runW_ok (S := S) (Z := Z) hC ops (WInv.init hfs) hops
  obtain ⟨st', r, e1, e2, e3⟩ := stepW_ok hC h3 op hl
  refine ⟨st', rs, r, ?_, e2⟩
  rw [MState.run_append C S ops [op] _ _ _ h1]
  simp only [MState.run, e1, Res.ok_bind]

/-- **C33.** After any allowed history, `GetStartInd` and `GetEndInd` return the corners of the smallest box around all chunks, `GetShape` its extents if the
    chunks leave no gap in this box and zeros if they do, and `GetVolume` the number of elements of the box if the chunks leave no gap and 0 if they do
    (`ShapeAnswer`); of a library without chunks, all are zero.  The box must have fewer than `2^64` elements. -/
theorem C33_shape_queries (C : Cfg) (hC : C.Ok) (S : Sorter) (Z : SlabSize) (fs : FS) (hfs : ∀ d, fs (d, .index) = none) (ops : List LOp)
    (hops : AllLegal C (World.init fs) ops) (l : LibSpec) (hl : ((World.init fs).run C ops).cur = some l)
    (hv : ∀ lo hi, IsHull C.dims l.pieces lo hi → boxVolume lo hi < 2 ^ 64) (q : Query) :
    ∃ st rs r, MState.run C S ⟨none, fs⟩ (ops ++ [.query q]) = .ok (st, rs ++ [r]) ∧ ShapeAnswer C.dims l.pieces q r := by
  obtain ⟨st, rs, r, h1, h2⟩ := last_answer hC S Z hfs hops (.query q) ⟨l, hl, hv⟩
  exact ⟨st, rs, r, h1, h2 l hl⟩

/-- **C53 (part).** After any allowed history, `index_loop_over_elements(start, end, worker)` calls the worker exactly once for each index of the region
    that a chunk covers, with the value of that chunk, and for no other index; `index_loop_over_elements(worker)` does so for all covered indices
    if the chunks fill a box that starts at index 0.

    Missing from the full property: padded chunks stored as "all zero" (`Piece.Plain`); `index_loop_over_elements(worker)` on libraries that start elsewhere or have gaps
    (`C53_loop_misses_elements`, `C53_loop_with_gap_visits_nothing`). -/
theorem C53_element_loops_partial (C : Cfg) (hC : C.Ok) (S : Sorter) (Z : SlabSize) (fs : FS) (hfs : ∀ d, fs (d, .index) = none) (ops : List LOp)
    (hops : AllLegal C (World.init fs) ops) (l : LibSpec) (hl : ((World.init fs).run C ops).cur = some l)
    (hpl : ∀ p ∈ l.pieces, p.Plain) :
    (∀ lo hi, RegOkay C lo hi → ∃ st rs calls, MState.run C S ⟨none, fs⟩ (ops ++ [.loop lo hi]) = .ok (st, rs ++ [.calls calls]) ∧
      LoopAnswer l.pieces (fun i => InBox lo hi i ∧ Covered l.pieces i) calls) ∧
    (∀ hi, IsHull C.dims l.pieces (List.replicate C.dims 0) hi → Filled l.pieces (List.replicate C.dims 0) hi → boxVolume (List.replicate C.dims 0) hi < 2 ^ 64 →
      ∃ st rs calls, MState.run C S ⟨none, fs⟩ (ops ++ [.loopAll]) = .ok (st, rs ++ [.calls calls]) ∧ LoopAnswer l.pieces (Covered l.pieces) calls) := by
  constructor
  · intro lo hi hr
    obtain ⟨st, rs, r, h1, h2⟩ := last_answer hC S Z hfs hops (.loop lo hi) ⟨l, hl, hr, hpl⟩
    cases r with
    | calls cs => exact ⟨st, rs, cs, h1, h2 l hl⟩
    | _ => exact h2.elim
  · intro hi hh hf hv
    obtain ⟨st, rs, r, h1, h2⟩ := last_answer hC S Z hfs hops .loopAll ⟨l, hi, hl, hh, hv, hf, hpl⟩
    cases r with
    | calls cs => exact ⟨st, rs, cs, h1, h2 l hl⟩
    | _ => exact h2.elim

namespace Ex

/-- Two chunks that fill `[0, 2) x [0, 4)`. -/
def full : List LOp :=
  [.open 0 [1, 1], .register [65] a0 [0, 0] [2, 2] 0 false, .register [66] a0 [0, 2] [2, 4] 0 false]

theorem full_legal : AllLegal (cfg 1) (World.init fun _ => none) full := by
  refine ⟨⟨rfl, by decide⟩, ⟨_, rfl, canRegister (n := 2) (m := 2) (x := 0) (y := 0) (by decide) (by decide) rfl (by decide) (by decide) (by decide) (by decide)
      (fun p hp => by cases hp) (by decide)⟩,
    ⟨_, rfl, canRegister (n := 2) (m := 2) (x := 0) (y := 2) (by decide) (by decide) rfl (by decide) (by decide) (by decide) (by decide)
      (fun p hp => ?_) (by decide)⟩, trivial⟩
  rcases List.mem_cons.1 hp with rfl | hp
  · exact ⟨⟨1, by decide, Or.inl (by decide)⟩, by decide, by decide⟩
  · cases hp

example : outs (MState.run (cfg 1) Tree.Ex.S ⟨none, fun _ => none⟩ (full ++ [.query .start, .query .stop, .query .shape, .query .volume, .loop [1, 1] [5, 3], .loopAll])) =
    .ok [.unit, .unit, .unit, .ind [0, 0], .ind [2, 4], .ind [2, 4], .num 8, .calls [([1, 1], [4]), ([1, 2], [3])],
      .calls [([0, 0], [1]), ([0, 1], [2]), ([1, 0], [3]), ([1, 1], [4]), ([0, 2], [1]), ([0, 3], [2]), ([1, 2], [3]), ([1, 3], [4])]] := by decide +kernel

/-- The pieces after this history. -/
theorem full_hull {lo hi : List Nat} {l : LibSpec} (hl : ((World.init fun _ => none).run (cfg 1) full).cur = some l) (h : IsHull 2 l.pieces lo hi) :
    lo = [0, 0] ∧ hi = [2, 4] := by
  cases hl
  obtain ⟨h1, h2, h3, h4, h5⟩ := h
  match lo, h1, hi, h2 with
  | [x, y], _, [z, w], _ =>
    have a := h3 0 (by decide) _ (List.mem_cons_self)
    have b := h3 1 (by decide) _ (List.mem_cons_self)
    have b' := h3 1 (by decide) _ (List.mem_cons_of_mem _ List.mem_cons_self)
    obtain ⟨p, hp, e⟩ := h5 0 (by decide)
    obtain ⟨p', hp', e'⟩ := h5 1 (by decide)
    have a : x ≤ 0 ∧ 2 ≤ z := a
    have b : y ≤ 0 ∧ 2 ≤ w := b
    have b' : y ≤ 2 ∧ 4 ≤ w := b'
    have e : p.stop.getD 0 0 = z := e
    have e' : p'.stop.getD 1 0 = w := e'
    have c : p.stop.getD 0 0 = 2 := by
      rcases List.mem_cons.1 hp with rfl | hp
      · rfl
      · rcases List.mem_cons.1 hp with rfl | hp
        · rfl
        · cases hp
    have c' : p'.stop.getD 1 0 ≤ 4 := by
      rcases List.mem_cons.1 hp' with rfl | hp'
      · show 2 ≤ 4; omega
      · rcases List.mem_cons.1 hp' with rfl | hp'
        · show 4 ≤ 4; omega
        · cases hp'
    refine ⟨?_, ?_⟩ <;> congr 1
    · omega
    · congr 1; omega
    · omega
    · congr 1; omega

/-- C33 applies to this history. -/
example (q : Query) : ∃ l st rs r, ((World.init fun _ => none).run (cfg 1) full).cur = some l ∧ l.pieces.length = 2 ∧
    MState.run (cfg 1) Tree.Ex.S ⟨none, fun _ => none⟩ (full ++ [.query q]) = .ok (st, rs ++ [r]) ∧ ShapeAnswer 2 l.pieces q r := by
  obtain ⟨st, rs, r, h⟩ := C33_shape_queries (cfg 1) (cfg_ok 1) Tree.Ex.S Tree.Ex.Z _ (fun _ => rfl) full full_legal _ rfl
    (fun lo hi h => by
      obtain ⟨rfl, rfl⟩ := full_hull rfl h
      decide) q
  exact ⟨_, st, rs, r, rfl, rfl, h⟩

/-- C53 applies to this history, with a region that cuts both chunks and goes past them. -/
example : ∃ l st rs calls, ((World.init fun _ => none).run (cfg 1) full).cur = some l ∧
    MState.run (cfg 1) Tree.Ex.S ⟨none, fun _ => none⟩ (full ++ [.loop [1, 1] [5, 3]]) = .ok (st, rs ++ [.calls calls]) ∧
    LoopAnswer l.pieces (fun i => InBox [1, 1] [5, 3] i ∧ Covered l.pieces i) calls := by
  obtain ⟨st, rs, r, h⟩ := (C53_element_loops_partial (cfg 1) (cfg_ok 1) Tree.Ex.S Tree.Ex.Z _ (fun _ => rfl) full full_legal _ rfl
      (by intro p hp
          rcases List.mem_cons.1 hp with rfl | hp
          · exact fun _ => rfl
          · rcases List.mem_cons.1 hp with rfl | hp
            · exact fun _ => rfl
            · cases hp)).1 [1, 1] [5, 3]
    ⟨rfl, rfl, fun d hd => by
      have hd : d < 2 := hd
      rcases d with _ | _ | d
      · decide
      · decide
      · omega⟩
  exact ⟨_, st, rs, r, rfl, h⟩

/-- One chunk at `[1, 3) x [0, 2)`. -/
def away : List LOp := [.open 0 [1, 1], .register [65] a0 [1, 0] [3, 2] 0 false]

theorem away_legal : AllLegal (cfg 1) (World.init fun _ => none) away :=
  ⟨⟨rfl, by decide⟩, ⟨_, rfl, canRegister (n := 2) (m := 2) (x := 1) (y := 0) (by decide) (by decide) rfl (by decide) (by decide) (by decide) (by decide)
      (fun p hp => by cases hp) (by decide)⟩, trivial⟩

/-- Two chunks with a gap. -/
def gap : List LOp :=
  [.open 0 [1, 1], .register [65] a0 [0, 0] [2, 2] 0 false, .register [66] a0 [0, 3] [2, 5] 0 false]

theorem gap_legal : AllLegal (cfg 1) (World.init fun _ => none) gap := by
  refine ⟨⟨rfl, by decide⟩, ⟨_, rfl, canRegister (n := 2) (m := 2) (x := 0) (y := 0) (by decide) (by decide) rfl (by decide) (by decide) (by decide) (by decide)
      (fun p hp => by cases hp) (by decide)⟩,
    ⟨_, rfl, canRegister (n := 2) (m := 2) (x := 0) (y := 3) (by decide) (by decide) rfl (by decide) (by decide) (by decide) (by decide)
      (fun p hp => ?_) (by decide)⟩, trivial⟩
  rcases List.mem_cons.1 hp with rfl | hp
  · exact ⟨⟨1, by decide, Or.inl (by decide)⟩, by decide, by decide⟩
  · cases hp

end Ex

/-- **C53, negation.** A library with one chunk at `[1, 3) x [0, 2)`: `index_loop_over_elements(worker)` visits the indices `[0, shape)` that are covered
    and so misses the elements at (2, 0) and (2, 1), although both are readable. -/
theorem C53_loop_misses_elements : AllLegal (Ex.cfg 1) (World.init fun _ => none) Ex.away ∧
    outs (MState.run (Ex.cfg 1) Tree.Ex.S ⟨none, fun _ => none⟩ (Ex.away ++ [.query .shape, .loopAll, .get [2, 0], .get [2, 1]])) =
      .ok [.unit, .unit, .ind [2, 2], .calls [([1, 0], [1]), ([1, 1], [2])], .vec [3], .vec [4]] :=
  ⟨Ex.away_legal, by decide +kernel⟩

/-- **C53, C33, negation.** A library with two chunks and a gap between them: the shape is reported as zero, the volume as 0, and
    `index_loop_over_elements(worker)` visits nothing, although 8 elements are readable. -/
theorem C53_loop_with_gap_visits_nothing : AllLegal (Ex.cfg 1) (World.init fun _ => none) Ex.gap ∧
    outs (MState.run (Ex.cfg 1) Tree.Ex.S ⟨none, fun _ => none⟩ (Ex.gap ++ [.query .start, .query .stop, .query .shape, .query .volume, .get [1, 4], .loopAll])) =
      .ok [.unit, .unit, .unit, .ind [0, 0], .ind [2, 5], .ind [0, 0], .num 0, .vec [4], .calls []] :=
  ⟨Ex.gap_legal, by decide +kernel⟩

end Verif.Dist
