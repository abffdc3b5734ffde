import Verif.Base
/-
Model of `BoundingBox<std::size_t, dims>` (eisvogel/core/impl/RStarTree.hh 120-185, RStarTree.hxx 303-449)
and of eisvogel/core/impl/ChunkUtils.hh.  Vectors are lists of length `dims`.
-/
namespace Verif.Tree
open Verif

/-- RStarTree.hh 179-184: `start_coords`, `end_coords`, `shape`. -/
structure Box where
  start : List Nat
  stop : List Nat
  shape : List Nat
deriving Repr, DecidableEq

/-- Vector.hxx 60-72 `VectorUtils::min` (both arguments unsigned). -/
def vmin (a b : List Nat) : List Nat := List.zipWith min a b
/-- Vector.hxx 74-86 `VectorUtils::max`. -/
def vmax (a b : List Nat) : List Nat := List.zipWith max a b

namespace Box

/-- RStarTree.hxx 303-305, 351-356: default constructor and `reset_bounding_box`; `numeric_limits<size_t>::max()` and
    `min()` in every component, shape zero. -/
def reset (dims : Nat) : Box := ⟨List.replicate dims (U64 - 1), List.replicate dims 0, List.replicate dims 0⟩

/-- RStarTree.hxx 307-309: constructor from start and end; also `update` (344-349). -/
def mk' (start stop : List Nat) : Box := ⟨start, stop, vsub stop start⟩

/-- RStarTree.hxx 311-312: the copy constructor recomputes the shape. -/
def copy (b : Box) : Box := mk' b.start b.stop

/-- RStarTree.hxx 328-342 `extend`. -/
def extend (b c : Box) : Box := mk' (vmin b.start c.start) (vmax b.stop c.stop)

/-- RStarTree.hxx 363-374 `contains`: one unsigned comparison per direction. -/
def contains (b : Box) (p : List Nat) : Bool :=
  (List.range b.start.length).all fun i => decide (wsub (p.getD i 0) (b.start.getD i 0) < b.shape.getD i 0)

/-- RStarTree.hxx 376-393 `overlaps`. -/
def overlaps (b c : Box) : Bool :=
  (List.range b.start.length).all fun i =>
    decide (b.start.getD i 0 < c.stop.getD i 0) && decide (c.start.getD i 0 < b.stop.getD i 0)

/-- RStarTree.hxx 395-398 `volume` (products of `std::size_t`). -/
def volume (b : Box) : Nat := b.shape.foldl (fun a x => a * x % U64) 1

/-- RStarTree.hxx 400-403 `margin`. -/
def margin (b : Box) : Nat := b.shape.foldl wadd 0

/-- RStarTree.hxx 413-427: the loop over the directions. -/
def overlapLoop : List Nat → List Nat → Nat → Nat
  | s :: ss, e :: es, acc => if s < e then overlapLoop ss es (acc * (e - s) % U64) else 0
  | _, _, acc => acc

/-- RStarTree.hxx 405-428 `compute_overlap_volume`. -/
def overlapVolume (b c : Box) : Nat := overlapLoop (vmax b.start c.start) (vmin b.stop c.stop) 1

/-- RStarTree.hxx 430-433 `compute_center`. -/
def center (b : Box) : List Nat := (vadd b.start b.stop).map (· / 2)

/-- RStarTree.hxx 444-449 `compute_center_distance`. Simplification: the sum of squares is taken modulo 2^64; `VectorUtils::inner`
    (Vector.hxx 53-58) accumulates it in a `double`. It only orders the children of a node before re-insertion. -/
def centerDist (b : Box) (c : List Nat) : Nat :=
  ((vsub c b.center).map fun x => x * x % U64).foldl wadd 0

end Box

/-! ### ChunkUtils.hh -/

namespace ChunkUtils

/-- ChunkUtils.hh 7-15. -/
def contains (start shape ind : List Nat) : Bool :=
  (List.range start.length).all fun i => decide (wsub (ind.getD i 0) (start.getD i 0) < shape.getD i 0)

/-- ChunkUtils.hh 17-33. -/
def overlaps (sa ha sb hb : List Nat) : Bool :=
  (List.range sa.length).all fun i =>
    decide (sa.getD i 0 < wadd (sb.getD i 0) (hb.getD i 0)) && decide (sb.getD i 0 < wadd (sa.getD i 0) (ha.getD i 0))

/-- ChunkUtils.hh 35-44 `get_chunk_overlap`: start and shape of the overlap. -/
def overlap (sa ha sb hb : List Nat) : List Nat × List Nat :=
  let st := vmin (vadd sa ha) (vmax sa sb)
  let en := vmin (vadd sa ha) (vadd sb hb)
  (st, vsub en st)

end ChunkUtils

end Verif.Tree
