import Verif.Dist.Lib
import Verif.Rebuild.Pad
/-
Model of `DistributedNDVecArray::RebuildChunks` and `RebuildChunksPartial` (DistributedNDVecArray.hxx 1198-1293, 1342-1363) with boundary evaluators that
ask for the chunk only, such as `SpatialSymmetry::Cylindrical::boundary_evaluator` (Symmetry.hxx), the only evaluator in the library.  Not modelled: evaluators
that ask for the whole distributed array (1255-1269; only used in tests).
-/
namespace Verif.Rebuild
open Verif Verif.ND Verif.Dist

/-- The result of an operation on `int`s: overflow is undefined. -/
def checkI32 (v : List Int) : Res (List Int) := if v.all fun x => decide (-2 ^ 31 ≤ x ∧ x < 2 ^ 31) then .ok v else .ub

/-- Vector.hh 135-140 `operator-`, for `Vector<int, dims>`. -/
def ssub (a b : List Int) : Res (List Int) := checkI32 (List.zipWith (· - ·) a b)

/-- Vector.hh 193-205 `operator+`, `operator-` of a `Vector<int, dims>` and a number (converted to `int`). -/
def saddS (a : List Int) (k : Int) : Res (List Int) := checkI32 (a.map (· + k))

/-- Vector.hh 88-91 `as_type<int>()` of a vector of `size_t`. -/
def asInt (v : List Nat) : List Int := v.map fun (n : Nat) => i32 n

/-- Vector.hh 88-91 `as_type<std::size_t>()` of a vector of `int`. -/
def asSize (v : List Int) : List Nat := v.map u64

/-- A boundary evaluator that asks for the chunk (DistributedNDVecArray.hxx 1270): header and buffer of the chunk, start and end of the padded chunk, index of the
    element; the result is what it assigns to the element. -/
abbrev Bev := Hdr → List Nat → List Int → List Int → List Int → Res (List Nat)

/-- Symmetry.hxx 4-25 `SpatialSymmetry::Cylindrical::boundary_evaluator`; `r` is the first coordinate (Vector.hh, `RZTVector::r`).  (`std::abs` of
    the smallest `int` overflows.) -/
def cylindrical (vd : Nat) : Bev := fun hd buf cs _ i =>
  if i.getD 0 0 < 0 then
    (checkI32 (i.set 0 (-i.getD 0 0))).bind fun w =>
    (ssub w cs).bind fun k =>
    ND.read vd hd buf (asSize k)
  else .ok (List.replicate vd 0)

/-- DistributedNDVecArray.hxx 1245-1254 `is_boundary_element`. -/
def isBoundary (gs ge : List Nat) (i : List Int) : Bool :=
  (List.range i.length).any fun d => decide (i.getD d 0 ≥ (ge.getD d 0 : Int)) || decide (i.getD d 0 < (gs.getD d 0 : Int))

/-- DistributedNDVecArray.hxx 1275-1279 `boundary_filler`. -/
def padOne (vd : Nat) (bev : Bev) (gs ge : List Nat) (ecs ece : List Int) (hd : Hdr) (i : List Int) (buf : List Nat) : Res (List Nat) :=
  (Res.assert (isBoundary gs ge i)).bind fun _ =>
  (ssub i ecs).bind fun k =>
  (bev hd buf ecs ece i).bind fun v => ND.write vd hd buf (asSize k) v

/-- The state of `rebuilder`: the array being rebuilt, the files, the output library, the chunk buffer. -/
structure RState where
  src : Lib
  fs : FS
  out : Lib
  buf : Arr

/-- The parameters of `RebuildChunksPartial`: the two configurations, the boundary evaluator, the range of the whole array, the shift of the output, the
    overlap, the hint `ENABLE_OPT` and the source of names for chunk files. -/
structure RCfg where
  C : Cfg
  C' : Cfg
  S : Tree.Sorter
  bev : Bev
  gs : List Nat
  ge : List Nat
  shift : List Nat
  overlap : Nat
  opt : Bool
  uuid : Nat → List Nat

/-- The contents of the chunk buffer of DistributedNDVecArray.hxx 1226-1281 for the chunk `[b, e)`. -/
def fillChunk (R : RCfg) (b e : List Nat) (src : Lib) (fs : FS) (buf : Arr) : Res (Lib × FS × Arr) :=
  (saddS (asInt b) (-(i32 R.overlap))).bind fun ecs =>
  (saddS (asInt e) (i32 R.overlap)).bind fun ece =>
  let shape := (vsub e b).map (wadd · (2 * R.overlap % U64))
  let lo := vmaxU R.gs ecs
  let hi := vminU R.ge ece
  (ssub (asInt lo) ecs).bind fun o =>
  (resize R.C.vd (buf.hdr R.C.vd) buf.buf shape R.C.junk).bind fun h =>
  (src.fillArray R.C fs h.1 h.2 lo hi (asSize o)).bind fun q =>
  (runLoop (padOne R.C.vd R.bev R.gs R.ge ecs ece h.1) (penetrating R.gs R.ge ecs ece) q.2.2).bind fun d =>
  .ok (q.1, q.2.1, ⟨h.1.shape, d⟩)

/-- DistributedNDVecArray.hxx 1225-1287 `rebuilder`, for the chunk number `n`. -/
def rebuildOne (R : RCfg) (p : (List Nat × List Nat) × Nat) (st : RState) : Res RState :=
  (fillChunk R p.1.1 p.1.2 st.src st.fs st.buf).bind fun q =>
  (st.out.register R.C' R.S q.2.1 (R.uuid p.2) q.2.2 (vadd p.1.1 R.shift) (vadd p.1.2 R.shift) R.overlap R.opt).bind fun o =>
  .ok ⟨q.1, o.2, o.1, q.2.2⟩

/-- The configuration of the library made in DistributedNDVecArray.hxx 1205-1209: streamer chunk size `(1, INFTY, ...)`, no cache. -/
def outCfg (C : Cfg) : Cfg := { C with chunk := (List.replicate C.dims (U64 - 1)).set 0 1, size := 0 }

/-- DistributedNDVecArray.hxx 1198-1293 `RebuildChunksPartial(start, end, output_start, chunk_shape, outdir, overlap, evaluator, hints)`. -/
def rebuildPartial (C : Cfg) (S : Tree.Sorter) (bev : Bev) (uuid : Nat → List Nat) (lib : Lib) (fs : FS) (start stop outStart req : List Nat) (outdir : Nat)
    (overlap : Nat) (opt : Bool) : Res (Lib × FS) :=
  (Lib.open (outCfg C) S fs outdir req).bind fun out =>
  (lib.idx.getStart C).bind fun x =>
  (x.1.getStop C).bind fun y =>
  let R : RCfg := ⟨C, outCfg C, S, bev, x.2, y.2, vsub outStart start, overlap, opt, uuid⟩
  match chunkLoop (fuelFor stop) start stop req with
  | none => .diverge
  | some boxes =>
    (runLoop (rebuildOne R) boxes.zipIdx ⟨⟨lib.cc, y.1⟩, fs, out, ⟨req, (List.range (volume C.vd req)).map C.junk⟩⟩).bind fun st =>
    (st.out.flush (outCfg C) st.fs).bind fun o =>
    (o.1.destroy (outCfg C) o.2).bind fun fs' => .ok (st.src, fs')

/-- The part of `RebuildChunksPartial` before the loop (1200-1224): the parameters of the loop, the boxes of the chunks and the initial state. -/
def partBegin (C : Cfg) (S : Tree.Sorter) (bev : Bev) (uuid : Nat → List Nat) (lib : Lib) (fs : FS) (start stop outStart req : List Nat) (outdir : Nat)
    (overlap : Nat) (opt : Bool) : Res (RCfg × List (List Nat × List Nat) × RState) :=
  (Lib.open (outCfg C) S fs outdir req).bind fun out =>
  (lib.idx.getStart C).bind fun x =>
  (x.1.getStop C).bind fun y =>
  match chunkLoop (fuelFor stop) start stop req with
  | none => .diverge
  | some boxes => .ok (⟨C, outCfg C, S, bev, x.2, y.2, vsub outStart start, overlap, opt, uuid⟩, boxes,
      ⟨⟨lib.cc, y.1⟩, fs, out, ⟨req, (List.range (volume C.vd req)).map C.junk⟩⟩)

/-- The part of `RebuildChunksPartial` after the loop (1292-1293): the output library is flushed and destroyed. -/
def partEnd (C : Cfg) (st : RState) : Res (Lib × FS) :=
  (st.out.flush (outCfg C) st.fs).bind fun o =>
  (o.1.destroy (outCfg C) o.2).bind fun fs' => .ok (st.src, fs')

/-- DistributedNDVecArray.hxx 1342-1363 `RebuildChunks`. -/
def rebuild (C : Cfg) (S : Tree.Sorter) (bev : Bev) (uuid : Nat → List Nat) (lib : Lib) (fs : FS) (req : List Nat) (tmpdir : Nat) (overlap : Nat) (opt : Bool) : Res (Lib × FS) :=
  (lib.idx.getShape C).bind fun x =>
  (rebuildPartial C S bev uuid ⟨lib.cc, x.1⟩ fs (List.replicate C.dims 0) x.2 (List.replicate C.dims 0) req tmpdir overlap opt).bind fun q =>
  (q.1.clear C q.2).bind fun r =>
  (r.1.import C S r.2 tmpdir false).bind fun r =>
  (r.1.flush C r.2).bind fun r =>
  .ok (r.1, fun p => if p.1 = tmpdir then none else r.2 p)

/-- What GreensFunction.hxx 371, 411 does to get at the data around an index: the record of the chunk that covers it, and the padded chunk itself. -/
def chunkAt (C : Cfg) (lib : Lib) (fs : FS) (i : List Nat) : Res (Lib × FS × Meta × Arr) :=
  (lib.idx.getChunk i).bind fun r =>
  match r.2 with
  | none => .ub
  | some (_, m) => (retrieve C lib.cc fs m).bind fun q => .ok (⟨q.1, r.1⟩, q.2.1, m, q.2.2)

end Verif.Rebuild
