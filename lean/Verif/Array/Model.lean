import Verif.Base
/-
Model of eisvogel/core/impl/NDVecArray.hh and NDVecArray.hxx.

An array is a header (`shape`, `strides`, `offset`, `owns`) plus a shared buffer of scalars; views share
the buffer of their parent (`std::shared_ptr<data_t>`).  The buffer contents are passed explicitly
(`buf : List S`), so that several headers can refer to the same buffer.  `vd` is `vec_dims`.
Products and inner products of extents are computed in `Nat`: the guard is that the buffer of the
owning array exists, i.e. its volume is below `2^64`.
-/
namespace Verif.ND
open Verif

/-- NDVecArray.hh 271-282, the data members except the buffer. `m_number_elements`, `m_volume` are
    functions of the shape (258-269). -/
structure Hdr where
  shape : List Nat
  strides : List Nat
  offset : Nat
  owns : Bool
deriving Repr, DecidableEq

/-- NDVecArray.hh 263-265 `ComputeNumberElements`. -/
def numElems (shape : List Nat) : Nat := shape.foldl (· * ·) 1

/-- NDVecArray.hh 267-269 `ComputeVolume`. -/
def volume (vd : Nat) (shape : List Nat) : Nat := numElems shape * vd

/-- NDVecArray.hh 245-256: the right-to-left accumulation of strides: returns the strides (before the
    multiplication with `vec_dims`) and `stride_accum`. -/
def stridesAux : List Nat → List Nat × Nat
  | [] => ([], 1)
  | s :: ss => let r := stridesAux ss; (r.2 :: r.1, r.2 * s)

/-- NDVecArray.hh 235-256 `ComputeStrides` (the 1- and 2-dimensional overloads compute the same). -/
def computeStrides (vd : Nat) (shape : List Nat) : List Nat :=
  (stridesAux shape).1.map (· * vd)

/-- NDVecArray.hh 219-233 `ComputeFlatInd`: inner product of index and strides plus offset. -/
def flatInd (h : Hdr) (ind : List Nat) : Nat :=
  (List.zipWith (· * ·) ind h.strides).foldl (· + ·) h.offset

/-- NDVecArray.hxx 193-206 and NDVecArray.hh 126-133: `has_index`, `index_within_bounds`. -/
def hasIndex (shape ind : List Nat) : Bool :=
  (List.zipWith (fun i s => decide (i < s)) ind shape).all id

/-- NDVecArray.hxx 6-14: constructor of an owning array (header; buffer of `volume` scalars). -/
def mkHdr (vd : Nat) (shape : List Nat) : Hdr :=
  { shape, strides := computeStrides vd shape, offset := 0, owns := true }

/-- NDVecArray.hh 177-182 and 76-79 `View(start_ind, end_ind)`. -/
def view (h : Hdr) (start_ind end_ind : List Nat) : Hdr :=
  { shape := vsub end_ind start_ind, strides := h.strides, offset := flatInd h start_ind, owns := false }

variable {S : Type}

/-- `std::copy_n(src + so, n, dst + d)`; reading or writing outside of a buffer is undefined behaviour.
    Source and destination are different buffers in this model. -/
def copyN (src : List S) (so n : Nat) (dst : List S) (d : Nat) : Res (List S) :=
  if so + n ≤ src.length ∧ d + n ≤ dst.length then
    .ok (dst.take d ++ (src.drop so).take n ++ dst.drop (d + n))
  else .ub

/-- `std::fill_n(dst + d, n, v)`. -/
def fillN (dst : List S) (d n : Nat) (v : S) : Res (List S) :=
  if d + n ≤ dst.length then
    .ok (dst.take d ++ List.replicate n v ++ dst.drop (d + n))
  else .ub

/-- NDVecArray.hh 136-144 `operator[](const ind_t&)`: read the element. -/
def read (vd : Nat) (h : Hdr) (buf : List S) (ind : List Nat) : Res (List S) :=
  if hasIndex h.shape ind then
    if flatInd h ind + vd ≤ buf.length then .ok ((buf.drop (flatInd h ind)).take vd) else .ub
  else .abort

/-- NDVecArray.hh 136-139 and VectorView.hh 29-37: assignment through the returned element view. -/
def write (vd : Nat) (h : Hdr) (buf : List S) (ind : List Nat) (v : List S) : Res (List S) :=
  if hasIndex h.shape ind then copyN v 0 vd buf (flatInd h ind) else .abort

/-- NDVecArray.hh 146-149: the 1-dimensional `operator[](std::size_t)`; it ignores strides and offset. -/
def read1 (vd : Nat) (h : Hdr) (buf : List S) (i : Nat) : Res (List S) :=
  if hasIndex h.shape [i] then
    if vd * i + vd ≤ buf.length then .ok ((buf.drop (vd * i)).take vd) else .ub
  else .abort

/-- The chunk size `(1, ..., 1, n)` built e.g. in NDVecArray.hxx 118-119, 141-142: one contiguous row. -/
def rowChunk (dims n : Nat) : List Nat := List.replicate (dims - 1) 1 ++ [n]

/-- `v[dims - 1]`. -/
def lastD (v : List Nat) : Nat := v.getD (v.length - 1) 0

/-- The rows of `[start, end)` (start indices), as handed out by `index_loop_over_chunks(start, end, chunk_size, ..)`
    with `chunk_size = (1, .., 1, end[dims-1] - start[dims-1])`. -/
def rows (start end_ : List Nat) : Res (List (List Nat)) :=
  (Res.ofLoop (chunkLoop (fuelFor end_) start end_
    (rowChunk start.length (wsub (lastD end_) (lastD start))))).map (·.map Prod.fst)

/-- Run a worker over a list of loop arguments. -/
def runLoop {σ ι : Type} (f : ι → σ → Res σ) : List ι → σ → Res σ
  | [], s => .ok s
  | i :: is, s => (f i s).bind (runLoop f is)

/-- NDVecArray.hxx 110-128 `fill(start, end, value)`. -/
def fill (vd : Nat) (h : Hdr) (buf : List S) (start end_ : List Nat) (v : S) : Res (List S) := do
  Res.assert (hasIndex h.shape start)
  Res.assert (hasIndex h.shape (vsubS end_ 1))
  let n := wsub (lastD end_) (lastD start)
  let rs ← rows start end_
  runLoop (fun lo b => fillN b (flatInd h lo) (n * vd) v) rs buf

/-- NDVecArray.hxx 130-154 `fill_from(other, input_start, input_end, output_start)`;
    `(hs, src)` is `other`, `(hd, dst)` is `*this`. -/
def fillFrom (vd : Nat) (hd : Hdr) (dst : List S) (hs : Hdr) (src : List S)
    (inStart inEnd outStart : List Nat) : Res (List S) := do
  Res.assert (hasIndex hs.shape inStart)
  Res.assert (hasIndex hs.shape (vsubS inEnd 1))
  Res.assert (hasIndex hd.shape outStart)
  Res.assert (hasIndex hd.shape (vsubS (vadd outStart (vsub inEnd inStart)) 1))
  let n := wsub (lastD inEnd) (lastD inStart)
  let rs ← rows inStart inEnd
  runLoop (fun lo d =>
    copyN src (flatInd hs lo) (n * vd) d (flatInd hd (vadd outStart (vsub lo inStart)))) rs dst

/-- NDVecArray.hxx 42-56 `resize(new_shape)`: `std::vector::resize` keeps the common prefix of the flat
    data; the new elements are uninitialised (`no_init_alloc`), modelled by the arbitrary values `junk`. -/
def resize (vd : Nat) (h : Hdr) (buf : List S) (newShape : List Nat) (junk : Nat → S) :
    Res (Hdr × List S) := do
  Res.assert h.owns
  .ok ({ shape := newShape, strides := computeStrides vd newShape, offset := 0, owns := h.owns },
       (List.range (volume vd newShape)).map fun k => buf.getD k (junk k))

/-- NDVecArray.hxx 75-98 copy assignment `*this = other`: after `resize`, both the source and the
    destination position are computed with the strides and offset of `*this`. -/
def assign (vd : Nat) (hd : Hdr) (dst : List S) (hs : Hdr) (src : List S) (junk : Nat → S) :
    Res (Hdr × List S) := do
  let r ← resize vd hd dst hs.shape junk
  let n := lastD r.1.shape
  let boxes ← Res.ofLoop (arrayChunkLoop (fuelFor r.1.shape) r.1.shape (rowChunk r.1.shape.length n))
  let d ← runLoop (fun (p : List Nat × List Nat) d =>
    copyN src (flatInd r.1 p.1) (n * vd) d (flatInd r.1 p.1)) boxes r.2
  .ok (r.1, d)

/-- NDVecArray.hxx 30-40 copy constructor: copies strides and offset, reserves `volume` uninitialised
    scalars and copy-assigns. -/
def copyConstruct (vd : Nat) (hs : Hdr) (src : List S) (junk : Nat → S) : Res (Hdr × List S) :=
  assign vd { hs with owns := true } ((List.range (volume vd hs.shape)).map junk) hs src junk

/-- NDVecArray.hxx 356-370 `ShapeAllowsConcatenation(arr_shape, other_shape, axis)` (the assertion
    `axis < dims` is in `append`). -/
def shapeAllowsConcat (a b : List Nat) (axis : Nat) : Bool :=
  (List.range a.length).all fun ind => ind == axis || a.getD ind 0 == b.getD ind 0

/-- NDVecArray.hxx 208-250 `Append(other, axis)`: only `axis == 0` is implemented, other axes throw.
    `std::copy` copies *all* of `other.m_data` to the end of the resized buffer. -/
def append (vd : Nat) (hd : Hdr) (dst : List S) (hs : Hdr) (src : List S) (axis : Nat) (junk : Nat → S) :
    Res (Hdr × List S) := do
  if axis = 0 then
    Res.assert hd.owns
    Res.assert (shapeAllowsConcat hd.shape hs.shape 0)
    let app_offset := dst.length
    let new_shape := hd.shape.set 0 (wadd (hd.shape.getD 0 0) (hs.shape.getD 0 0))
    let r ← resize vd hd dst new_shape junk
    let d ← copyN src 0 src.length r.2 app_offset
    .ok (r.1, d)
  else do
    Res.assert (decide (axis < hd.shape.length))
    Res.assert hd.owns
    .throw

/-- NDVecArray.hxx 299-334 `index_loop_over_elements(start, end, worker)`: the `(index, element)` pairs the
    worker is called with.  Each row is walked with an iterator; `ind[dims-1]` is incremented. -/
def rowElems (vd : Nat) (h : Hdr) (buf : List S) (n : Nat) (lo : List Nat) : Res (List (List Nat × List S)) :=
  if flatInd h lo + n * vd ≤ buf.length then
    .ok ((List.range n).map fun t =>
      (lo.set (lo.length - 1) (lastD lo + t), (buf.drop (flatInd h lo + t * vd)).take vd))
  else .ub

def indexLoop (vd : Nat) (h : Hdr) (buf : List S) (start end_ : List Nat) : Res (List (List Nat × List S)) := do
  let n := wsub (lastD end_) (lastD start)
  let rs ← rows start end_
  runLoop (fun lo acc => (rowElems vd h buf n lo).bind fun xs => .ok (acc ++ xs)) rs []

/-- NDVecArray.hxx 329-334, the whole array. -/
def indexLoopAll (vd : Nat) (h : Hdr) (buf : List S) : Res (List (List Nat × List S)) :=
  indexLoop vd h buf (h.shape.map fun _ => 0) h.shape

/-- NDVecArray.hxx 272-297 `loop_over_elements`: the element views handed to the worker. -/
def loopElems (vd : Nat) (h : Hdr) (buf : List S) : Res (List (List S)) := do
  let n := lastD h.shape
  let boxes ← Res.ofLoop (arrayChunkLoop (fuelFor h.shape) h.shape (rowChunk h.shape.length n))
  runLoop (fun (p : List Nat × List Nat) acc => (rowElems vd h buf n p.1).bind fun xs =>
    .ok (acc ++ xs.map Prod.snd)) boxes []

/-- `std::swap(v[p], v[q])`. -/
def swapAt (v : List Nat) (p q : Nat) : List Nat := (v.set p (v.getD q 0)).set q (v.getD p 0)

/-- NDVecArray.hxx 252-270 `SwapAxes<p, q>(dest)`. -/
def swapAxes (vd : Nat) (h : Hdr) (buf : List S) (hd : Hdr) (dst : List S) (p q : Nat) (junk : Nat → S) :
    Res (Hdr × List S) := do
  let r ← resize vd hd dst (swapAt h.shape p q) junk
  let es ← indexLoopAll vd h buf
  let d ← runLoop (fun (x : List Nat × List S) d => write vd r.1 d (swapAt x.1 p q) x.2) es r.2
  .ok (r.1, d)

/-- NDVecArray.hxx 377-402 `IsAllNull`; `null s` is the test `s == (T)0.0`.  Rows after the first
    non-null row are skipped. -/
def isAllNull (vd : Nat) (h : Hdr) (buf : List S) (null : S → Bool) : Res Bool := do
  let n := lastD h.shape
  let boxes ← Res.ofLoop (arrayChunkLoop (fuelFor h.shape) h.shape (rowChunk h.shape.length n))
  runLoop (fun (p : List Nat × List Nat) flag =>
    if flag = false then .ok flag
    else if flatInd h p.1 + n * vd ≤ buf.length then
      .ok (((buf.drop (flatInd h p.1)).take (n * vd)).all null)
    else .ub) boxes true

/-- NDVecArray.hxx 336-348 `apply_sequential(outer_ind, inner_ind, worker)`: the element views. -/
def applySequential (vd : Nat) (h : Hdr) (buf : List S) (outer : List Nat) (inner : List Nat) :
    Res (List (List S)) :=
  inner.foldr (fun k acc =>
    if flatInd h outer + k * vd + vd ≤ buf.length then
      acc.bind fun l => .ok ((buf.drop (flatInd h outer + k * vd)).take vd :: l)
    else .ub) (.ok [])

/-- NDVecArray.hxx 165-191 `fill_from<axis>(other, output_start)` for the last axis; `(hr, row)` is `other`. (The version for another axis, lines 156-163, is not implemented and throws.) -/
def fillRow (vd : Nat) (h : Hdr) (buf : List S) (hr : Hdr) (row : List S) (start : List Nat) : Res (List S) :=
  (Res.assert h.owns).bind fun _ =>
  (Res.assert hr.owns).bind fun _ =>
  let m := hr.shape.getD 0 0
  let stop := start.set (start.length - 1) (wadd (lastD start) (wsub m 1))
  (Res.assert (hasIndex h.shape start)).bind fun _ =>
  (Res.assert (hasIndex h.shape stop)).bind fun _ =>
  copyN row 0 (vd * m) buf (flatInd h start)

end Verif.ND
