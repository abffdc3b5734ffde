import Verif.Array.Model
/-
Model of the operations of `NDVecArray` whose argument is the array itself, or a view of the same data (`Array/Model.lean` has different buffers for source and destination).
-/
namespace Verif.ND
open Verif

variable {S : Type}

/-- `std::copy_n(std::execution::unseq, b + so, n, b + d)` within one buffer. The element copies are unsequenced: if the two ranges overlap, elements are read and written in an unspecified
    order, which is a data race, unless each element is only copied to itself. -/
def copySelf (buf : List S) (so n d : Nat) : Res (List S) :=
  if so + n ≤ d ∨ d + n ≤ so then copyN buf so n buf d
  else if so = d then (if d + n ≤ buf.length then .ok buf else .ub)
  else .ub

/-- NDVecArray.hxx 130-154 `fill_from`, where `*this` (`hd`) and `other` (`hs`) have the same `m_data`. -/
def fillFromSelf (vd : Nat) (hd hs : Hdr) (buf : List S) (inStart inEnd outStart : List Nat) : Res (List S) := do
  Res.assert (hasIndex hs.shape inStart)
  Res.assert (hasIndex hs.shape (vsubS inEnd 1))
  Res.assert (hasIndex hd.shape outStart)
  Res.assert (hasIndex hd.shape (vsubS (vadd outStart (vsub inEnd inStart)) 1))
  let n := wsub (lastD inEnd) (lastD inStart)
  let rs ← rows inStart inEnd
  runLoop (fun lo b => copySelf b (flatInd hs lo) (n * vd) (flatInd hd (vadd outStart (vsub lo inStart)))) rs buf

/-- NDVecArray.hxx 75-98: `a = a`. -/
def assignSelf (vd : Nat) (h : Hdr) (buf : List S) (junk : Nat → S) : Res (Hdr × List S) := do
  let r ← resize vd h buf h.shape junk
  let n := lastD r.1.shape
  let boxes ← Res.ofLoop (arrayChunkLoop (fuelFor r.1.shape) r.1.shape (rowChunk r.1.shape.length n))
  let d ← runLoop (fun (p : List Nat × List Nat) b => copySelf b (flatInd r.1 p.1) (n * vd) (flatInd r.1 p.1)) boxes r.2
  .ok (r.1, d)

/-- NDVecArray.hxx 208-230: `a.Append<0>(a)`. The source of the copy is `other.m_data` after the resize. `std::copy` with an execution policy has the same conditions as `copy_n`. -/
def appendSelf (vd : Nat) (h : Hdr) (buf : List S) (junk : Nat → S) : Res (Hdr × List S) := do
  Res.assert h.owns
  Res.assert (shapeAllowsConcat h.shape h.shape 0)
  let app_offset := buf.length
  let r ← resize vd h buf (h.shape.set 0 (wadd (h.shape.getD 0 0) (h.shape.getD 0 0))) junk
  let d ← copySelf r.2 0 r.2.length app_offset
  .ok (r.1, d)

/-- NDVecArray.hxx 252-270: `a.SwapAxes<p, q>(a)`. The loop runs over the array after its resize, and each element is read when it is reached. -/
def swapAxesSelf (vd : Nat) (h : Hdr) (buf : List S) (p q : Nat) (junk : Nat → S) : Res (Hdr × List S) := do
  let r ← resize vd h buf (swapAt h.shape p q) junk
  let es ← indexLoopAll vd r.1 r.2
  let d ← runLoop (fun (i : List Nat) b => (read vd r.1 b i).bind fun x => write vd r.1 b (swapAt i p q) x) (es.map Prod.fst) r.2
  .ok (r.1, d)

end Verif.ND
