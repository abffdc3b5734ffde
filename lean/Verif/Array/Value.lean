import Verif.Array.Model
/-
Whole-array operations with one value: construction and resizing with a value, `array = value`, `clear`.
-/
namespace Verif.ND
open Verif
variable {S : Type}

/-- NDVecArray.hxx 100-108 `operator=(const T& value)`: `fill` from index `(0, .., 0)` to the shape. -/
def assignValue (vd : Nat) (h : Hdr) (buf : List S) (v : S) : Res (List S) :=
  fill vd h buf (h.shape.map fun _ => 0) h.shape v

/-- NDVecArray.hxx 16-22 (and 27-28 for one dimension) `NDVecArray(shape, value)`: the delegated constructor (lines 6-14)
    reserves the memory without initialising it (`junk`), then `*this = value`. -/
def constructValue (vd : Nat) (shape : List Nat) (v : S) (junk : Nat → S) : Res (Hdr × List S) :=
  (assignValue vd (mkHdr vd shape) ((List.range (volume vd shape)).map junk) v).bind fun b => .ok (mkHdr vd shape, b)

/-- NDVecArray.hxx 58-62 `resize(new_shape, value)`. -/
def resizeValue (vd : Nat) (h : Hdr) (buf : List S) (shape : List Nat) (v : S) (junk : Nat → S) : Res (Hdr × List S) :=
  (resize vd h buf shape junk).bind fun r => (assignValue vd r.1 r.2 v).bind fun b => .ok (r.1, b)

/-- NDVecArray.hxx 69-73 `clear()`: every element of the buffer is set to `(T)0`. -/
def clear (h : Hdr) (buf : List S) (zero : S) : Res (List S) :=
  (Res.assert h.owns).bind fun _ => .ok (buf.map fun _ => zero)

/-- NDVecArray.hxx 156-163 `fill_from<axis>` for an axis which is not the last one. -/
def fillOtherAxis (h : Hdr) (buf : List S) : Res (List S) :=
  (Res.assert h.owns).bind fun _ => (Res.throw : Res (List S))

end Verif.ND
