import Verif.Base
import Mathlib.Algebra.Order.Floor.Ring
import Mathlib.Algebra.Order.Field.Basic
/-
Model of the scripts that draw an exported Green's function: examples/plot_greens_function/plotting_utils.py, greens_function_still.py, greens_function_absmax.py, greens_function_absmax_annotated.py and
animate_greens_function.py.

Numbers are elements of an ordered field `K` (no rounding). What NumPy and Matplotlib do with the arrays is modelled from their documentation: `np.linspace`, `np.meshgrid`, `np.transpose`, `np.flip`, indexing (negative indices count
from the end), `np.load` with `mmap_mode = 'r'` (the array is read-only), the vertices and values of `pcolormesh` with `shading = "gouraud"`, and the pixels and values of `imshow` with `extent` and `origin = "upper"` (the default). Colours, labels,
sizes and the interpolation between vertices or pixels are left out. A Python exception is `throw`.
-/
namespace Verif.Plot
open Verif

variable {K : Type} [Field K] [LinearOrder K] [FloorRing K]

/-! ### Python and NumPy -/

/-- `int(x)` of a floating-point number: towards zero. -/
def pyInt (x : K) : Int := if 0 ≤ x then ⌊x⌋ else ⌈x⌉

/-- `a[i]` along an axis with `n` elements: negative indices count from the end, others out of range raise `IndexError`. -/
def pyIndex (n : Nat) (i : Int) : Res Nat :=
  if 0 ≤ i ∧ i < n then .ok i.toNat else if i < 0 ∧ -(n : Int) ≤ i then .ok (i + n).toNat else .throw

/-- `x / y` with Python floats, or (in `pos_to_index`) with NumPy floats followed by `int`, which rejects infinities and NaN. -/
def pyDiv (x y : K) : Res K := if y = 0 then .throw else .ok (x / y)

/-- `np.linspace(a, b, n)[i]`. -/
def linspace (a b : K) (n i : Nat) : K := if n = 1 then a else a + i * ((b - a) / ((n : K) - 1))

/-- A two-dimensional array. -/
structure Arr2 (α : Type) where
  rows : Nat
  cols : Nat
  get : Nat → Nat → α

/-- `np.transpose`. -/
def Arr2.transpose {α : Type} (a : Arr2 α) : Arr2 α := ⟨a.cols, a.rows, fun i j => a.get j i⟩

/-- `np.flip(a, axis = 0)`. -/
def Arr2.flip {α : Type} (a : Arr2 α) : Arr2 α := ⟨a.rows, a.cols, fun i j => a.get (a.rows - 1 - i) j⟩

/-- All positions, row by row. -/
def Arr2.cells {α : Type} (a : Arr2 α) : List (Nat × Nat) := (List.range a.rows).flatMap fun i => (List.range a.cols).map fun j => (i, j)

/-- A vertex of a triangulated picture: its position and the value there. -/
structure Vertex (K α : Type) where
  x : K
  y : K
  v : α

/-- `pcolormesh(X, Y, C, shading = "gouraud")`: the shapes must agree; `C[i, j]` is at `(X[i, j], Y[i, j])`. -/
def pcolormesh {α : Type} (X Y : Arr2 K) (C : Arr2 α) : Res (List (Vertex K α)) :=
  if X.rows = C.rows ∧ X.cols = C.cols ∧ Y.rows = C.rows ∧ Y.cols = C.cols then .ok (C.cells.map fun p => ⟨X.get p.1 p.2, Y.get p.1 p.2, C.get p.1 p.2⟩) else .throw

/-- A pixel: a rectangle and its value. -/
structure Pixel (K : Type) where
  left : K
  right : K
  bottom : K
  top : K
  v : K

/-- `imshow(a, extent = [left, right, bottom, top])`: row 0 is at the top. -/
def imshow (a : Arr2 K) (rx ry : K × K) : List (Pixel K) :=
  a.cells.map fun p => ⟨rx.1 + p.2 * ((rx.2 - rx.1) / a.cols), rx.1 + (p.2 + 1) * ((rx.2 - rx.1) / a.cols),
    ry.2 - (p.1 + 1) * ((ry.2 - ry.1) / a.rows), ry.2 - p.1 * ((ry.2 - ry.1) / a.rows), a.get p.1 p.2⟩

/-! ### The scripts -/

/-- The exported array: `data[i, j, k, c]` in the order r, z, t, component. -/
structure Cube (K : Type) where
  nr : Nat
  nz : Nat
  nt : Nat
  get : Nat → Nat → Nat → Nat → K

/-- `np.load(path, mmap_mode = ...)`: the array, and whether it can be written. -/
structure Loaded (K : Type) where
  cube : Cube K
  writeable : Bool

/-- `np.load(exported_green_path, mmap_mode = 'r')`. -/
def load (D : Cube K) : Loaded K := ⟨D, false⟩

/-- plotting_utils.py 4-11, `plot_field`: the position grid and the picture. -/
def plotField {α : Type} (data : Arr2 α) (rx ry : K × K) : Res (List (Vertex K α)) :=
  let mx : Arr2 K := ⟨data.cols, data.rows, fun _ j => linspace rx.1 rx.2 data.rows j⟩
  let my : Arr2 K := ⟨data.cols, data.rows, fun i _ => linspace ry.1 ry.2 data.cols i⟩
  pcolormesh mx my data.transpose

/-- greens_function_still.py 38-49: the pictures of `E_r` and `E_z` at time `tval`. -/
def still (D : Cube K) (rx ry rt : K × K) (tval : K) : Res (List (Vertex K K) × List (Vertex K K)) :=
  (pyDiv (D.nt : K) (rt.2 - rt.1)).bind fun q =>
  (pyIndex D.nt (pyInt (q * tval))).bind fun k =>
  (plotField ⟨D.nr, D.nz, fun i j => D.get i j k 0⟩ rx ry).bind fun a =>
  (plotField ⟨D.nr, D.nz, fun i j => D.get i j k 1⟩ rx ry).bind fun b => .ok (a, b)

/-- `np.max` of the `n` numbers `f 0, ..., f (n - 1)`; of no numbers it raises `ValueError`. -/
def npMax (f : Nat → K) : Nat → Res K
  | 0 => .throw
  | n + 1 => .ok ((List.range n).foldl (fun m k => max m (f (k + 1))) (f 0))

/-- `np.max(a)` over the `rows x cols` numbers. -/
def npMax2 (a : Arr2 K) : Res K := if a.cols = 0 then .throw else npMax (fun l => a.get (l / a.cols) (l % a.cols)) (a.rows * a.cols)

/-- greens_function_absmax.py 13-26, `normalized = True`. `norm x y` is the square root of `x^2 + y^2`. A value `none` is NaN, the result of `0 / 0`. -/
def absmax (norm : K → K → K) (D : Cube K) (rx ry : K × K) : Res (List (Vertex K (Option K))) :=
  if D.nt = 0 then .throw else
  let m : Arr2 K := ⟨D.nr, D.nz, fun i j => (List.range (D.nt - 1)).foldl (fun m k => max m (norm (D.get i j (k + 1) 0) (D.get i j (k + 1) 1))) (norm (D.get i j 0 0) (D.get i j 0 1))⟩
  (npMax2 m).bind fun top =>
  plotField ⟨D.nr, D.nz, fun i j => if top = 0 then none else some (m.get i j / top)⟩ rx ry

/-- greens_function_absmax_annotated.py 20-31 `pos_to_index`, for one axis, with the `int` and the indexing of 77-78. -/
def posIndex (pos : K) (n : Nat) (r : K × K) : Res Nat :=
  (pyDiv (pos - r.1) (r.2 - r.1)).bind fun q => pyIndex n (pyInt (q * n))

/-- greens_function_absmax_annotated.py 77-78: the series (`E_z`, `E_r`) drawn for an annotation at `pos`. -/
def annotation (D : Cube K) (rx ry : K × K) (pos : K × K) : Res ((Nat → K) × (Nat → K)) :=
  (posIndex pos.1 D.nr rx).bind fun i => (posIndex pos.2 D.nz ry).bind fun j => .ok (fun k => D.get i j k 1, fun k => D.get i j k 0)

/-- greens_function_absmax_annotated.py 11-18, `tvals_oversampled[l]`, for the `n` times `tvals`. -/
def oversampled (tvals : Nat → K) (n os ds l : Nat) : K := tvals 0 + l * ((tvals (n - 1) + tvals 1 - tvals 0 - tvals 0) / (n * os / ds : Nat))

/-- `data *= s` on an array that may be read-only. -/
def imul (a : Loaded K) (s : K) : Res (Loaded K) :=
  if a.writeable then .ok ⟨⟨a.cube.nr, a.cube.nz, a.cube.nt, fun i j k c => a.cube.get i j k c * s⟩, true⟩ else .throw

/-- greens_function_absmax_annotated.py 43-90: the array is scaled, then each annotation is drawn. -/
def annotated (D : Cube K) (scale : K) (rx ry : K × K) (annotations : List (K × K)) : Res (List ((Nat → K) × (Nat → K))) :=
  (imul (load D) scale).bind fun D' =>
  annotations.foldr (fun pos acc => (annotation D'.cube rx ry pos).bind fun s => acc.bind fun r => .ok (s :: r)) (.ok [])

/-- animate_greens_function.py 54-59 `animate`: the picture and the time that is written on it. -/
def frame (D : Cube K) (c : Nat) (rx ry rt : K × K) (ds it : Nat) : Res (List (Pixel K) × K) :=
  (pyIndex D.nt (ds * it : Nat)).bind fun k =>
  .ok (imshow (Arr2.flip (Arr2.transpose ⟨D.nr, D.nz, fun i j => D.get i j k c⟩)) rx ry, rt.1 + (ds * it : Nat) * (rt.2 - rt.1) / D.nt)

/-- animate_greens_function.py 11-68 `generate_animation`: `int(num_frames / downsample_t)` frames. -/
def animation (D : Cube K) (c : Nat) (rx ry rt : K × K) (ds : Nat) : Res (List (List (Pixel K) × K)) :=
  if D.nt = 0 ∨ ds = 0 then .throw else
  (List.range (D.nt / ds)).foldr (fun it acc => (frame D c rx ry rt ds it).bind fun f => acc.bind fun r => .ok (f :: r)) (.ok [])

end Verif.Plot
