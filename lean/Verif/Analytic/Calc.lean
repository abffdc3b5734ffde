import Mathlib.Algebra.Order.Floor.Semiring
import Verif.Green.Create
import Verif.Analytic.Field
import Verif.Analytic.Gamma
/-
Model of the calculation of the Green's function of an electric dipole (AnalyticGreensFunctionCalculator.hxx 103-180).

Numbers are elements of an ordered field `K` (no rounding); `Fns` has the functions of the C library, `pow2` is the function `std::pow(2.0, .)`, and `enc` gives the 32 bits of the `float` that is stored for
a number (`none`: not a number).  A division by zero, and a conversion of a number out of range to `std::size_t`, are undefined (the program is compiled with -ffast-math, under which a result that is not
finite is undefined as well).
-/
namespace Verif.Analytic
open Verif Verif.ND Verif.Dist Verif.Tree Verif.Bytes Verif.Ops Verif.Rebuild Verif.Green

variable {K : Type} [Field K] [LinearOrder K] [IsStrictOrderedRing K] [FloorSemiring K]

/-! ### The program -/

/-- The parameters of lines 103-105 (without the paths). -/
structure Params (K : Type) where
  r0 : K
  z0 : K
  r1 : K
  z1 : K
  tEnd : K
  os : K
  dip : Dipole K
  maxPts : Nat

/-- Line 114 `fmax`. -/
def fmax (F : Fns K) (pow2 : K → K) (D : Dipole K) : Res K :=
  (fdiv (D.order : K) (2 * F.pi * D.tPeak)).bind fun a => .ok (a * F.sqrt (pow2 (1 / ((D.order : K) + 1)) - 1))

/-- Lines 113-117: the requested step size in space and in time. -/
def reqStep (F : Fns K) (pow2 : K → K) (P : Params K) : Res (K × K) :=
  (fmax F pow2 P.dip).bind fun fm =>
  (fdiv cLight (fm * P.dip.ior)).bind fun lambda =>
  (fdiv 1 (2 * fm * P.os)).bind fun dt =>
  (fdiv lambda (2 * P.os)).bind fun dpos => .ok (dpos, dt)

/-- Vector.hh `as_type<std::size_t>`: the fraction is cut off. -/
def toSize (x : K) : Res Nat := if x ≤ -1 ∨ 2 ^ 64 ≤ x then .ub else .ok ⌊x⌋₊

/-- Lines 136-137, along one axis: the number of steps and the step size. -/
def axisOf (lo hi req : K) : Res (Nat × K) :=
  (fdiv (hi - lo) req).bind fun x => (toSize x).bind fun n => (fdiv (hi - lo) (n : K)).bind fun s => .ok (n, s)

/-- Lines 85 and 163: a point of the grid, `start + step * index` for each coordinate. -/
def gridPt (start step : List K) (i : List Nat) : List K := List.zipWith (fun (a : K) (b : K) => a + b) start (List.zipWith (fun (s : K) (k : Nat) => s * (k : K)) step i)

/-- Lines 83-96: the evaluator is called for each element of the buffer, in the order of `index_loop_over_elements`, and stores two numbers. -/
def evalChunk (F : Fns K) (D : Dipole K) (enc : Option K → Nat) (start step : List K) (a : Arr) : Res Arr :=
  (indexLoopAll 2 (a.hdr 2) a.buf).bind fun calls =>
  (runLoop (fun (i : List Nat) b => ND.write 2 (a.hdr 2) b i
      ((fieldAt F D ((gridPt start step i).getD 0 0) ((gridPt start step i).getD 1 0) ((gridPt start step i).getD 2 0)).map enc)) (calls.map Prod.fst) a.buf).bind fun b =>
  .ok ⟨a.shape, b⟩

/-- The distributed array, the files, the chunk buffer, and the number of names that were generated. -/
structure CState where
  lib : Lib
  fs : FS
  buf : Arr
  k : Nat

/-- Lines 158-172 `fill_and_register_chunk`. -/
def fillChunk (C : Cfg) (S : Sorter) (F : Fns K) (D : Dipole K) (enc : Option K → Nat) (uuid : Nat → List Nat) (start step : List K) (box : List Nat × List Nat) (st : CState) : Res CState :=
  (resize 2 (st.buf.hdr 2) st.buf.buf (vsub box.2 box.1) C.junk).bind fun r =>
  (evalChunk F D enc (gridPt start step box.1) step ⟨r.1.shape, r.2⟩).bind fun a =>
  (st.lib.register C S st.fs (uuid st.k) a box.1 (vadd box.1 a.shape) 0 false).bind fun q => .ok ⟨q.1, q.2, a, st.k + 1⟩

/-- Lines 107-110: `remove_all`. -/
def removeAll (d : Disk) (dir : Nat) : Disk := ⟨fun p => if p.1 = dir then none else d.fs p, upd d.green dir none⟩

/-- Lines 146-154: arrays with three indices and elements of two numbers, a cache of 5 chunks, one slice in the first direction at a time. -/
def dipCfg (hst : Host) (junk : Nat → Nat) : Cfg := ⟨hst, 2, 3, [1, U64 - 1, U64 - 1], 5, junk⟩

/-- Lines 103-180 `ElectricDipole`. `uuid` and `uuid'` are the random names of the files of chunks; `dir` and `tmp` are the directories. -/
def electricDipole (C : Cfg) (S : Sorter) (F : Fns K) (pow2 : K → K) (enc : Option K → Nat) (uuid uuid' : Nat → List Nat) (P : Params K) (dir tmp : Nat) (d : Disk) : Res Disk :=
  (reqStep F pow2 P).bind fun h =>
  (axisOf P.r0 P.r1 h.1).bind fun ar =>
  (axisOf P.z0 P.z1 h.1).bind fun az =>
  (axisOf 0 P.tEnd h.2).bind fun at_ =>
  let start := [P.r0, P.z0, 0]
  let step := [ar.2, az.2, at_.2]
  let stop := vaddS [ar.1, az.1, at_.1] 1
  let chunk := List.replicate 3 P.maxPts
  (Lib.open C S (removeAll d dir).fs dir chunk).bind fun lib =>
  (Res.ofLoop (chunkLoop (fuelFor stop) (List.replicate 3 0) stop chunk)).bind fun boxes =>
  (runLoop (fillChunk C S F P.dip enc uuid start step) boxes ⟨lib, (removeAll d dir).fs, ⟨chunk, (List.range (volume 2 chunk)).map C.junk⟩, 0⟩).bind fun st =>
  (rebuild C S (cylindrical 2) uuid' st.lib st.fs chunk tmp 2 false).bind fun q =>
  create C S ⟨start.map fun x => enc (some x), [P.r1, P.z1, P.tEnd].map fun x => enc (some x), step.map fun x => enc (some x)⟩ q.1 ⟨q.2, (removeAll d dir).green⟩

end Verif.Analytic
