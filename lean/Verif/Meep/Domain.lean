import Verif.Analytic.Calc
import Verif.Meep.Padding
/-
Model of the regions (Geometry.hh, Geometry.hxx 1-52), of the choice of the storage domain and of the main loop in time (MEEPCylindricalGreensFunctionCalculator.hxx 461-468, 506-534, 577-598, 603-624), and
of the coordinates of the finished Green's function (805-823).

Numbers are elements of an ordered field (no rounding); the program uses `float` and `double`.
-/
namespace Verif.Meep
open Verif Verif.ND Verif.Dist Verif.Tree Verif.Analytic

variable {K : Type} [Field K] [LinearOrder K] [IsStrictOrderedRing K] [FloorRing K]

/-! ### The program -/

/-- Geometry.hh 9-31 `CylinderRegion`. -/
structure CylRegion (K : Type) where
  rMin : K
  rMax : K
  zMin : K
  zMax : K

/-- Geometry.hxx 5-28: the constructor, with `throw_if_unphysical`. -/
def mkRegion (rMin rMax zMin zMax : K) : Res (CylRegion K) :=
  if rMin < 0 ∨ rMax < 0 ∨ rMin > rMax then .throw else if zMin > zMax then .throw else .ok ⟨rMin, rMax, zMin, zMax⟩

/-- Geometry.hxx 30-32 `IsEmpty`. -/
def CylRegion.isEmpty (r : CylRegion K) : Bool := decide (r.rMin = r.rMax) || decide (r.zMin = r.zMax)

/-- Geometry.hh 33-69 `CylinderGeometry` (without the permittivity). `GetRMin` is 0. -/
structure Geometry (K : Type) where
  rMax : K
  zMin : K
  zMax : K

/-- Geometry.hxx 34-45: the constructor, with `throw_if_unphysical`. -/
def mkGeometry (rMax zMin zMax : K) : Res (Geometry K) := if rMax < 0 ∨ zMin > zMax then .throw else .ok ⟨rMax, zMin, zMax⟩

/-- Geometry.hxx 47-55 `contains`. -/
def Geometry.contains (g : Geometry K) (r : CylRegion K) : Bool := decide (g.zMin ≤ r.zMin) && (decide (r.zMax ≤ g.zMax) && (decide (0 ≤ r.rMin) && decide (r.rMax ≤ g.rMax)))

/-- Lines 610-624: the checks in the constructor of the calculator. -/
def mkCalculator (g : Geometry K) (r : CylRegion K) : Res Unit := if g.contains r then (if r.isEmpty then .throw else .ok ()) else .throw

/-- Lines 603-605: the constructor without a storage region. -/
def mkCalculatorAll (g : Geometry K) : Res (CylRegion K) := (mkRegion 0 g.rMax g.zMin g.zMax).bind fun r => (mkCalculator g r).bind fun _ => .ok r

/-- MathUtils.hh 8-10 `is_integer`. -/
def isInteger (k : K) : Bool := decide ((⌊k⌋ : K) = k)

/-- The result of lines 461-534: the storage domain (axes z, r) and the region that is reported. -/
structure Storage (K : Type) where
  start : List Nat
  shape : List Nat
  region : CylRegion K

/-- Lines 461-468 and 506-534; `nz`, `nr` are the numbers of cells of the MEEP volume. -/
def storageDomain (g : Geometry K) (req : CylRegion K) (res : K) (nz nr : Nat) : Res (Storage K) :=
  if isInteger (g.rMax * res) = false then .throw else
  if isInteger ((g.zMax - g.zMin) * res) = false then .throw else
  (fdiv (req.zMin - g.zMin) (g.zMax - g.zMin)).bind fun a => (toSize (a * (nz : K))).bind fun z0 =>
  (fdiv (req.rMin - 0) g.rMax).bind fun a => (toSize (a * (nr : K))).bind fun r0 =>
  (fdiv (req.zMax - req.zMin) (g.zMax - g.zMin)).bind fun a => (toSize (a * (nz : K))).bind fun dz =>
  (fdiv (req.rMax - req.rMin) g.rMax).bind fun a => (toSize (a * (nr : K))).bind fun dr =>
  (Res.assert (decide ((nz : K) = (g.zMax - g.zMin) * res))).bind fun _ =>
  (Res.assert (decide ((nr : K) = g.rMax * res))).bind fun _ =>
  (fdiv (r0 : K) res).bind fun c1 => (fdiv (wadd r0 dr : K) res).bind fun c2 => (fdiv (z0 : K) res).bind fun c3 => (fdiv (wadd z0 dz : K) res).bind fun c4 =>
  (mkRegion (c1 + 0) (c2 + 0) (c3 + g.zMin) (c4 + g.zMin)).bind fun reg => .ok ⟨[z0, r0], [dz, dr], reg⟩

/-- Lines 582-584: `while(time() < cur) step();`, where the time after `n` steps is `n * dt`. -/
def stepTo (dt cur : K) : Nat → Nat → Res Nat
  | 0, _ => .diverge
  | fuel + 1, n => if (n : K) * dt < cur then stepTo dt cur fuel (n + 1) else .ok n

/-- Lines 578-593: the main loop. The result has, for each sample in time, the number of MEEP steps after which it is taken. -/
def timeLoop (dt ts tEnd : K) (inner : Nat) : Nat → K → Nat → Res (List Nat)
  | 0, _, _ => .diverge
  | fuel + 1, cur, n =>
    if cur ≤ tEnd then (stepTo dt cur inner n).bind fun n' => (timeLoop dt ts tEnd inner fuel (cur + ts) n').bind fun l => .ok (n' :: l) else .ok []

/-- Lines 810-822: the coordinates (start, end and step size; axes r, z, t) of the finished Green's function, for an array of shape `sh`. -/
def coordsOf (reg : CylRegion K) (tEnd : K) (sh : List Nat) : Res (List K × List K × List K) :=
  (fdiv (reg.rMax - reg.rMin) ((sh.getD 0 0 : K) - 1)).bind fun a =>
  (fdiv (reg.zMax - reg.zMin) ((sh.getD 1 0 : K) - 1)).bind fun b =>
  (fdiv (tEnd - 0) ((sh.getD 2 0 : K) - 1)).bind fun c => .ok ([reg.rMin, reg.zMin, 0], [reg.rMax, reg.zMax, tEnd], [a, b, c])

end Verif.Meep
