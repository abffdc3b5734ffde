import Mathlib.Algebra.Order.Field.Basic
import Mathlib.Algebra.Order.Group.Abs
import Mathlib.Tactic.Ring
import Mathlib.Tactic.FieldSimp
import Mathlib.Tactic.Linarith
/-
Model of the field of the analytic electric dipole (AnalyticGreensFunctionCalculator.hxx 10-83).

Numbers are elements of an ordered field `K` (no rounding); `none` is a result that is not a finite number (NaN or infinity): every operation on it gives `none` again.
This is right for the functions here: if the refractive index and the filter time are not zero, the only division by zero that can occur is `0 / 0` or `x / 0` at the origin, where the result is NaN.
(Divisions by the filter time are not checked; the theorems about the filter assume that it is positive.)
The functions `sqrt`, `exp`, `lgamma` of the C library and `MathUtils::incomplete_gamma` are parameters; `std::pow` with an integer exponent is the power.
-/
namespace Verif.Analytic

variable {K : Type} [Field K] [LinearOrder K] [IsStrictOrderedRing K]

/-! ### The program -/

/-- Functions from libraries, and `M_PI`. -/
structure Fns (K : Type) where
  sqrt : K → K
  exp : K → K
  lgamma : K → K
  igamma : K → K → K
  pi : K

/-- The parameters of line 10-12: refractive index, filter, smallest radius. -/
structure Dipole (K : Type) where
  ior : K
  tPeak : K
  order : Nat
  rMin : K

/-- Line 20-25 `filtered_theta`. -/
def filteredTheta (F : Fns K) (D : Dipole K) (t : K) : K :=
  if t ≤ 0 then 0 else 1 - F.igamma (1 + D.order) (D.order * t / D.tPeak) / F.exp (F.lgamma (D.order + 1))

/-- Line 27-32 `filtered_delta`. -/
def filteredDelta (F : Fns K) (D : Dipole K) (t : K) : K :=
  if t ≤ 0 then 0 else (t / D.tPeak * D.order) ^ D.order * F.exp (-t / D.tPeak * D.order) / (D.tPeak * F.exp (F.lgamma D.order))

/-- Line 34-39 `filtered_delta_prime`. -/
def filteredDeltaPrime (F : Fns K) (D : Dipole K) (t : K) : K :=
  if t ≤ 0 then 0 else filteredDelta F D t * (D.tPeak - t) * D.order / (D.tPeak * t)

/-- A quotient; not a finite number if the denominator is zero. -/
def quo (a b : K) : Option K := if b = 0 then none else some (a / b)

/-- Operations on numbers of which some are not finite. -/
def omul (a b : Option K) : Option K := a.bind fun x => b.bind fun y => some (x * y)
def oadd (a b : Option K) : Option K := a.bind fun x => b.bind fun y => some (x + y)
def osub (a b : Option K) : Option K := a.bind fun x => b.bind fun y => some (x - y)

/-- Lines 14-17: `Qw`, `eps0`, `eps`, `ds`, `c`. -/
def qw : K := 1
def eps (D : Dipole K) : K := 1 * D.ior ^ 2
def dsLen : K := 1
def cLight : K := 1

/-- Lines 42-53 `E_r` (spherical). -/
def eR (F : Fns K) (D : Dipole K) (t rxy z : K) : Option K :=
  let rxy := |rxy|
  let r := F.sqrt (rxy * rxy + z * z)
  if r < D.rMin then none else
    let tProp := r * D.ior / cLight
    let tDel := t - tProp
    omul (omul (quo (-2 * qw * dsLen) (eps D * 4 * F.pi)) ((quo z r).bind fun cosT => quo cosT (r ^ 3)))
      (some (filteredTheta F D tDel + tProp * filteredDelta F D tDel))

/-- Lines 55-65 `E_theta` (spherical). -/
def eTheta (F : Fns K) (D : Dipole K) (t rxy z : K) : Option K :=
  let rxy := |rxy|
  let r := F.sqrt (rxy * rxy + z * z)
  if r < D.rMin then none else
    let tProp := r * D.ior / cLight
    let tDel := t - tProp
    omul (omul (quo (-qw * dsLen) (eps D * 4 * F.pi)) ((quo rxy r).bind fun sinT => quo sinT (r ^ 3)))
      (some (filteredTheta F D tDel + tProp * filteredDelta F D tDel + tProp ^ 2 * filteredDeltaPrime F D tDel))

/-- Lines 68-73 `E_rxy`. -/
def eRxy (F : Fns K) (D : Dipole K) (t rxy z : K) : Option K :=
  let rxy := |rxy|
  let r := F.sqrt (rxy * rxy + z * z)
  let cosT := quo z r
  let sinT := quo rxy r
  oadd (omul (eR F D t rxy z) sinT) (omul (eTheta F D t rxy z) cosT)

/-- Lines 75-80 `E_z`. -/
def eZ (F : Fns K) (D : Dipole K) (t rxy z : K) : Option K :=
  let rxy := |rxy|
  let r := F.sqrt (rxy * rxy + z * z)
  let cosT := quo z r
  let sinT := quo rxy r
  osub (omul (eR F D t rxy z) cosT) (omul (eTheta F D t rxy z) sinT)

/-- Lines 83-96: the two components that are stored for a point. -/
def fieldAt (F : Fns K) (D : Dipole K) (r z t : K) : List (Option K) := [eRxy F D t r z, eZ F D t r z]

end Verif.Analytic
