import Mathlib.Algebra.Order.Field.Basic
import Mathlib.Algebra.Order.Group.Abs
import Verif.Base
/-
Model of the upper incomplete gamma function (MathUtils.hxx 1-78).

Numbers are elements of an ordered field `K` (no rounding).  A quotient with denominator zero is not a finite number; the model stops there with the outcome `ub`, so that nothing is claimed about it.
The loops have no bound in the program; the model runs them with some fuel, and ends with the outcome `diverge` when it is used up.
-/
namespace Verif.Analytic
open Verif

variable {K : Type} [Field K] [LinearOrder K] [IsStrictOrderedRing K]

/-! ### The program -/

/-- Functions of the C library. -/
structure CLib (K : Type) where
  exp : K → K
  log : K → K
  lgamma : K → K

/-- A quotient. -/
def fdiv (a b : K) : Res K := if b = 0 then .ub else .ok (a / b)

/-- MathUtils.hxx 13-18: the loop over the terms of the series; `C`, `accum`, `den` as in the program. -/
def seriesLoop (z tol : K) : Nat → K → K → K → Res K
  | 0, _, _, _ => .diverge
  | fuel + 1, C, accum, den =>
    (fdiv z (den + 1)).bind fun q =>
    (fdiv (C * q) (accum + C * q)).bind fun e =>
    if tol < e then seriesLoop z tol fuel (C * q) (accum + C * q) (den + 1) else .ok (accum + C * q)

/-- MathUtils.hxx 7-21 `incomplete_gamma_series_expansion`. -/
def igSeries (L : CLib K) (fuel : Nat) (a z tol : K) : Res K :=
  (seriesLoop z tol fuel 1 1 a).bind fun accum => .ok (L.exp (L.lgamma a) * (1 - L.exp (a * L.log z - L.lgamma (a + 1) - z) * accum))

/-- MathUtils.hxx 38-60: the loop of the continued fraction, with its variables in the order of the program. -/
def cfLoop (a tol : K) : Nat → K → K → K → K → K → K → Nat → K → Res K
  | 0, _, _, _, _, _, _, _, _ => .diverge
  | fuel + 1, An2, An1, Bn2, Bn1, an, bn, n, contfrac =>
    let An := bn * An1 + an * An2
    let Bn := bn * Bn1 + an * Bn2
    (fdiv An Bn).bind fun next =>
    (fdiv |next - contfrac| next).bind fun err =>
    if err < tol then .ok next
    else cfLoop a tol fuel An1 An Bn1 Bn (an + (a - 2 * (n : K) - 1)) (bn + 2) (n + 1) next

/-- MathUtils.hxx 24-63 `incomplete_gamma_continued_fraction`. -/
def igFraction (L : CLib K) (fuel : Nat) (a z tol : K) : Res K :=
  (cfLoop a tol fuel 0 1 1 (z - a + 1) (a - 1) (z - a + 1 + 2) 1 0).bind fun cf => .ok (L.exp (a * L.log z - z) * cf)

/-- MathUtils.hxx 65-77 `incomplete_gamma`. (`throw;` without an exception that is being handled ends the program.) -/
def incompleteGamma (L : CLib K) (fuel : Nat) (a z tol : K) : Res K :=
  if a < 0 ∨ z < 0 then .abort
  else if z ≤ 1 ∨ z < a then igSeries L fuel a z tol
  else igFraction L fuel a z tol

end Verif.Analytic
