import Verif.Analytic.Props65
import Mathlib.Analysis.Calculus.ContDiff.Operations
import Mathlib.Analysis.Calculus.ContDiff.Deriv
import Mathlib.Analysis.SpecialFunctions.ExpDeriv
/-
The filter of the electric dipole: how often it can be differentiated.
-/
namespace Verif.Analytic
open Verif Filter Topology

/-! ### Powers of the positive part -/

theorem posPart_deriv (n : Nat) (t : ℝ) : HasDerivAt (fun s : ℝ => (max s 0) ^ (n + 2)) ((n + 2 : Nat) * (max t 0) ^ (n + 1)) t := by
  have hne : ∀ y : ℝ, y ≠ 0 → HasDerivAt (fun s : ℝ => (max s 0) ^ (n + 2)) ((n + 2 : Nat) * (max y 0) ^ (n + 1)) y := by
    intro y hy
    rcases lt_or_gt_of_ne hy with h | h
    · have hev : (fun s : ℝ => (max s 0) ^ (n + 2)) =ᶠ[𝓝 y] fun _ => 0 := by
        filter_upwards [gt_mem_nhds h] with s hs
        rw [max_eq_right hs.le, zero_pow (by omega)]
      rw [max_eq_right h.le, zero_pow (by omega), mul_zero]
      exact (hasDerivAt_const y (0 : ℝ)).congr_of_eventuallyEq hev
    · have hev : (fun s : ℝ => (max s 0) ^ (n + 2)) =ᶠ[𝓝 y] fun s => s ^ (n + 2) := by
        filter_upwards [lt_mem_nhds h] with s hs
        rw [max_eq_left hs.le]
      rw [max_eq_left h.le]
      exact (hasDerivAt_pow (n + 2) y).congr_of_eventuallyEq hev
  by_cases h0 : t = 0
  · subst h0
    refine hasDerivAt_of_hasDerivAt_of_ne' (x := 0) (g := fun y : ℝ => (n + 2 : Nat) * (max y 0) ^ (n + 1)) hne ?_ ?_ 0
    · fun_prop
    · fun_prop
  · exact hne t h0

theorem posPart_contDiff (k : Nat) : ContDiff ℝ k (fun s : ℝ => (max s 0) ^ (k + 1)) := by
  induction k with
  | zero => exact contDiff_zero.2 (by fun_prop)
  | succ k ih =>
    have hd : deriv (fun s : ℝ => (max s 0) ^ (k + 2)) = fun t => ((k + 2 : Nat) : ℝ) * (max t 0) ^ (k + 1) := funext fun t => (posPart_deriv k t).deriv
    rw [show ((k + 1 : Nat) : WithTop ℕ∞) = (k : WithTop ℕ∞) + 1 from by push_cast; rfl]
    refine contDiff_succ_iff_deriv.2 ⟨fun t => (posPart_deriv k t).differentiableAt, fun h => by simp at h, ?_⟩
    rw [hd]
    exact contDiff_const.mul ih

theorem posPart_contDiff' {k n : Nat} (h : k + 1 ≤ n) : ContDiff ℝ k (fun s : ℝ => (max s 0) ^ n) := by
  obtain ⟨j, rfl⟩ := Nat.exists_eq_add_of_le h
  have := posPart_contDiff (k + j)
  rw [show k + 1 + j = k + j + 1 by omega]
  exact this.of_le (by exact_mod_cast Nat.le_add_right k j)

/-! ### The filter -/

variable {D : Dipole ℝ}

theorem delta_posPart (hN : 1 ≤ D.order) (t : ℝ) :
    filteredDelta realFns D t = (D.order / D.tPeak) ^ D.order / (D.tPeak * (D.order - 1).factorial) * (max t 0) ^ D.order * Real.exp (-(D.order * t / D.tPeak)) := by
  rcases le_or_gt t 0 with h | h
  · rw [max_eq_right h, zero_pow (by omega)]
    unfold filteredDelta
    rw [if_pos h]; ring
  · rw [max_eq_left h.le, delta_eq hN h]
    have e : (D.order * t / D.tPeak) ^ D.order = (D.order / D.tPeak) ^ D.order * t ^ D.order := by
      rw [← mul_pow]; congr 1; ring
    rw [e]
    ring

theorem deltaPrime_posPart (hN : 2 ≤ D.order) (hp : 0 < D.tPeak) (t : ℝ) :
    filteredDeltaPrime realFns D t =
      (D.order / D.tPeak) ^ D.order / (D.tPeak * (D.order - 1).factorial) * (max t 0) ^ (D.order - 1) * Real.exp (-(D.order * t / D.tPeak)) * (D.tPeak - t) * D.order / D.tPeak := by
  rcases le_or_gt t 0 with h | h
  · rw [max_eq_right h, zero_pow (by omega)]
    unfold filteredDeltaPrime
    rw [if_pos h]; ring
  · unfold filteredDeltaPrime
    rw [if_neg (not_le.2 h), delta_posPart (by omega), max_eq_left h.le]
    obtain ⟨k, hk⟩ := Nat.exists_eq_add_of_le' hN
    rw [hk, show k + 2 - 1 = k + 1 by omega, pow_succ t (k + 1)]
    field_simp

theorem delta_contDiff {d : Nat} (hN : d + 1 ≤ D.order) : ContDiff ℝ d (filteredDelta realFns D) := by
  rw [show filteredDelta realFns D = _ from funext (delta_posPart (by omega))]
  have := posPart_contDiff' hN
  fun_prop

theorem deltaPrime_contDiff {d : Nat} (hN : d + 2 ≤ D.order) (hp : 0 < D.tPeak) : ContDiff ℝ d (filteredDeltaPrime realFns D) := by
  rw [show filteredDeltaPrime realFns D = _ from funext (deltaPrime_posPart (by omega) hp)]
  have := posPart_contDiff' (show d + 1 ≤ D.order - 1 by omega)
  fun_prop

theorem theta_continuousAt_zero (hN : 1 ≤ D.order) (hp : 0 < D.tPeak) : ContinuousAt (filteredTheta realFns D) 0 := by
  have e : filteredTheta realFns D = fun t => if t ≤ 0 then 0 else 1 - Real.exp (-(D.order * t / D.tPeak)) * ePart (D.order * t / D.tPeak) (D.order + 1) := by
    funext t
    by_cases h : t ≤ 0
    · rw [if_pos h]; unfold filteredTheta; rw [if_pos h]
    · rw [if_neg h, theta_eq hN hp (not_le.1 h)]
  have hc : Continuous fun t : ℝ => 1 - Real.exp (-(D.order * t / D.tPeak)) * ePart (D.order * t / D.tPeak) (D.order + 1) := by
    unfold ePart
    fun_prop
  rw [e]
  refine (Continuous.if_le continuous_const hc continuous_id continuous_const fun x hx => ?_).continuousAt
  simp only [id] at hx
  subst hx
  unfold ePart
  simp [Finset.sum_range_succ']

theorem theta_deriv_all (hN : 1 ≤ D.order) (hp : 0 < D.tPeak) (t : ℝ) : HasDerivAt (filteredTheta realFns D) (filteredDelta realFns D t) t := by
  by_cases h0 : t = 0
  · subst h0
    refine hasDerivAt_of_hasDerivAt_of_ne' (x := 0) (g := filteredDelta realFns D) (fun y hy => (filters_deriv hN hp hy).1) (theta_continuousAt_zero hN hp) ?_ 0
    exact (delta_contDiff (d := 0) (by omega)).continuous.continuousAt
  · exact (filters_deriv hN hp h0).1

theorem theta_contDiff {d : Nat} (hN : d + 1 ≤ D.order) (hp : 0 < D.tPeak) : ContDiff ℝ d (filteredTheta realFns D) := by
  have : ContDiff ℝ ((d : WithTop ℕ∞) + 1) (filteredTheta realFns D) := by
    refine contDiff_succ_iff_deriv.2 ⟨fun t => (theta_deriv_all (by omega) hp t).differentiableAt, fun h => by simp at h, ?_⟩
    rw [show deriv (filteredTheta realFns D) = filteredDelta realFns D from funext fun t => (theta_deriv_all (by omega) hp t).deriv]
    exact delta_contDiff hN
  exact this.of_le le_self_add

end Verif.Analytic
