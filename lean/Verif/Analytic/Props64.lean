import Verif.Analytic.GammaSeries
/-
C64: the upper incomplete gamma function.
-/
namespace Verif.Analytic
open Verif

/-! ### Specification -/

/-- The upper incomplete gamma function `Γ(m + 1, z)`. -/
noncomputable def upperGamma (m : Nat) (z : ℝ) : ℝ := ∫ t in Set.Ioi z, t ^ m * Real.exp (-t)

/-- The functions of the C library, without rounding. -/
noncomputable def realLib : CLib ℝ := ⟨Real.exp, Real.log, fun x => Real.log (Real.Gamma x)⟩

/-! ### Proof -/

theorem exp_lgamma (m : Nat) : Real.exp (Real.log (Real.Gamma ((m : ℝ) + 1))) = m.factorial := by
  rw [Real.Gamma_nat_eq_factorial, Real.exp_log (fact_pos m)]

theorem exp_powlog {z : ℝ} (hz : 0 < z) (m : Nat) (x : ℝ) : Real.exp (((m : ℝ) + 1) * Real.log z - x) = z ^ (m + 1) * Real.exp (-x) := by
  rw [sub_eq_add_neg, Real.exp_add]
  congr 1
  have e : ((m : ℝ) + 1) * Real.log z = ((m + 1 : Nat) : ℝ) * Real.log z := by push_cast; ring
  rw [e, Real.exp_nat_mul, Real.exp_log hz]

theorem upperGamma_eq (m : Nat) {z : ℝ} (hz : 0 < z) : upperGamma m z = m.factorial * (Real.exp (-z) * ePart z (m + 1)) := gamma_integral m hz

/-- The series branch. -/
theorem series_ok {z tol : ℝ} (hz : 0 < z) (htol : 0 < tol) (m : Nat) (hm : z ≤ m + 1) :
    ∃ v N, (∀ fuel, N ≤ fuel → igSeries realLib fuel ((m : ℝ) + 1) z tol = .ok v) ∧ upperGamma m z ≤ v ∧ v ≤ upperGamma m z + tol * ((m + 1) / 2) * m.factorial := by
  obtain ⟨n, N, h1, h2, h3⟩ := series_loop_ok hz htol m
  refine ⟨m.factorial * (1 - Real.exp (-z) * (ePart z (m + 2 + n) - ePart z (m + 1))), N, fun fuel hf => ?_, ?_⟩
  · unfold igSeries
    rw [h2 fuel hf]
    simp only [Res.ok_bind, realLib]
    rw [exp_lgamma]
    have e : (m : ℝ) + 1 + 1 = ((m + 1 : Nat) : ℝ) + 1 := by push_cast; ring
    have e2 : ((m : ℝ) + 1) * Real.log z - Real.log (Real.Gamma ((m : ℝ) + 1 + 1)) - z = ((m : ℝ) + 1) * Real.log z - (Real.log (Real.Gamma (((m + 1 : Nat) : ℝ) + 1)) + z) := by rw [e]; ring
    rw [e2, exp_powlog hz, neg_add, Real.exp_add, Real.exp_neg (Real.log _), exp_lgamma]
    unfold sSum
    have hf := (fact_pos (m + 1)).ne'
    congr 3
    field_simp
  · rw [upperGamma_eq m hz]
    have hf := fact_pos m
    have hx := Real.exp_pos (-z)
    have hxe : Real.exp (-z) * Real.exp z = 1 := by rw [← Real.exp_add]; simp
    have hle := ePart_le hz (m + 2 + n)
    have hlow := ePart_mono hz (show 0 ≤ m + 1 by omega)
    have e0 : (m.factorial : ℝ) * (1 - Real.exp (-z) * (ePart z (m + 2 + n) - ePart z (m + 1))) - m.factorial * (Real.exp (-z) * ePart z (m + 1)) =
        m.factorial * (Real.exp (-z) * (Real.exp z - ePart z (m + 2 + n))) := by
      rw [mul_sub (Real.exp (-z)) (Real.exp z), hxe]; ring
    constructor
    · have : 0 ≤ (m.factorial : ℝ) * (Real.exp (-z) * (Real.exp z - ePart z (m + 2 + n))) := mul_nonneg hf.le (mul_nonneg hx.le (by linarith))
      linarith
    · -- the rest of the series
      have hn1 : (1 : ℝ) ≤ n := by exact_mod_cast h1
      have hm0 : (0 : ℝ) ≤ m := Nat.cast_nonneg _
      have ht := tail_le hz (m + 2 + n) (by push_cast; linarith)
      have hr : z ^ (m + 2 + n) / (m + 2 + n).factorial * (((m + 2 + n : Nat) + 1) / ((m + 2 + n : Nat) + 1 - z)) ≤ z ^ (m + 1 + n) / (m + 1 + n).factorial * ((m + 1) / (n + 1)) := by
        have e1 : m + 2 + n = (m + 1 + n) + 1 := by omega
        rw [e1, pow_succ, Nat.factorial_succ]
        have hF := fact_pos (m + 1 + n)
        push_cast
        have hd : 0 < (m : ℝ) + 1 + n + 1 + 1 - z := by linarith
        have e2 : z ^ (m + 1 + n) * z / (((m : ℝ) + 1 + n + 1) * (m + 1 + n).factorial) * (((m : ℝ) + 1 + n + 1 + 1) / ((m : ℝ) + 1 + n + 1 + 1 - z)) =
            z ^ (m + 1 + n) / (m + 1 + n).factorial * (z * ((m : ℝ) + 1 + n + 1 + 1) / (((m : ℝ) + 1 + n + 1) * ((m : ℝ) + 1 + n + 1 + 1 - z))) := by
          field_simp
        rw [e2]
        refine mul_le_mul_of_nonneg_left ?_ (div_nonneg (pow_nonneg hz.le _) hF.le)
        rw [div_le_div_iff₀ (by positivity) (by positivity)]
        have a1 : z * ((m : ℝ) + 1 + n + 1 + 1) * (n + 1) ≤ (m + 1) * ((m : ℝ) + 1 + n + 1 + 1) * (n + 1) :=
          mul_le_mul_of_nonneg_right (mul_le_mul_of_nonneg_right hm (by positivity)) (by positivity)
        have a2 : ((m : ℝ) + 1) * (((m : ℝ) + 1 + n + 1) * (n + 2)) ≤ (m + 1) * (((m : ℝ) + 1 + n + 1) * ((m : ℝ) + 1 + n + 1 + 1 - z)) :=
          mul_le_mul_of_nonneg_left (mul_le_mul_of_nonneg_left (by linarith) (by positivity)) (by positivity)
        have a3 : ((m : ℝ) + 1) * (((m : ℝ) + 1 + n + 1 + 1) * (n + 1)) ≤ (m + 1) * (((m : ℝ) + 1 + n + 1) * (n + 2)) :=
          mul_le_mul_of_nonneg_left (by nlinarith) (by positivity)
        linarith
      -- the term at which the loop stopped
      have hF := fact_pos (m + 1 + n)
      have hs : z ^ (m + 1 + n) / (m + 1 + n).factorial ≤ tol * (ePart z (m + 2 + n) - ePart z (m + 1)) := by
        unfold sTerm sSum at h3
        have hk : 0 < ((m + 1).factorial : ℝ) / z ^ (m + 1) := div_pos (fact_pos _) (pow_pos hz _)
        have e3 : z ^ n * (m + 1).factorial / ((m + 1 + n).factorial : ℝ) = (z ^ (m + 1 + n) / (m + 1 + n).factorial) * (((m + 1).factorial : ℝ) / z ^ (m + 1)) := by
          rw [pow_add z (m + 1) n]
          field_simp
        rw [e3, ← mul_assoc] at h3
        exact le_of_mul_le_mul_right h3 hk
      have hpart : ePart z (m + 2 + n) - ePart z (m + 1) ≤ Real.exp z := by
        have : ePart z 0 = 0 := by simp [ePart]
        linarith
      have hq : (m : ℝ) + 1 ≤ (m + 1) / 2 * (n + 1) := by nlinarith
      have hq' : ((m : ℝ) + 1) / (n + 1) ≤ (m + 1) / 2 := by rw [div_le_iff₀ (by positivity)]; exact hq
      have hend : Real.exp z - ePart z (m + 2 + n) ≤ tol * ((m + 1) / 2) * Real.exp z := by
        have b1 : z ^ (m + 1 + n) / (m + 1 + n).factorial * (((m : ℝ) + 1) / (n + 1)) ≤ tol * Real.exp z * ((m + 1) / 2) :=
          mul_le_mul (hs.trans (mul_le_mul_of_nonneg_left hpart htol.le)) hq' (by positivity) (by positivity)
        linarith
      have h9 : (m.factorial : ℝ) * (Real.exp (-z) * (Real.exp z - ePart z (m + 2 + n))) ≤ m.factorial * (Real.exp (-z) * (tol * ((m + 1) / 2) * Real.exp z)) :=
        mul_le_mul_of_nonneg_left (mul_le_mul_of_nonneg_left hend hx.le) hf.le
      have e9 : (m.factorial : ℝ) * (Real.exp (-z) * (tol * ((m + 1) / 2) * Real.exp z)) = tol * ((m + 1) / 2) * m.factorial := by
        have : Real.exp (-z) * (tol * ((m + 1) / 2) * Real.exp z) = tol * ((m + 1) / 2) * (Real.exp (-z) * Real.exp z) := by ring
        rw [this, hxe]; ring
      linarith

/-- **C64.** For every order `m` (the program passes `a = m + 1`), every positive argument and every tolerance `0 < tol ≤ 1`, the calculation of the incomplete gamma function ends, and without rounding its
    result `v` is the value of the integral up to the tolerance: with the series (`z ≤ 1` or `z < a`) it is not too small and at most `tol (m + 1) m! / 2` too large, with the continued fraction the relative error is at
    most `tol`, and then at most `m + 2` rounds of the loop are needed. -/
theorem C64_incomplete_gamma (m : Nat) (z tol : ℝ) (hz : 0 < z) (htol : 0 < tol) (htol1 : tol ≤ 1) :
    ∃ v N, (∀ fuel, N ≤ fuel → incompleteGamma realLib fuel ((m : ℝ) + 1) z tol = .ok v) ∧
      (z ≤ 1 ∨ z < m + 1 → upperGamma m z ≤ v ∧ v ≤ upperGamma m z + tol * ((m + 1) / 2) * m.factorial) ∧
      (¬ (z ≤ 1 ∨ z < m + 1) → |v - upperGamma m z| ≤ tol * v ∧ N = m + 2) := by
  have hm0 : (0 : ℝ) ≤ m := Nat.cast_nonneg _
  have hno : ¬ ((m : ℝ) + 1 < 0 ∨ z < 0) := by
    rintro (h | h) <;> linarith
  by_cases h : z ≤ 1 ∨ z < (m : ℝ) + 1
  · obtain ⟨v, N, h1, h2⟩ := series_ok hz htol m (by rcases h with h | h <;> linarith)
    refine ⟨v, N, fun fuel hf => ?_, fun _ => h2, fun h' => absurd h h'⟩
    unfold incompleteGamma
    rw [if_neg hno, if_pos h]
    exact h1 fuel hf
  · have hz1 : (m : ℝ) + 1 ≤ z := by
      by_contra hc
      exact h (Or.inr (not_le.1 hc))
    obtain ⟨w, h1, h2, h3⟩ := fraction_ok hz1 htol htol1
    have hp : 0 < z ^ (m + 1) * Real.exp (-z) := mul_pos (pow_pos hz _) (Real.exp_pos _)
    refine ⟨z ^ (m + 1) * Real.exp (-z) * w, m + 2, fun fuel hf => ?_, fun h' => absurd h' h, fun _ => ⟨?_, rfl⟩⟩
    · unfold incompleteGamma
      rw [if_neg hno, if_neg h]
      unfold igFraction
      rw [h1 fuel hf]
      simp only [Res.ok_bind, realLib]
      rw [exp_powlog hz]
    · have e : upperGamma m z = z ^ (m + 1) * Real.exp (-z) * jInt z 0 m := by
        rw [upperGamma_eq m hz]
        have := jInt_ePart hz m
        have e2 : z ^ (m + 1) * Real.exp (-z) * jInt z 0 m = Real.exp (-z) * (z ^ (m + 1) * jInt z 0 m) := by ring
        rw [e2, this]; ring
      rw [e, ← mul_sub, abs_mul, abs_of_pos hp]
      have := mul_le_mul_of_nonneg_left h3 hp.le
      linarith

/-- **C64.** Negative arguments end the program (`throw;` with no exception to throw again). -/
theorem C64_negative {K : Type} [Field K] [LinearOrder K] (L : CLib K) (fuel : Nat) (a z tol : K) (h : a < 0 ∨ z < 0) : incompleteGamma L fuel a z tol = .abort := by
  unfold incompleteGamma
  rw [if_pos h]

/-! ### Cases: both branches, with a filter of order 3 -/

example : ∃ v N, (∀ fuel, N ≤ fuel → incompleteGamma realLib fuel (((3 : Nat) : ℝ) + 1) 2 (1 / 1000000) = .ok v) ∧ upperGamma 3 2 ≤ v := by
  obtain ⟨v, N, h1, h2, _⟩ := C64_incomplete_gamma 3 2 (1 / 1000000) (by norm_num) (by norm_num) (by norm_num)
  exact ⟨v, N, h1, (h2 (Or.inr (by norm_num))).1⟩

example : ∃ v, (∀ fuel, 5 ≤ fuel → incompleteGamma realLib fuel (((3 : Nat) : ℝ) + 1) 9 (1 / 1000000) = .ok v) ∧ |v - upperGamma 3 9| ≤ 1 / 1000000 * v := by
  obtain ⟨v, N, h1, _, h3⟩ := C64_incomplete_gamma 3 9 (1 / 1000000) (by norm_num) (by norm_num) (by norm_num)
  obtain ⟨h4, rfl⟩ := h3 (by norm_num)
  exact ⟨v, h1, h4⟩

end Verif.Analytic
