import Verif.Analytic.GammaCF
import Mathlib.Analysis.SpecialFunctions.Exponential
import Mathlib.Analysis.SpecificLimits.Normed
import Mathlib.Topology.Algebra.Order.Floor
import Mathlib.MeasureTheory.Integral.IntegralEqImproper
import Mathlib.Analysis.SpecialFunctions.Gamma.Basic
/-
The series of the incomplete gamma function, and its value as an integral.
-/
namespace Verif.Analytic
open Verif Filter Topology

/-- The first terms of the exponential series. -/
noncomputable def ePart (z : ℝ) (n : Nat) : ℝ := ∑ k ∈ Finset.range n, z ^ k / k.factorial

theorem ePart_succ (z : ℝ) (n : Nat) : ePart z (n + 1) = ePart z n + z ^ n / n.factorial := Finset.sum_range_succ _ _

theorem jInt_ePart {z : ℝ} (hz : 0 < z) : ∀ m : Nat, z ^ (m + 1) * jInt z 0 m = m.factorial * ePart z (m + 1)
  | 0 => by
      have := (jInt_parts0 hz 0).2
      rw [ePart_succ]
      simp [ePart]
      linarith
  | m + 1 => by
      have h := (jInt_parts0 hz m).1
      have ih := jInt_ePart hz m
      have e : z ^ (m + 1 + 1) * jInt z 0 (m + 1) = z ^ (m + 1) * (z * jInt z 0 (m + 1)) := by ring
      rw [e, h, ePart_succ z (m + 1), Nat.factorial_succ]
      push_cast
      have hf : ((m.factorial : ℝ)) ≠ 0 := by exact_mod_cast m.factorial_ne_zero
      have hm : ((m : ℝ) + 1) ≠ 0 := by positivity
      have e2 : z ^ (m + 1) * (1 + ((m : ℝ) + 1) * jInt z 0 m) = z ^ (m + 1) + (m + 1) * (z ^ (m + 1) * jInt z 0 m) := by ring
      rw [e2, ih]
      field_simp
      ring

theorem ePart_deriv (z : ℝ) : ∀ n : Nat, HasDerivAt (fun t => ePart t (n + 1)) (ePart z n) z
  | 0 => by
      have : (fun t => ePart t 1) = fun _ => 1 := by funext t; simp [ePart]
      rw [this]
      simpa [ePart] using hasDerivAt_const z (1 : ℝ)
  | n + 1 => by
      have e : (fun t => ePart t (n + 1 + 1)) = fun t => ePart t (n + 1) + t ^ (n + 1) / (n + 1).factorial := by funext t; rw [ePart_succ]
      rw [e, ePart_succ z n]
      refine (ePart_deriv z n).add ?_
      have h := (hasDerivAt_pow (n + 1) z).div_const ((n + 1).factorial : ℝ)
      refine h.congr_deriv ?_
      rw [Nat.factorial_succ]
      have hf : ((n.factorial : ℝ)) ≠ 0 := by exact_mod_cast n.factorial_ne_zero
      push_cast
      field_simp

theorem gamma_deriv (m : Nat) (z : ℝ) : HasDerivAt (fun t => -(m.factorial * (Real.exp (-t) * ePart t (m + 1)))) (z ^ m * Real.exp (-z)) z := by
  have h1 : HasDerivAt (fun t : ℝ => Real.exp (-t)) (-Real.exp (-z)) z := by
    have := (hasDerivAt_neg z).exp
    simpa using this
  have h := ((h1.mul (ePart_deriv z m)).const_mul (m.factorial : ℝ)).neg
  refine h.congr_deriv ?_
  rw [ePart_succ]
  have hf : ((m.factorial : ℝ)) ≠ 0 := by exact_mod_cast m.factorial_ne_zero
  field_simp
  ring

theorem gamma_tendsto (m : Nat) : Tendsto (fun t : ℝ => -(m.factorial * (Real.exp (-t) * ePart t (m + 1)))) atTop (𝓝 0) := by
  have h : Tendsto (fun t : ℝ => ∑ k ∈ Finset.range (m + 1), (t ^ k * Real.exp (-t)) * (1 / k.factorial)) atTop (𝓝 (∑ k ∈ Finset.range (m + 1), 0 * (1 / (k.factorial : ℝ)))) :=
    tendsto_finsetSum _ fun k _ => (Real.tendsto_pow_mul_exp_neg_atTop_nhds_zero k).mul_const _
  have h' := (h.const_mul (m.factorial : ℝ)).neg
  simp only [zero_mul, Finset.sum_const_zero, mul_zero, neg_zero] at h'
  refine h'.congr fun t => ?_
  have e : Real.exp (-t) * ePart t (m + 1) = ∑ k ∈ Finset.range (m + 1), (t ^ k * Real.exp (-t)) * (1 / k.factorial) := by
    unfold ePart
    rw [Finset.mul_sum]
    refine Finset.sum_congr rfl fun k _ => ?_
    ring
  rw [e]

/-- The integral in closed form. -/
theorem gamma_integral (m : Nat) {z : ℝ} (hz : 0 < z) : ∫ t in Set.Ioi z, t ^ m * Real.exp (-t) = m.factorial * (Real.exp (-z) * ePart z (m + 1)) := by
  have h := MeasureTheory.integral_Ioi_of_hasDerivAt_of_nonneg' (g := fun t => -(m.factorial * (Real.exp (-t) * ePart t (m + 1)))) (g' := fun t => t ^ m * Real.exp (-t)) (a := z)
    (fun x _ => gamma_deriv m x) (fun x hx => by
      have : (0 : ℝ) < x := lt_trans hz hx
      positivity) (gamma_tendsto m)
  rw [h]
  ring

/-! ### The series -/

theorem ePart_tendsto (z : ℝ) : Tendsto (ePart z) atTop (𝓝 (Real.exp z)) := by
  have h := (NormedSpace.expSeries_div_hasSum_exp z).tendsto_sum_nat
  rw [← Real.exp_eq_exp_ℝ] at h
  exact h

theorem fact_pos (n : Nat) : (0 : ℝ) < n.factorial := by exact_mod_cast n.factorial_pos

theorem ePart_mono {z : ℝ} (hz : 0 < z) {n k : Nat} (h : n ≤ k) : ePart z n ≤ ePart z k := by
  induction h with
  | refl => exact le_refl _
  | @step q _ ih =>
    refine ih.trans ?_
    show ePart z q ≤ ePart z (q + 1)
    rw [ePart_succ]
    have h : 0 ≤ z ^ q / (q.factorial : ℝ) := div_nonneg (pow_nonneg hz.le _) (fact_pos _).le
    linarith

theorem ePart_le {z : ℝ} (hz : 0 < z) (n : Nat) : ePart z n ≤ Real.exp z :=
  ge_of_tendsto (ePart_tendsto z) (eventually_atTop.2 ⟨n, fun _ h => ePart_mono hz h⟩)

/-- The rest of the exponential series. -/
theorem tail_le {z : ℝ} (hz : 0 < z) (N : Nat) (hN : z < N + 1) : Real.exp z ≤ ePart z N + z ^ N / N.factorial * ((N + 1) / (N + 1 - z)) := by
  have hd : 0 < (N : ℝ) + 1 - z := by linarith
  have key : ∀ M, ePart z (N + M) + z ^ (N + M) / (N + M).factorial * ((N + 1) / (N + 1 - z)) ≤ ePart z N + z ^ N / N.factorial * ((N + 1) / (N + 1 - z)) := by
    intro M
    induction M with
    | zero => exact le_refl _
    | succ M ih =>
      refine le_trans ?_ ih
      have e : N + (M + 1) = (N + M) + 1 := rfl
      rw [e, ePart_succ, Nat.factorial_succ, pow_succ]
      have h1 := fact_pos (N + M)
      have hM : (0 : ℝ) ≤ M := Nat.cast_nonneg _
      have hN0 : (0 : ℝ) ≤ N := Nat.cast_nonneg _
      push_cast
      have h2 : (0 : ℝ) < (N : ℝ) + M + 1 := by positivity
      have e2 : z ^ (N + M) * z / (((N : ℝ) + M + 1) * (N + M).factorial) * (((N : ℝ) + 1) / (N + 1 - z)) = z ^ (N + M) / (N + M).factorial * (z / (N + M + 1) * (((N : ℝ) + 1) / (N + 1 - z))) := by
        field_simp
      have h3 : 0 < z ^ (N + M) / ((N + M).factorial : ℝ) := div_pos (pow_pos hz _) h1
      have h4 : 1 + z / ((N : ℝ) + M + 1) * (((N : ℝ) + 1) / (N + 1 - z)) ≤ ((N : ℝ) + 1) / (N + 1 - z) := by
        have e3 : ((N : ℝ) + 1) / (N + 1 - z) = 1 + z / (N + 1 - z) := by field_simp; ring
        have h5 : z / ((N : ℝ) + M + 1) * (((N : ℝ) + 1) / (N + 1 - z)) ≤ z / (N + 1 - z) := by
          rw [div_mul_div_comm, div_le_div_iff₀ (by positivity) hd]
          have : 0 ≤ z * (N + 1 - z) * M := by positivity
          nlinarith
        linarith
      rw [e2]
      have h6 := mul_le_mul_of_nonneg_left h4 h3.le
      rw [mul_add, mul_one] at h6
      linarith
  refine le_of_tendsto (ePart_tendsto z) (eventually_atTop.2 ⟨N, fun k hk => ?_⟩)
  obtain ⟨M, rfl⟩ := Nat.exists_eq_add_of_le hk
  refine le_trans ?_ (key M)
  have h1 := fact_pos (N + M)
  have : 0 ≤ z ^ (N + M) / ((N + M).factorial : ℝ) * (((N : ℝ) + 1) / (N + 1 - z)) := by positivity
  linarith

/-- The terms and the partial sums of the program. -/
noncomputable def sTerm (z : ℝ) (m j : Nat) : ℝ := z ^ j * (m + 1).factorial / (m + 1 + j).factorial
noncomputable def sSum (z : ℝ) (m j : Nat) : ℝ := (ePart z (m + 2 + j) - ePart z (m + 1)) * ((m + 1).factorial / z ^ (m + 1))

theorem sTerm_zero (z : ℝ) (m : Nat) : sTerm z m 0 = 1 := by
  unfold sTerm
  rw [pow_zero, one_mul, Nat.add_zero, div_self (fact_pos (m + 1)).ne']

theorem sSum_zero {z : ℝ} (hz : 0 < z) (m : Nat) : sSum z m 0 = 1 := by
  unfold sSum
  have := (fact_pos (m + 1)).ne'
  show (ePart z (m + 1 + 1) - _) * _ = _
  rw [ePart_succ]
  field_simp
  ring

theorem sTerm_step {z : ℝ} (m j : Nat) : sTerm z m j * (z / ((m : ℝ) + 1 + j + 1)) = sTerm z m (j + 1) := by
  unfold sTerm
  have e : m + 1 + (j + 1) = (m + 1 + j) + 1 := rfl
  rw [e, Nat.factorial_succ (m + 1 + j), pow_succ]
  have h1 := (fact_pos (m + 1 + j)).ne'
  push_cast
  have h2 : (m : ℝ) + 1 + j + 1 ≠ 0 := by positivity
  field_simp

theorem sSum_step {z : ℝ} (hz : 0 < z) (m j : Nat) : sSum z m j + sTerm z m (j + 1) = sSum z m (j + 1) := by
  unfold sSum sTerm
  have e : m + 2 + (j + 1) = (m + 2 + j) + 1 := rfl
  have e' : m + 1 + (j + 1) = m + 2 + j := by omega
  rw [e, ePart_succ z (m + 2 + j), e']
  have h1 := (fact_pos (m + 2 + j)).ne'
  have e2 : z ^ (m + 2 + j) = z ^ (m + 1) * z ^ (j + 1) := by rw [← pow_add]; congr 1; omega
  rw [e2]
  field_simp
  ring

theorem sTerm_pos {z : ℝ} (hz : 0 < z) (m j : Nat) : 0 < sTerm z m j := div_pos (mul_pos (pow_pos hz _) (fact_pos _)) (fact_pos _)

theorem sSum_pos {z : ℝ} (hz : 0 < z) (m : Nat) : ∀ j, 1 ≤ sSum z m j
  | 0 => (sSum_zero hz m).ge
  | j + 1 => by
      rw [← sSum_step hz]
      have := sSum_pos hz m j
      have := sTerm_pos hz m (j + 1)
      linarith

theorem seriesLoop_mono {z tol : ℝ} : ∀ (fuel : Nat) {C acc den v : ℝ}, seriesLoop z tol fuel C acc den = .ok v → seriesLoop z tol (fuel + 1) C acc den = .ok v
  | 0, _, _, _, _, h => by cases h
  | fuel + 1, C, acc, den, v, h => by
      unfold seriesLoop at h ⊢
      obtain ⟨q, h1, h⟩ := Res.bind_eq_ok.1 h
      obtain ⟨e, h2, h⟩ := Res.bind_eq_ok.1 h
      refine Res.bind_eq_ok.2 ⟨q, h1, Res.bind_eq_ok.2 ⟨e, h2, ?_⟩⟩
      split
      · rw [if_pos (by assumption)] at h
        exact seriesLoop_mono fuel h
      · rwa [if_neg (by assumption)] at h

theorem seriesLoop_ok {z tol : ℝ} (hz : 0 < z) (m : Nat) : ∀ (r j : Nat), sTerm z m (j + r + 1) ≤ tol * sSum z m (j + r + 1) →
    ∃ n, 1 ≤ n ∧ seriesLoop z tol (r + 1) (sTerm z m j) (sSum z m j) ((m : ℝ) + 1 + j) = .ok (sSum z m n) ∧ sTerm z m n ≤ tol * sSum z m n
  | r, j, h => by
      have hs := sSum_pos hz m (j + 1)
      have hd : (m : ℝ) + 1 + j + 1 ≠ 0 := by positivity
      unfold seriesLoop fdiv
      rw [if_neg hd]
      simp only [Res.ok_bind]
      rw [sTerm_step, sSum_step hz, if_neg (by linarith)]
      simp only [Res.ok_bind]
      split
      · rename_i hlt
        cases r with
        | zero =>
          rw [lt_div_iff₀ (by linarith)] at hlt
          have h : sTerm z m (j + 1) ≤ tol * sSum z m (j + 1) := h
          linarith
        | succ r =>
          obtain ⟨n, h1, h2, h3⟩ := seriesLoop_ok hz m r (j + 1) (by
            have e : j + 1 + r + 1 = j + (r + 1) + 1 := by omega
            rw [e]; exact h)
          refine ⟨n, h1, ?_, h3⟩
          rw [← h2]
          push_cast
          congr 1
          ring
      · rename_i hlt
        rw [lt_div_iff₀ (by linarith)] at hlt
        exact ⟨j + 1, by omega, rfl, not_lt.1 hlt⟩

theorem series_loop_ok {z tol : ℝ} (hz : 0 < z) (htol : 0 < tol) (m : Nat) :
    ∃ n N, 1 ≤ n ∧ (∀ fuel, N ≤ fuel → seriesLoop z tol fuel 1 1 ((m : ℝ) + 1) = .ok (sSum z m n)) ∧ sTerm z m n ≤ tol * sSum z m n := by
  have ht := FloorSemiring.tendsto_pow_div_factorial_atTop z
  obtain ⟨n₀, hn⟩ := eventually_atTop.1 (ht.eventually_lt_const htol)
  have h1 := hn (n₀ + 1) (by omega)
  obtain ⟨n, a1, a2, a3⟩ := seriesLoop_ok (tol := tol) hz m n₀ 0 (by
    rw [Nat.zero_add]
    have h2 := sSum_pos hz m (n₀ + 1)
    have h3 : sTerm z m (n₀ + 1) ≤ z ^ (n₀ + 1) / (n₀ + 1).factorial := by
      unfold sTerm
      rw [mul_div_assoc, div_eq_mul_one_div (z ^ (n₀ + 1))]
      refine mul_le_mul_of_nonneg_left ?_ (pow_nonneg hz.le _)
      rw [div_le_div_iff₀ (fact_pos _) (fact_pos _)]
      have : (m + 1).factorial * (n₀ + 1).factorial ≤ (m + 1 + (n₀ + 1)).factorial := Nat.le_of_dvd (Nat.factorial_pos _) (Nat.factorial_mul_factorial_dvd_factorial_add _ _)
      rw [one_mul]
      exact_mod_cast this
    have h4 : tol * 1 ≤ tol * sSum z m (n₀ + 1) := mul_le_mul_of_nonneg_left h2 htol.le
    linarith)
  rw [sTerm_zero, sSum_zero hz] at a2
  refine ⟨n, n₀ + 1, a1, fun fuel hf => ?_, a3⟩
  obtain ⟨k, rfl⟩ := Nat.exists_eq_add_of_le hf
  clear hf
  induction k with
  | zero => simpa using a2
  | succ k ih => exact seriesLoop_mono _ ih

end Verif.Analytic
