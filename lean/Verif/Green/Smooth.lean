import Mathlib.Analysis.Calculus.MeanValue
import Mathlib.Analysis.Calculus.IteratedDeriv.Defs
import Mathlib.Analysis.Calculus.Deriv.Pow
/-
Taylor's theorem with an explicit bound, on both sides of the point of expansion.
-/
namespace Verif.Green
open Set

/-- A function and its derivatives up to order `d` on `[x, y]`. -/
theorem chain_right : ∀ (d : Nat) (D : Nat → ℝ → ℝ) {x y M : ℝ}, x ≤ y → (∀ i < d, ∀ u ∈ Icc x y, HasDerivWithinAt (D i) (D (i + 1) u) (Icc x y) u) → (∀ u ∈ Icc x y, |D d u| ≤ M) →
    |D 0 y - ∑ i ∈ Finset.range d, D i x * (y - x) ^ i / (i.factorial : ℝ)| ≤ M * (y - x) ^ d / (d.factorial : ℝ)
  | 0, D, x, y, M, hxy, _, hM => by simpa using hM y ⟨hxy, le_refl _⟩
  | d + 1, D, x, y, M, hxy, hD, hM => by
    set g : ℝ → ℝ := fun u => D 0 u - ∑ i ∈ Finset.range (d + 1), D i x * (u - x) ^ i / (i.factorial : ℝ) with hg
    set g' : ℝ → ℝ := fun u => D 1 u - ∑ i ∈ Finset.range d, D (i + 1) x * (u - x) ^ i / (i.factorial : ℝ) with hg'
    have hsum : ∀ u, HasDerivAt (fun u => ∑ i ∈ Finset.range (d + 1), D i x * (u - x) ^ i / (i.factorial : ℝ)) (∑ i ∈ Finset.range d, D (i + 1) x * (u - x) ^ i / (i.factorial : ℝ)) u := by
      intro u
      have h1 : ∀ i ∈ Finset.range (d + 1), HasDerivAt (fun u => D i x * (u - x) ^ i / (i.factorial : ℝ)) (D i x * ((i : ℝ) * (u - x) ^ (i - 1) * 1) / (i.factorial : ℝ)) u := fun i _ =>
        (((hasDerivAt_id u).sub_const x).pow i |>.const_mul (D i x)).div_const _
      refine (HasDerivAt.fun_sum h1).congr_deriv ?_
      rw [Finset.sum_range_succ']
      simp only [Nat.cast_zero, zero_mul, mul_zero, zero_div, add_zero]
      refine Finset.sum_congr rfl fun i _ => ?_
      rw [Nat.factorial_succ, Nat.add_sub_cancel]
      have : ((i.factorial : ℕ) : ℝ) ≠ 0 := by exact_mod_cast i.factorial_ne_zero
      have h2 : ((i : ℝ) + 1) ≠ 0 := by positivity
      push_cast
      field_simp
    have hgd : ∀ u ∈ Icc x y, HasDerivWithinAt g (g' u) (Icc x y) u := fun u hu => (hD 0 (Nat.succ_pos d) u hu).sub (hsum u).hasDerivWithinAt
    have hb : ∀ u ∈ Icc x y, |g' u| ≤ M * (u - x) ^ d / (d.factorial : ℝ) := fun u hu => by
      have hs : Icc x u ⊆ Icc x y := Icc_subset_Icc_right hu.2
      exact chain_right d (fun i => D (i + 1)) hu.1 (fun i hi v hv => (hD (i + 1) (by omega) v (hs hv)).mono hs) fun v hv => hM v (hs hv)
    have hB : ∀ u, HasDerivAt (fun u => M * (u - x) ^ (d + 1) / ((d + 1).factorial : ℝ)) (M * (u - x) ^ d / (d.factorial : ℝ)) u := by
      intro u
      refine ((((hasDerivAt_id u).sub_const x).pow (d + 1) |>.const_mul M).div_const _).congr_deriv ?_
      rw [Nat.factorial_succ, Nat.add_sub_cancel]
      have : ((d.factorial : ℕ) : ℝ) ≠ 0 := by exact_mod_cast d.factorial_ne_zero
      have h2 : ((d : ℝ) + 1) ≠ 0 := by positivity
      push_cast
      field_simp
      simp
    have hx : ‖g x‖ ≤ (fun u => M * (u - x) ^ (d + 1) / ((d + 1).factorial : ℝ)) x := by
      have : g x = 0 := by
        simp only [hg]
        rw [Finset.sum_range_succ']
        simp
      rw [this]
      simp
    have := image_norm_le_of_norm_deriv_right_le_deriv_boundary' (f := g) (f' := g') (B := fun u => M * (u - x) ^ (d + 1) / ((d + 1).factorial : ℝ)) (B' := fun u => M * (u - x) ^ d / (d.factorial : ℝ)) (a := x) (b := y)
      (fun u hu => (hgd u hu).continuousWithinAt) (fun u hu => (hgd u (Ico_subset_Icc_self hu)).mono_of_mem_nhdsWithin (Icc_mem_nhdsGE_of_mem hu)) hx
      (fun u _ => (hB u).continuousAt.continuousWithinAt) (fun u _ => (hB u).hasDerivWithinAt) (fun u hu => hb u (Ico_subset_Icc_self hu)) (x := y) ⟨hxy, le_refl _⟩
    exact this

/-- The same to the left. -/
theorem chain_left (d : Nat) (D : Nat → ℝ → ℝ) {x y M : ℝ} (hxy : y ≤ x) (hD : ∀ i < d, ∀ u ∈ Icc y x, HasDerivWithinAt (D i) (D (i + 1) u) (Icc y x) u) (hM : ∀ u ∈ Icc y x, |D d u| ≤ M) :
    |D 0 y - ∑ i ∈ Finset.range d, D i x * (y - x) ^ i / (i.factorial : ℝ)| ≤ M * (x - y) ^ d / (d.factorial : ℝ) := by
  have hmem : ∀ u, u ∈ Icc (-x) (-y) → -u ∈ Icc y x := fun u hu => ⟨by linarith [hu.2], by linarith [hu.1]⟩
  have := chain_right d (fun i u => (-1) ^ i * D i (-u)) (x := -x) (y := -y) (M := M) (by linarith) (fun i hi u hu => by
      have h1 : HasDerivWithinAt (fun v : ℝ => -v) (-1) (Icc (-x) (-y)) u := (hasDerivAt_neg u).hasDerivWithinAt
      have h2 := (HasDerivWithinAt.scomp u (hD i hi (-u) (hmem u hu)) h1 hmem).const_mul ((-1 : ℝ) ^ i)
      refine h2.congr_deriv ?_
      simp only [smul_eq_mul]
      ring) (fun u hu => by
      rw [abs_mul, abs_pow, abs_neg, abs_one, one_pow, one_mul]
      exact hM _ (hmem u hu))
  simp only [neg_neg, pow_zero, one_mul] at this
  rw [show -y - -x = x - y by ring] at this
  refine le_trans (le_of_eq ?_) this
  congr 2
  refine Finset.sum_congr rfl fun i _ => ?_
  have : (y - x) ^ i = (-1) ^ i * (x - y) ^ i := by rw [← mul_pow]; congr 1; ring
  rw [this]
  ring

/-- Taylor's theorem. -/
theorem taylor_bound {d : Nat} {f : ℝ → ℝ} {a b M : ℝ} (hab : a < b) (hf : ContDiffOn ℝ d f (Icc a b)) (hM : ∀ u ∈ Icc a b, |iteratedDerivWithin d f (Icc a b) u| ≤ M) {x : ℝ} (hx : x ∈ Icc a b) {y : ℝ}
    (hy : y ∈ Icc a b) : |f y - ∑ i ∈ Finset.range d, iteratedDerivWithin i f (Icc a b) x * (y - x) ^ i / (i.factorial : ℝ)| ≤ M * |y - x| ^ d / (d.factorial : ℝ) := by
  have hU := uniqueDiffOn_Icc hab
  have hD : ∀ i < d, ∀ u ∈ Icc a b, HasDerivWithinAt (iteratedDerivWithin i f (Icc a b)) (iteratedDerivWithin (i + 1) f (Icc a b) u) (Icc a b) u := fun i hi u hu => by
    rw [iteratedDerivWithin_succ]
    exact ((hf.differentiableOn_iteratedDerivWithin (by exact_mod_cast hi) hU) u hu).hasDerivWithinAt
  have h0 : f y = iteratedDerivWithin 0 f (Icc a b) y := by rw [iteratedDerivWithin_zero]
  rw [h0]
  rcases le_total x y with h | h
  · rw [abs_of_nonneg (sub_nonneg.2 h)]
    have hs : Icc x y ⊆ Icc a b := Icc_subset_Icc hx.1 hy.2
    exact chain_right d _ h (fun i hi u hu => (hD i hi u (hs hu)).mono hs) fun u hu => hM u (hs hu)
  · rw [abs_of_nonpos (sub_nonpos.2 h), neg_sub]
    have hs : Icc y x ⊆ Icc a b := Icc_subset_Icc hy.1 hx.2
    exact chain_left d _ h (fun i hi u hu => (hD i hi u (hs hu)).mono hs) fun u hu => hM u (hs hu)

end Verif.Green
