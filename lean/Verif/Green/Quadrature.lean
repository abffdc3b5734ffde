import Verif.Green.Props39
import Mathlib.Analysis.SpecialFunctions.Integrals.Basic
import Mathlib.MeasureTheory.Integral.IntervalIntegral.TrapezoidalRule
/-
The error of the trapezoidal rule, also for a sum that breaks off before the last point (used for C88).
-/
namespace Verif.Green
open Set intervalIntegral
open MeasureTheory (volume)

variable {f : ℝ → ℝ} {K : NNReal} {a b : ℝ}

theorem lip_abs_le (hf : LipschitzOnWith K f (Icc a b)) {x y : ℝ} (hx : x ∈ Icc a b) (hy : y ∈ Icc a b) : |f x - f y| ≤ K * |x - y| := by
  have := hf.dist_le_mul x hx y hy
  rwa [Real.dist_eq, Real.dist_eq] at this

theorem lip_integrable (hf : LipschitzOnWith K f (Icc a b)) (hab : a ≤ b) : IntervalIntegrable f volume a b :=
  ContinuousOn.intervalIntegrable (by rw [uIcc_of_le hab]; exact hf.continuousOn)

/-- The value at the left end. -/
theorem rect_left (hf : LipschitzOnWith K f (Icc a b)) (hab : a ≤ b) : |(∫ x in a..b, f x) - (b - a) * f a| ≤ K * (b - a) ^ 2 / 2 := by
  have e1 : (∫ x in a..b, f x) - (b - a) * f a = ∫ x in a..b, (f x - f a) := by
    rw [integral_sub (lip_integrable hf hab) (by simp), integral_const, smul_eq_mul]
  have e2 : ∫ x in a..b, (K : ℝ) * (x - a) = K * (b - a) ^ 2 / 2 := by
    rw [integral_const_mul, integral_sub (by simp) (by simp), integral_const, integral_id, smul_eq_mul]
    ring
  rw [e1, ← e2, ← Real.norm_eq_abs]
  refine norm_integral_le_of_norm_le hab (Filter.Eventually.of_forall fun x hx => ?_) (Continuous.intervalIntegrable (by fun_prop) _ _)
  have := lip_abs_le hf ⟨hx.1.le, hx.2⟩ ⟨le_refl a, hab⟩
  rwa [abs_of_pos (sub_pos.2 hx.1)] at this

/-- The value at the right end. -/
theorem rect_right (hf : LipschitzOnWith K f (Icc a b)) (hab : a ≤ b) : |(∫ x in a..b, f x) - (b - a) * f b| ≤ K * (b - a) ^ 2 / 2 := by
  have e1 : (∫ x in a..b, f x) - (b - a) * f b = ∫ x in a..b, (f x - f b) := by
    rw [integral_sub (lip_integrable hf hab) (by simp), integral_const, smul_eq_mul]
  have e2 : ∫ x in a..b, (K : ℝ) * (b - x) = K * (b - a) ^ 2 / 2 := by
    rw [integral_const_mul, integral_sub (by simp) (by simp), integral_const, integral_id, smul_eq_mul]
    ring
  rw [e1, ← e2, ← Real.norm_eq_abs]
  refine norm_integral_le_of_norm_le hab (Filter.Eventually.of_forall fun x hx => ?_) (Continuous.intervalIntegrable (by fun_prop) _ _)
  have := lip_abs_le hf ⟨hx.1.le, hx.2⟩ ⟨hab, le_refl b⟩
  rwa [abs_sub_comm x b, abs_of_nonneg (sub_nonneg.2 hx.2)] at this

/-- One interval. -/
theorem trapez_one (hf : LipschitzOnWith K f (Icc a b)) (hab : a ≤ b) : |(∫ x in a..b, f x) - (b - a) * ((f a + f b) / 2)| ≤ K * (b - a) ^ 2 / 4 := by
  have h1 : a ≤ (a + b) / 2 := by linarith
  have h2 : (a + b) / 2 ≤ b := by linarith
  have f1 : LipschitzOnWith K f (Icc a ((a + b) / 2)) := hf.mono (Icc_subset_Icc le_rfl h2)
  have f2 : LipschitzOnWith K f (Icc ((a + b) / 2) b) := hf.mono (Icc_subset_Icc h1 le_rfl)
  have l1 := rect_left f1 h1
  have l2 := rect_right f2 h2
  rw [← integral_add_adjacent_intervals (lip_integrable f1 h1) (lip_integrable f2 h2)]
  rw [abs_le] at l1 l2 ⊢
  constructor <;> nlinarith [l1.1, l1.2, l2.1, l2.2]

/-- The first `m` of the intervals. -/
theorem trapez_many (m : Nat) {h : ℝ} (hh : 0 ≤ h) (hf : LipschitzOnWith K f (Icc a (a + m * h))) :
    |(∫ x in a..a + m * h, f x) - h * ∑ p ∈ Finset.range m, (f (a + p * h) + f (a + (p + 1 : Nat) * h)) / 2| ≤ m * (K * h ^ 2 / 4) := by
  induction m with
  | zero => simp
  | succ m ih =>
    have hm : a + m * h ≤ a + (m + 1 : Nat) * h := by push_cast; nlinarith
    have ha : a ≤ a + m * h := by have : (0 : ℝ) ≤ m * h := by positivity
                                  linarith
    have f1 : LipschitzOnWith K f (Icc a (a + m * h)) := hf.mono (Icc_subset_Icc le_rfl hm)
    have f2 : LipschitzOnWith K f (Icc (a + m * h) (a + (m + 1 : Nat) * h)) := hf.mono (Icc_subset_Icc ha le_rfl)
    have l1 := ih f1
    have l2 := trapez_one f2 hm
    rw [← integral_add_adjacent_intervals (lip_integrable f1 ha) (lip_integrable f2 hm), Finset.sum_range_succ]
    have e : a + ((m + 1 : Nat) : ℝ) * h - (a + m * h) = h := by push_cast; ring
    rw [e] at l2
    have e' : (((m + 1 : Nat) : ℝ)) * (K * h ^ 2 / 4) = m * (K * h ^ 2 / 4) + K * h ^ 2 / 4 := by push_cast; ring
    rw [e', mul_add]
    rw [abs_le] at l1 l2 ⊢
    constructor <;> linarith [l1.1, l1.2, l2.1, l2.2]

/-- The sum over pairs is the sum with half weights at the ends. -/
theorem pairs_sum (g : Nat → ℝ) (m : Nat) : ∑ p ∈ Finset.range m, (g p + g (p + 1)) / 2 = ∑ p ∈ Finset.range (m + 1), g p - g 0 / 2 - g m / 2 := by
  induction m with
  | zero => simp; ring
  | succ m ih => rw [Finset.sum_range_succ, ih, Finset.sum_range_succ _ (m + 1)]; ring

theorem sum_trapez {n : Nat} (hn : 0 < n) (g : Nat → ℝ) : ∑ p ∈ Finset.range (n + 1), trapez n p * g p = ∑ p ∈ Finset.range (n + 1), g p - g 0 / 2 - g n / 2 := by
  have e : ∀ p ∈ Finset.range (n + 1), trapez n p * g p = g p - (if p = 0 then g p / 2 else 0) - (if p = n then g p / 2 else 0) := by
    intro p _
    unfold trapez
    by_cases h0 : p = 0
    · rw [if_pos (Or.inl h0), if_pos h0, if_neg (by omega)]; ring
    · by_cases h1 : p = n
      · rw [if_pos (Or.inr h1), if_neg h0, if_pos h1]; ring
      · rw [if_neg (by tauto), if_neg h0, if_neg h1]; ring
  rw [Finset.sum_congr rfl e, Finset.sum_sub_distrib, Finset.sum_sub_distrib, Finset.sum_ite_eq', Finset.sum_ite_eq', if_pos (by simp), if_pos (by simp)]

theorem sum_trapez_cut {n m : Nat} (hm : m < n) (g : Nat → ℝ) :
    (∑ p ∈ Finset.range (n + 1), if p ≤ m then trapez n p * g p else 0) = ∑ p ∈ Finset.range (m + 1), g p - g 0 / 2 := by
  have e1 : (∑ p ∈ Finset.range (n + 1), if p ≤ m then trapez n p * g p else 0) = ∑ p ∈ Finset.range (m + 1), trapez n p * g p := by
    rw [← Finset.sum_filter]
    congr 1
    ext p
    simp only [Finset.mem_filter, Finset.mem_range]
    omega
  have e : ∀ p ∈ Finset.range (m + 1), trapez n p * g p = g p - (if p = 0 then g p / 2 else 0) := by
    intro p hp
    have hp := Finset.mem_range.1 hp
    unfold trapez
    by_cases h0 : p = 0
    · rw [if_pos (Or.inl h0), if_pos h0]; ring
    · rw [if_neg (by omega), if_neg h0]; ring
  rw [e1, Finset.sum_congr rfl e, Finset.sum_sub_distrib, Finset.sum_ite_eq', if_pos (by simp)]

/-- The trapezoidal sum over the points up to the time `τ`, and the integral up to this time. -/
theorem quad_cut {n : Nat} (hn : 0 < n) (hab : a < b) (τ : ℝ) (hf : LipschitzOnWith K f (Icc a (min b τ))) {B : ℝ} (hB0 : 0 ≤ B) (hB : ∀ t ∈ Icc a (min b τ), |f t| ≤ B) :
    |(b - a) / n * (∑ p ∈ Finset.range (n + 1), if a + p * ((b - a) / n) ≤ τ then trapez n p * f (a + p * ((b - a) / n)) else 0) - ∫ t in a..max a (min b τ), f t| ≤
      (b - a) / n / 2 * (K * (b - a) + if b ≤ τ then 0 else B) := by
  have hn' : (0 : ℝ) < n := by exact_mod_cast hn
  have hT : 0 < b - a := by linarith
  obtain ⟨h, hh⟩ : ∃ h, h = (b - a) / n := ⟨_, rfl⟩
  have hp : 0 < h := by rw [hh]; positivity
  have hnh : n * h = b - a := by rw [hh]; field_simp
  rw [← hh]
  rcases le_or_gt b τ with hb | hb
  · -- all points
    rw [if_pos hb, add_zero]
    rw [min_eq_left hb] at hf hB ⊢
    rw [max_eq_right hab.le]
    have e : ∀ p ∈ Finset.range (n + 1), (if a + (p : ℝ) * h ≤ τ then trapez n p * f (a + p * h) else 0) = trapez n p * f (a + p * h) := by
      intro p hp'
      have : (p : ℝ) ≤ n := by exact_mod_cast Nat.lt_succ_iff.1 (Finset.mem_range.1 hp')
      rw [if_pos]
      have := mul_le_mul_of_nonneg_right this hp.le
      linarith
    rw [Finset.sum_congr rfl e, sum_trapez hn (fun p => f (a + p * h)), ← pairs_sum (fun p => f (a + p * h))]
    have := trapez_many n hp.le (f := f) (K := K) (a := a) (by rw [hnh, add_sub_cancel]; exact hf)
    rw [hnh, add_sub_cancel] at this
    rw [abs_sub_comm]
    refine this.trans ?_
    have : (n : ℝ) * (K * h ^ 2 / 4) = h / 4 * (K * (b - a)) := by rw [← hnh]; ring
    rw [this]
    have : 0 ≤ h * ((K : ℝ) * (b - a)) := by positivity
    linarith
  · rw [if_neg (not_le.2 hb)]
    rw [min_eq_right hb.le] at hf hB ⊢
    rcases lt_or_ge τ a with ha | ha
    · -- no point
      rw [max_eq_left ha.le, integral_same, Finset.sum_eq_zero, mul_zero, sub_zero, abs_zero]
      · positivity
      · intro p _
        rw [if_neg]
        have : (0 : ℝ) ≤ p * h := by positivity
        linarith
    · rw [max_eq_right ha]
      obtain ⟨m, hm⟩ : ∃ m, m = ⌊(τ - a) / h⌋₊ := ⟨_, rfl⟩
      have q0 : 0 ≤ (τ - a) / h := div_nonneg (by linarith) hp.le
      have m1 : m * h ≤ τ - a := by
        rw [hm, ← le_div_iff₀ hp]
        exact Nat.floor_le q0
      have m2 : τ - a < (m + 1) * h := by
        rw [hm, ← div_lt_iff₀ hp]
        exact Nat.lt_floor_add_one _
      have m3 : m < n := by
        have : (m : ℝ) * h < n * h := by linarith
        exact_mod_cast lt_of_mul_lt_mul_right this hp.le
      have e : ∀ p ∈ Finset.range (n + 1), (if a + (p : ℝ) * h ≤ τ then trapez n p * f (a + p * h) else 0) = if p ≤ m then trapez n p * f (a + p * h) else 0 := by
        intro p _
        have : a + (p : ℝ) * h ≤ τ ↔ p ≤ m := by
          rw [hm, Nat.le_floor_iff q0, le_div_iff₀ hp]
          constructor <;> intro <;> linarith
        simp only [this]
      rw [Finset.sum_congr rfl e, sum_trapez_cut m3 (fun p => f (a + p * h))]
      have e2 : ∑ p ∈ Finset.range (m + 1), f (a + p * h) - f (a + (0 : Nat) * h) / 2 = (∑ p ∈ Finset.range m, (f (a + p * h) + f (a + (p + 1 : Nat) * h)) / 2) + f (a + m * h) / 2 := by
        rw [pairs_sum (fun p => f (a + p * h))]; ring
      rw [e2]
      have ma : a ≤ a + m * h := by have : (0 : ℝ) ≤ m * h := by positivity
                                    linarith
      have mt : a + m * h ≤ τ := by linarith
      have f1 : LipschitzOnWith K f (Icc a (a + m * h)) := hf.mono (Icc_subset_Icc le_rfl mt)
      have f2 : LipschitzOnWith K f (Icc (a + m * h) τ) := hf.mono (Icc_subset_Icc ma le_rfl)
      have l1 := trapez_many m hp.le f1
      have l2 := rect_left f2 mt
      have l3 := hB (a + m * h) ⟨ma, mt⟩
      rw [← integral_add_adjacent_intervals (lip_integrable f1 ma) (lip_integrable f2 mt)]
      obtain ⟨l, hl⟩ : ∃ l, l = τ - (a + m * h) := ⟨_, rfl⟩
      rw [← hl] at l2
      have l0 : 0 ≤ l ∧ l < h := by rw [hl]; constructor <;> linarith
      have l4 : |(l - h / 2) * f (a + m * h)| ≤ h / 2 * B := by
        rw [abs_mul]
        refine mul_le_mul ?_ l3 (abs_nonneg _) (by positivity)
        rw [abs_le]; constructor <;> linarith [l0.1, l0.2]
      have k0 : (0 : ℝ) ≤ K := K.2
      have l5 : (m : ℝ) * (K * h ^ 2 / 4) + K * l ^ 2 / 2 ≤ h / 2 * (K * (b - a)) := by
        rw [← hnh]
        have s1 : (K : ℝ) * l ^ 2 ≤ K * h ^ 2 := mul_le_mul_of_nonneg_left (by nlinarith [l0.1, l0.2]) k0
        have s2 : ((m : ℝ) + 1) * (K * h ^ 2) ≤ n * (K * h ^ 2) := mul_le_mul_of_nonneg_right (by exact_mod_cast m3) (by positivity)
        have s3 : (0 : ℝ) ≤ m * (K * h ^ 2) := by positivity
        have s4 : h / 2 * ((K : ℝ) * (n * h)) = n * (K * h ^ 2) / 2 := by ring
        rw [s4]
        linarith
      rw [mul_add]
      rw [abs_le] at l1 l2 l4 ⊢
      constructor <;> nlinarith [l1.1, l1.2, l2.1, l2.2, l4.1, l4.2, l5]

/-- All points, twice differentiable. -/
theorem quad_smooth {n : Nat} (hn : 0 < n) (hab : a < b) {M : ℝ} (hf : ContDiffOn ℝ 2 f (Icc a b)) (hM : ∀ t ∈ Icc a b, |iteratedDerivWithin 2 f (Icc a b) t| ≤ M) :
    |(b - a) / n * (∑ p ∈ Finset.range (n + 1), trapez n p * f (a + p * ((b - a) / n))) - ∫ t in a..b, f t| ≤ ((b - a) / n) ^ 2 / 12 * (M * (b - a)) := by
  have hn' : (0 : ℝ) < n := by exact_mod_cast hn
  have hu : Set.uIcc a b = Icc a b := uIcc_of_le hab.le
  have hM0 : 0 ≤ M := (abs_nonneg _).trans (hM a ⟨le_refl a, hab.le⟩)
  have hall : ∀ t, |iteratedDerivWithin 2 f (Icc a b) t| ≤ M := by
    intro t
    by_cases ht : t ∈ Icc a b
    · exact hM t ht
    · rw [iteratedDerivWithin_succ, derivWithin_zero_of_notMem_closure (by rwa [isClosed_Icc.closure_eq]), abs_zero]
      exact hM0
  have := trapezoidal_error_le_of_c2 (f := f) (a := a) (b := b) (by rw [hu]; exact hf) (ζ := M) (by rw [hu]; exact hall) hn
  unfold trapezoidal_error trapezoidal_integral at this
  rw [sum_trapez hn (fun p => f (a + p * ((b - a) / n)))]
  obtain ⟨m, rfl⟩ : ∃ m, n = m + 1 := ⟨n - 1, by omega⟩
  rw [Finset.sum_range_succ, Finset.sum_range_succ']
  have e0 : a + ((m + 1 : Nat) : ℝ) * ((b - a) / (m + 1 : Nat)) = b := by field_simp; ring
  have e1 : ∑ k ∈ Finset.range (m + 1 - 1), f (a + ((k : ℝ) + 1) * (b - a) / (m + 1 : Nat)) = ∑ k ∈ Finset.range m, f (a + ((k + 1 : Nat) : ℝ) * ((b - a) / (m + 1 : Nat))) := by
    rw [Nat.add_sub_cancel]
    refine Finset.sum_congr rfl fun k _ => ?_
    push_cast
    rw [mul_div_assoc]
  rw [e1] at this
  rw [e0]
  have e2 : |b - a| ^ 3 * M / (12 * ((m + 1 : Nat) : ℝ) ^ 2) = ((b - a) / (m + 1 : Nat)) ^ 2 / 12 * (M * (b - a)) := by
    rw [abs_of_pos (by linarith)]
    field_simp
  rw [← e2]
  refine le_trans (le_of_eq ?_) this
  congr 2
  simp only [Nat.cast_zero, zero_mul, add_zero]
  ring

end Verif.Green
