import Verif.Analytic.Props63
import Mathlib.Analysis.SpecialFunctions.Gaussian.GaussianIntegral
import Mathlib.Analysis.SpecialFunctions.ImproperIntegrals
/-
C68: the highest frequency that the analytic calculator takes for the sampling is the 3 dB frequency of the filter; the steps of the grid.
-/
set_option linter.unusedSectionVars false
namespace Verif.Analytic
open Verif Verif.ND Verif.Dist Verif.Tree Verif.Bytes Verif.Ops Verif.Rebuild Verif.Green
open MeasureTheory Filter Topology

/-! ### Specification -/

/-- The response of the filter at the frequency `f`: the Fourier integral of its impulse response. -/
noncomputable def response (D : Dipole ℝ) (f : ℝ) : ℂ := ∫ t : ℝ, ((filteredDelta realFns D t : ℝ) : ℂ) * Complex.exp (-(2 * Real.pi * f * t : ℝ) * Complex.I)

/-! ### Proof -/

section
variable {c : ℂ}

theorem norm_powexp (n : Nat) {t : ℝ} (ht : 0 ≤ t) : ‖((t : ℂ) ^ n * Complex.exp (-c * t))‖ = t ^ n * Real.exp (-c.re * t) := by
  rw [norm_mul, norm_pow, Complex.norm_real, Real.norm_of_nonneg ht, Complex.norm_exp]
  simp

theorem integrable_powexp (hc : 0 < c.re) (n : Nat) : IntegrableOn (fun t : ℝ => (t : ℂ) ^ n * Complex.exp (-c * t)) (Set.Ioi 0) := by
  have h := integrableOn_rpow_mul_exp_neg_mul_rpow (p := 1) (s := n) (b := c.re) (by have : (0 : ℝ) ≤ n := Nat.cast_nonneg _; linarith) one_pos hc
  refine Integrable.mono' h (by fun_prop) ?_
  refine (ae_restrict_mem measurableSet_Ioi).mono fun t ht => ?_
  rw [norm_powexp n (le_of_lt ht)]
  simp [Real.rpow_natCast]

theorem tendsto_powexp (hc : 0 < c.re) (n : Nat) : Tendsto (fun t : ℝ => (t : ℂ) ^ n * Complex.exp (-c * t)) atTop (𝓝 0) := by
  rw [tendsto_zero_iff_norm_tendsto_zero]
  have h := tendsto_rpow_mul_exp_neg_mul_atTop_nhds_zero n c.re hc
  refine h.congr' ?_
  filter_upwards [eventually_ge_atTop 0] with t ht
  rw [norm_powexp n ht, Real.rpow_natCast]

theorem integral_powexp (hc : 0 < c.re) : ∀ n : Nat, ∫ t in Set.Ioi (0 : ℝ), (t : ℂ) ^ n * Complex.exp (-c * t) = n.factorial / c ^ (n + 1)
  | 0 => by
      have hc0 : c ≠ 0 := fun e => by rw [e] at hc; simp at hc
      have h := integral_exp_mul_complex_Ioi (a := -c) (by simpa using hc) 0
      simp only [pow_zero, one_mul, Nat.factorial_zero, Nat.cast_one, zero_add, pow_one]
      rw [h]
      simp
  | n + 1 => by
      have hc0 : c ≠ 0 := fun e => by rw [e] at hc; simp at hc
      have ih := integral_powexp hc n
      have hd : ∀ x ∈ Set.Ici (0 : ℝ), HasDerivAt (fun t : ℝ => (t : ℂ) ^ (n + 1) * Complex.exp (-c * t)) ((n + 1 : ℂ) * ((x : ℂ) ^ n * Complex.exp (-c * x)) - c * ((x : ℂ) ^ (n + 1) * Complex.exp (-c * x))) x := by
        intro x _
        have h1 : HasDerivAt (fun z : ℂ => z ^ (n + 1) * Complex.exp (-c * z)) ((n + 1 : ℂ) * ((x : ℂ) ^ n * Complex.exp (-c * x)) - c * ((x : ℂ) ^ (n + 1) * Complex.exp (-c * x))) (x : ℂ) := by
          have a := (hasDerivAt_pow (n + 1) (x : ℂ)).mul (((hasDerivAt_id (x : ℂ)).const_mul (-c)).cexp)
          refine a.congr_deriv ?_
          simp only [id, Nat.add_sub_cancel, mul_one]
          push_cast
          ring
        exact h1.comp_ofReal
      have hint := ((integrable_powexp hc n).const_mul (n + 1 : ℂ)).sub ((integrable_powexp hc (n + 1)).const_mul c)
      have h := integral_Ioi_of_hasDerivAt_of_tendsto' hd hint (tendsto_powexp hc (n + 1))
      rw [integral_sub ((integrable_powexp hc n).const_mul _) ((integrable_powexp hc (n + 1)).const_mul _), integral_const_mul, integral_const_mul, ih] at h
      simp only [Complex.ofReal_zero, ne_eq, Nat.succ_ne_zero, not_false_eq_true, zero_pow, zero_mul, sub_zero] at h
      rw [Nat.factorial_succ]
      push_cast
      have h' : c * ∫ t in Set.Ioi (0 : ℝ), (t : ℂ) ^ (n + 1) * Complex.exp (-c * t) = (n + 1 : ℂ) * (n.factorial / c ^ (n + 1)) := by linear_combination -h
      field_simp at h' ⊢
      rw [pow_succ]
      linear_combination h'

end

theorem response_eq (D : Dipole ℝ) (hN : 1 ≤ D.order) (hp : 0 < D.tPeak) (f : ℝ) :
    response D f = 1 / (1 + ((2 * Real.pi * f * D.tPeak / D.order : ℝ) : ℂ) * Complex.I) ^ (D.order + 1) := by
  have hN' : (0 : ℝ) < D.order := by exact_mod_cast hN
  set a : ℝ := D.order / D.tPeak with ha
  have ha0 : 0 < a := by positivity
  set c : ℂ := (a : ℂ) + ((2 * Real.pi * f : ℝ) : ℂ) * Complex.I with hc
  have hcre : c.re = a := by simp [hc]
  have hc0 : 0 < c.re := by rw [hcre]; exact ha0
  have hcne : c ≠ 0 := fun e => by rw [e] at hc0; simp at hc0
  have h1 : response D f = ∫ t in Set.Ioi (0 : ℝ), ((a ^ D.order / (D.tPeak * (D.order - 1).factorial) : ℝ) : ℂ) * ((t : ℂ) ^ D.order * Complex.exp (-c * t)) := by
    unfold response
    rw [← setIntegral_eq_integral_of_forall_compl_eq_zero (s := Set.Ioi (0 : ℝ))]
    · refine setIntegral_congr_fun measurableSet_Ioi fun t ht => ?_
      rw [delta_eq hN ht]
      have e : Complex.exp (-c * t) = ((Real.exp (-(D.order * t / D.tPeak)) : ℝ) : ℂ) * Complex.exp (-(2 * Real.pi * f * t : ℝ) * Complex.I) := by
        rw [Complex.ofReal_exp, ← Complex.exp_add]
        congr 1
        rw [hc, ha]
        push_cast
        ring
      rw [e]
      have e2 : D.order * t / D.tPeak = a * t := by rw [ha]; ring
      rw [e2, mul_pow]
      push_cast
      ring
    · intro t ht
      have ht : t ≤ 0 := not_lt.1 ht
      have : filteredDelta realFns D t = 0 := by unfold filteredDelta; rw [if_pos ht]
      rw [this]; simp
  rw [h1, integral_const_mul, integral_powexp hc0]
  have hfac : (D.order.factorial : ℂ) = D.order * (D.order - 1).factorial := by
    rw [← Nat.mul_factorial_pred (by omega : D.order ≠ 0)]; push_cast; rfl
  have hce : c = (a : ℂ) * (1 + ((2 * Real.pi * f * D.tPeak / D.order : ℝ) : ℂ) * Complex.I) := by
    rw [hc, ha]
    have : (D.order : ℂ) ≠ 0 := by exact_mod_cast hN'.ne'
    have : (D.tPeak : ℂ) ≠ 0 := by exact_mod_cast hp.ne'
    push_cast
    field_simp
  have hu : (1 + ((2 * Real.pi * f * D.tPeak / D.order : ℝ) : ℂ) * Complex.I) ≠ 0 := fun e => by rw [e] at hce; simp at hce; exact hcne hce
  rw [hfac, hce]
  generalize (1 + ((2 * Real.pi * f * D.tPeak / D.order : ℝ) : ℂ) * Complex.I) = u at *
  have h3 : ((D.order - 1).factorial : ℂ) ≠ 0 := by exact_mod_cast (Nat.factorial_pos _).ne'
  have h4 : (a : ℂ) ≠ 0 := by exact_mod_cast ha0.ne'
  have h5 : (D.tPeak : ℂ) ≠ 0 := by exact_mod_cast hp.ne'
  have h6 : (D.order : ℂ) = a * D.tPeak := by rw [ha]; push_cast; field_simp
  rw [h6, mul_pow]
  push_cast
  field_simp
  ring

/-- The power that passes the filter at the frequency `f`. -/
theorem power_eq (D : Dipole ℝ) (hN : 1 ≤ D.order) (hp : 0 < D.tPeak) (f : ℝ) : ‖response D f‖ ^ 2 = 1 / (1 + (2 * Real.pi * f * D.tPeak / D.order) ^ 2) ^ (D.order + 1) := by
  rw [response_eq D hN hp, norm_div, norm_one, norm_pow, div_pow, one_pow, ← pow_mul, mul_comm (D.order + 1) 2, pow_mul]
  congr 2
  rw [Complex.sq_norm]
  generalize 2 * Real.pi * f * D.tPeak / D.order = x
  simp [Complex.normSq_apply]
  ring

/-- **C68.** The frequency `fmax` that determines the sampling is the one at which the filter lets half of the power pass (3 dB): below it more, above it less. -/
theorem C68_cutoff (D : Dipole ℝ) (hN : 1 ≤ D.order) (hp : 0 < D.tPeak) :
    ∃ f : ℝ, fmax realFns (fun x => (2 : ℝ) ^ x) D = .ok f ∧ 0 < f ∧ response D 0 = 1 ∧ ‖response D f‖ ^ 2 = 1 / 2 ∧ ∀ g, 0 ≤ g → (g < f ↔ 1 / 2 < ‖response D g‖ ^ 2) := by
  obtain ⟨f, f1, f2, f3, _⟩ := real_req ⟨0, 0, 0, 0, 0, 1, ⟨1, D.tPeak, D.order, 0⟩, 1⟩ hN hp one_pos one_pos
  simp only at f2
  have hN' : (0 : ℝ) < D.order := by exact_mod_cast hN
  have hpi := Real.pi_pos
  have hpow : 1 < (2 : ℝ) ^ (1 / ((D.order : ℝ) + 1)) := Real.one_lt_rpow (by norm_num) (by positivity)
  have hx : 2 * Real.pi * f * D.tPeak / D.order = Real.sqrt ((2 : ℝ) ^ (1 / ((D.order : ℝ) + 1)) - 1) := by
    rw [f2]; field_simp
  have hx2 : 1 + (2 * Real.pi * f * D.tPeak / D.order) ^ 2 = (2 : ℝ) ^ (1 / ((D.order : ℝ) + 1)) := by
    rw [hx, Real.sq_sqrt (by linarith)]; ring
  have hroot : ((2 : ℝ) ^ (1 / ((D.order : ℝ) + 1))) ^ (D.order + 1) = 2 := by
    rw [← Real.rpow_natCast, ← Real.rpow_mul (by norm_num)]
    push_cast
    rw [one_div_mul_cancel (by positivity), Real.rpow_one]
  refine ⟨f, f3, f1, ?_, ?_, fun g hg => ?_⟩
  · rw [response_eq D hN hp]; simp
  · rw [power_eq D hN hp, hx2, hroot]
  · rw [power_eq D hN hp, one_div_lt_one_div (by norm_num) (by positivity)]
    have hr2 : ∀ x : ℝ, x < 2 ↔ x < (1 + (2 * Real.pi * f * D.tPeak / D.order) ^ 2) ^ (D.order + 1) := fun x => by rw [hx2, hroot]
    rw [hr2, pow_lt_pow_iff_left₀ (by positivity) (by positivity) (by omega), add_lt_add_iff_left, sq_lt_sq₀ (by positivity) (by positivity)]
    constructor
    · intro h
      gcongr
    · intro h
      by_contra hle
      have hle : f ≤ g := not_lt.1 hle
      have : 2 * Real.pi * f * D.tPeak / D.order ≤ 2 * Real.pi * g * D.tPeak / D.order := by gcongr
      linarith

/-- **C68**. The requested steps: half a wavelength (in the medium) and half a period of the 3 dB frequency, divided by the oversampling factor. -/
theorem C68_requested_steps (P : Params ℝ) (hN : 1 ≤ P.dip.order) (hp : 0 < P.dip.tPeak) (hn : 0 < P.dip.ior) (ho : 0 < P.os) :
    ∃ f wavelength period hs ht : ℝ, 0 < f ∧ ‖response P.dip f‖ ^ 2 = 1 / 2 ∧ wavelength * f = 1 / P.dip.ior ∧ period * f = 1 ∧
      reqStep realFns (fun x => (2 : ℝ) ^ x) P = .ok (hs, ht) ∧ hs * P.os = wavelength / 2 ∧ ht * P.os = period / 2 := by
  obtain ⟨f, f1, f2, f3, f4⟩ := real_req P hN hp hn ho
  obtain ⟨g, g1, _, _, g2, _⟩ := C68_cutoff P.dip hN hp
  rw [f3] at g1
  cases g1
  refine ⟨f, 1 / (f * P.dip.ior), 1 / f, _, _, f1, g2, ?_, ?_, f4, ?_, ?_⟩ <;> field_simp

section steps
variable {K : Type} [Field K] [LinearOrder K] [IsStrictOrderedRing K] [FloorSemiring K]

/-- **C68** (part). The step of the grid is at least the requested one and less than twice the requested one. (Partial: it should be at most the requested one, see `C68_oversampling_missed`.) -/
theorem C68_steps_partial {lo hi req : K} {n : Nat} {s : K} (hr : 0 < req) (h : Divides lo hi req n s) : req ≤ s ∧ s < 2 * req := by
  have hn : (1 : K) ≤ n := by exact_mod_cast h.pos
  have h1 := h.ends
  have h2 := h.fits
  have h3 := h.most
  constructor
  · by_contra hc
    have : s * n < req * n := mul_lt_mul_of_pos_right (not_le.1 hc) (by linarith)
    linarith
  · by_contra hc
    have a1 : 2 * req * n ≤ s * n := mul_le_mul_of_nonneg_right (not_lt.1 hc) (by linarith)
    have a2 : req * 1 ≤ req * n := mul_le_mul_of_nonneg_left hn hr.le
    linarith

/-- **C68** fails: unless the requested step divides the axis exactly, the step of the grid is larger than requested; the oversampling factor is then smaller than requested. -/
theorem C68_oversampling_missed {lo hi req : K} {n : Nat} {s : K} (hr : 0 < req) (h : Divides lo hi req n s) : (∀ k : Nat, lo + req * k ≠ hi) ↔ req < s := by
  have hn : (1 : K) ≤ n := by exact_mod_cast h.pos
  have h1 := h.ends
  have h2 := h.fits
  have h3 := h.most
  constructor
  · intro hk
    refine lt_of_le_of_ne (C68_steps_partial hr h).1 fun e => hk n ?_
    rw [e]; exact h1
  · rintro hlt k rfl
    have a1 : (n : K) * req ≤ req * k := by linarith
    have a2 : req * k < ((n : K) + 1) * req := by linarith
    have b1 : (n : K) ≤ k := by
      by_contra hc
      have := mul_lt_mul_of_pos_left (not_le.1 hc) hr
      linarith
    have b2 : (k : K) < (n : K) + 1 := by
      by_contra hc
      have := mul_le_mul_of_nonneg_left (not_lt.1 hc) hr.le
      linarith
    have hk : k = n := by
      have c1 : n ≤ k := by exact_mod_cast b1
      have c2 : k < n + 1 := by exact_mod_cast b2
      omega
    subst hk
    have : req * k < s * k := mul_lt_mul_of_pos_right hlt (by linarith)
    linarith

end steps

/-! ### The hypotheses can be met -/

namespace Ex68

example : ∃ f : ℝ, fmax realFns (fun x => (2 : ℝ) ^ x) Ex65.ice = .ok f ∧ ‖response Ex65.ice f‖ ^ 2 = 1 / 2 := by
  obtain ⟨f, h1, _, _, h2, _⟩ := C68_cutoff Ex65.ice (by decide) (by norm_num [Ex65.ice])
  exact ⟨f, h1, h2⟩

/-- An axis of length 19 with a requested step of 10 gets a single step of length 19. -/
example : Divides (0 : ℚ) 19 10 1 19 := ⟨by decide, by decide, by norm_num, by norm_num, by norm_num⟩

example : axisOf (0 : ℚ) 19 10 = .ok (1, 19) := by
  have e : (fdiv (19 - 0 : ℚ) 10) = .ok (19 / 10) := by unfold fdiv; rw [if_neg (by norm_num)]; norm_num
  have f : ⌊(19 / 10 : ℚ)⌋₊ = 1 := by rw [Nat.floor_eq_iff (by norm_num)]; norm_num
  unfold axisOf
  rw [e, Res.ok_bind]
  unfold toSize
  rw [if_neg (by norm_num), Res.ok_bind, f]
  unfold fdiv
  norm_num

end Ex68

end Verif.Analytic
