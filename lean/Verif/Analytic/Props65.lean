import Verif.Analytic.FieldProof
/-
C65: the field of the analytic electric dipole.
-/
namespace Verif.Analytic
open Verif Filter Topology

section generic
variable {K : Type} [Field K] [LinearOrder K] [IsStrictOrderedRing K]

/-- **C65.** At a point at distance `R` from the dipole (not zero and not below the smallest radius), with `T = R n` the travel time, the two stored numbers are, apart from rounding,
    `E_r = -(|r| z / R^5) (3 (θ + T δ) + T² δ') / (4 π n²)` and `E_z = -((2 z² - r²) (θ + T δ) - r² T² δ') / (4 π n² R^5)`, where `θ`, `δ`, `δ'` are taken at the retarded time `t - T`. -/
theorem C65_field_formula (F : Fns K) (D : Dipole K) (hn : D.ior ≠ 0) (hp : F.pi ≠ 0) (t r z R T : K) (hR : R = F.sqrt (r * r + z * z)) (hT : T = R * D.ior) (hmin : D.rMin ≤ R) (h0 : R ≠ 0) :
    fieldAt F D r z t =
      [some (-(|r| * z / R ^ 5) * (3 * (filteredTheta F D (t - T) + T * filteredDelta F D (t - T)) + T ^ 2 * filteredDeltaPrime F D (t - T)) / (4 * F.pi * D.ior ^ 2)),
       some (-((2 * z ^ 2 - r ^ 2) * (filteredTheta F D (t - T) + T * filteredDelta F D (t - T)) - r ^ 2 * T ^ 2 * filteredDeltaPrime F D (t - T)) / (4 * F.pi * D.ior ^ 2 * R ^ 5))] := by
  subst hT
  rw [field_formula hn hp t r z R hR hmin h0 _ _ rfl rfl]
  have h4 : (4 : K) ≠ 0 := by norm_num
  congr 2
  · field_simp; ring
  · congr 1; field_simp; ring

/-- **C65.** Nearer than the smallest radius, and at the dipole itself, both numbers are NaN. -/
theorem C65_nan (F : Fns K) (D : Dipole K) (t r z R : K) (hR : R = F.sqrt (r * r + z * z)) (h : R < D.rMin ∨ R = 0) : fieldAt F D r z t = [none, none] := by
  have hab : |r| * |r| = r * r := abs_mul_abs_self r
  have hR' : F.sqrt (r * r + z * z) = R := hR.symm
  unfold fieldAt eRxy eZ
  simp only [abs_abs, hab, hR']
  rcases h with h | h
  · have e1 : eR F D t |r| z = none := by unfold eR; simp only [abs_abs, hab, hR', if_pos h]
    rw [e1]
    rfl
  · have q : ∀ a : K, quo a R = none := fun a => by unfold quo; rw [if_pos h]
    rw [q, q]
    cases eR F D t |r| z <;> rfl

/-- **C65.** The field does not depend on the sign of `r`: the padding at negative radii, which mirrors the stored values, continues the field. -/
theorem C65_even (F : Fns K) (D : Dipole K) (t r z : K) : fieldAt F D (-r) z t = fieldAt F D r z t := by
  unfold fieldAt eRxy eZ
  simp only [abs_neg]

/-- **C65.** Causality: until light in the medium has travelled the distance the field is zero (not a small number). -/
theorem C65_causal (F : Fns K) (D : Dipole K) (hn : D.ior ≠ 0) (hp : F.pi ≠ 0) (t r z R : K) (hR : R = F.sqrt (r * r + z * z)) (hmin : D.rMin ≤ R) (h0 : R ≠ 0) (ht : t ≤ R * D.ior) :
    fieldAt F D r z t = [some 0, some 0] := by
  have hle : t - R * D.ior ≤ 0 := by linarith
  have e1 : filteredTheta F D (t - R * D.ior) = 0 := by unfold filteredTheta; rw [if_pos hle]
  have e2 : filteredDelta F D (t - R * D.ior) = 0 := by unfold filteredDelta; rw [if_pos hle]
  have e3 : filteredDeltaPrime F D (t - R * D.ior) = 0 := by unfold filteredDeltaPrime; rw [if_pos hle]
  rw [C65_field_formula F D hn hp t r z R _ hR rfl hmin h0, e1, e2, e3]
  simp

end generic

section real
variable {D : Dipole ℝ}

theorem filters_deriv (hN : 1 ≤ D.order) (hp : 0 < D.tPeak) {t : ℝ} (ht : t ≠ 0) :
    HasDerivAt (filteredTheta realFns D) (filteredDelta realFns D t) t ∧ HasDerivAt (filteredDelta realFns D) (filteredDeltaPrime realFns D t) t ∧
      DifferentiableAt ℝ (filteredDeltaPrime realFns D) t := by
  rcases lt_or_gt_of_ne ht with h | h
  · have hz : ∀ f : ℝ → ℝ, (∀ s, s < 0 → f s = 0) → HasDerivAt f 0 t := fun f hf => by
      have hev : f =ᶠ[𝓝 t] fun _ => 0 := by
        filter_upwards [gt_mem_nhds h] with s hs
        exact hf s hs
      exact (hasDerivAt_const t (0 : ℝ)).congr_of_eventuallyEq hev
    have z1 : ∀ s < (0 : ℝ), filteredTheta realFns D s = 0 := fun s hs => by unfold filteredTheta; rw [if_pos hs.le]
    have z2 : ∀ s < (0 : ℝ), filteredDelta realFns D s = 0 := fun s hs => by unfold filteredDelta; rw [if_pos hs.le]
    have z3 : ∀ s < (0 : ℝ), filteredDeltaPrime realFns D s = 0 := fun s hs => by unfold filteredDeltaPrime; rw [if_pos hs.le]
    rw [z2 t h, z3 t h]
    exact ⟨hz _ z1, hz _ z2, (hz _ z3).differentiableAt⟩
  · exact ⟨theta_deriv hN hp h, delta_deriv hN hp h, deltaPrime_diff hN hp h⟩

theorem xpow_tendsto (D : Dipole ℝ) (hN : 1 ≤ D.order) (hp : 0 < D.tPeak) : Tendsto (fun t : ℝ => D.order * t / D.tPeak) atTop atTop := by
  have hN' : (0 : ℝ) < D.order := by exact_mod_cast hN
  have : (fun t : ℝ => D.order * t / D.tPeak) = fun t => (D.order / D.tPeak) * t := by funext t; ring
  rw [this]
  exact tendsto_id.const_mul_atTop (by positivity)

theorem theta_tendsto (hN : 1 ≤ D.order) (hp : 0 < D.tPeak) : Tendsto (filteredTheta realFns D) atTop (𝓝 1) := by
  have h := ((gamma_tendsto D.order).comp (xpow_tendsto D hN hp)).div_const (D.order.factorial : ℝ)
  have h' := h.const_add 1
  simp only [zero_div, add_zero] at h'
  refine h'.congr' ?_
  filter_upwards [eventually_gt_atTop 0] with t ht
  rw [theta_eq hN hp ht]
  have := (fact_pos D.order).ne'
  simp only [Function.comp]
  field_simp
  ring

theorem delta_tendsto (hN : 1 ≤ D.order) (hp : 0 < D.tPeak) : Tendsto (filteredDelta realFns D) atTop (𝓝 0) := by
  have h := ((Real.tendsto_pow_mul_exp_neg_atTop_nhds_zero D.order).comp (xpow_tendsto D hN hp)).div_const (D.tPeak * (D.order - 1).factorial)
  rw [zero_div] at h
  refine h.congr' ?_
  filter_upwards [eventually_gt_atTop 0] with t ht
  rw [delta_eq hN ht]
  rfl

theorem deltaPrime_tendsto (hN : 1 ≤ D.order) (hp : 0 < D.tPeak) : Tendsto (filteredDeltaPrime realFns D) atTop (𝓝 0) := by
  have h1 : Tendsto (fun t : ℝ => D.order * (1 / t - 1 / D.tPeak)) atTop (𝓝 (D.order * (0 - 1 / D.tPeak))) := by
    refine Tendsto.const_mul _ (Tendsto.sub_const ?_ _)
    have e : (fun t : ℝ => 1 / t) = fun t => t⁻¹ := by funext t; rw [one_div]
    show Tendsto (fun t : ℝ => 1 / t) atTop (𝓝 0)
    rw [e]
    exact tendsto_inv_atTop_zero
  have h := (delta_tendsto hN hp).mul h1
  rw [zero_mul] at h
  refine h.congr' ?_
  filter_upwards [eventually_gt_atTop 0] with t ht
  unfold filteredDeltaPrime
  rw [if_neg (not_le.2 ht)]
  field_simp

/-- **C65.** The signal that excites the dipole, for a filter of any order `N ≥ 1` and any peaking time: `δ` is the derivative of `θ` and `δ'` that of `δ` (at all times but the onset), `θ` rises without
    ever falling from 0 to its limit 1, and `δ` is largest exactly at the peaking time. -/
theorem C65_filter (D : Dipole ℝ) (hN : 1 ≤ D.order) (hp : 0 < D.tPeak) :
    (∀ t, t ≠ 0 → HasDerivAt (filteredTheta realFns D) (filteredDelta realFns D t) t ∧ HasDerivAt (filteredDelta realFns D) (filteredDeltaPrime realFns D t) t) ∧
    (∀ t, t ≤ 0 → filteredTheta realFns D t = 0) ∧ Monotone (filteredTheta realFns D) ∧ Tendsto (filteredTheta realFns D) atTop (𝓝 1) ∧
    (∀ t, 0 ≤ filteredDelta realFns D t) ∧ (∀ t, t ≠ D.tPeak → filteredDelta realFns D t < filteredDelta realFns D D.tPeak) := by
  have hN' : (0 : ℝ) < D.order := by exact_mod_cast hN
  have hneg : ∀ t, t ≤ 0 → filteredTheta realFns D t = 0 := fun t ht => by unfold filteredTheta; rw [if_pos ht]
  have hd0 : ∀ t, t ≤ 0 → filteredDelta realFns D t = 0 := fun t ht => by unfold filteredDelta; rw [if_pos ht]
  have hdpos : ∀ t, 0 < t → 0 < filteredDelta realFns D t := fun t ht => by
    rw [delta_eq hN ht]
    have := fact_pos (D.order - 1)
    have : 0 < D.order * t / D.tPeak := by positivity
    positivity
  have hd : ∀ t, 0 ≤ filteredDelta realFns D t := fun t => by
    rcases le_or_gt t 0 with h | h
    · rw [hd0 t h]
    · exact (hdpos t h).le
  have hmono : MonotoneOn (filteredTheta realFns D) (Set.Ioi 0) := by
    refine monotoneOn_of_deriv_nonneg (convex_Ioi 0) (fun t ht => (theta_deriv hN hp ht).continuousAt.continuousWithinAt) (fun t ht => ?_) (fun t ht => ?_)
    · rw [interior_Ioi] at ht
      exact (theta_deriv hN hp ht).differentiableAt.differentiableWithinAt
    · rw [interior_Ioi] at ht
      rw [(theta_deriv hN hp ht).deriv]
      exact hd t
  have hnn : ∀ t, 0 < t → 0 ≤ filteredTheta realFns D t := fun t ht => by
    rw [theta_eq hN hp ht]
    have hx : 0 < D.order * t / D.tPeak := by positivity
    have h1 := ePart_le hx (D.order + 1)
    have h2 := mul_le_mul_of_nonneg_left h1 (Real.exp_pos (-(D.order * t / D.tPeak))).le
    rw [← Real.exp_add] at h2
    simp at h2
    linarith
  refine ⟨fun t ht => ⟨(filters_deriv hN hp ht).1, (filters_deriv hN hp ht).2.1⟩, hneg, fun s t hst => ?_, theta_tendsto hN hp, hd, fun t ht => ?_⟩
  · rcases le_or_gt t 0 with h | h
    · rw [hneg t h, hneg s (by linarith)]
    · rcases le_or_gt s 0 with h' | h'
      · rw [hneg s h']; exact hnn t h
      · exact hmono h' h hst
  · rcases le_or_gt t 0 with h0 | h0
    · rw [hd0 t h0]; exact hdpos _ hp
    · have hcont : ∀ {a b : ℝ}, 0 < a → ContinuousOn (filteredDelta realFns D) (Set.Icc a b) := fun ha x hx =>
        (delta_deriv hN hp (lt_of_lt_of_le ha hx.1)).continuousAt.continuousWithinAt
      rcases lt_or_gt_of_ne ht with h | h
      · refine (strictMonoOn_of_deriv_pos (convex_Icc t D.tPeak) (hcont h0) fun x hx => ?_) ⟨le_refl _, h.le⟩ ⟨h.le, le_refl _⟩ h
        rw [interior_Icc] at hx
        have hx0 : 0 < x := lt_trans h0 hx.1
        rw [(delta_deriv hN hp hx0).deriv]
        unfold filteredDeltaPrime
        rw [if_neg (not_le.2 hx0)]
        have := hdpos x hx0
        have : 0 < D.tPeak - x := by linarith [hx.2]
        positivity
      · refine (strictAntiOn_of_deriv_neg (convex_Icc D.tPeak t) (hcont hp) fun x hx => ?_) ⟨le_refl _, h.le⟩ ⟨h.le, le_refl _⟩ h
        rw [interior_Icc] at hx
        have hx0 : 0 < x := lt_trans hp hx.1
        rw [(delta_deriv hN hp hx0).deriv]
        unfold filteredDeltaPrime
        rw [if_neg (not_le.2 hx0)]
        have h1 := hdpos x hx0
        have h2 : D.tPeak - x < 0 := by linarith [hx.1]
        exact div_neg_of_neg_of_pos (mul_neg_of_neg_of_pos (mul_neg_of_pos_of_neg h1 h2) hN') (by positivity)

/-- The two parts of the field as functions of the distance. -/
noncomputable def gPart (D : Dipole ℝ) (t R : ℝ) : ℝ := filteredTheta realFns D (t - R * D.ior) + R * D.ior * filteredDelta realFns D (t - R * D.ior)
noncomputable def hPart (D : Dipole ℝ) (t R : ℝ) : ℝ := gPart D t R + (R * D.ior) ^ 2 * filteredDeltaPrime realFns D (t - R * D.ior)

theorem parts_deriv (hN : 1 ≤ D.order) (hp : 0 < D.tPeak) {t R : ℝ} (hR : 0 < R) (ht : t ≠ R * D.ior) :
    HasDerivAt (gPart D t) (-((hPart D t R - gPart D t R) / R)) R ∧ DifferentiableAt ℝ (hPart D t) R := by
  obtain ⟨d1, d2, d3⟩ := filters_deriv (D := D) hN hp (t := t - R * D.ior) (sub_ne_zero.2 ht)
  have hx : HasDerivAt (fun s : ℝ => t - s * D.ior) (-D.ior) R := by
    have := ((hasDerivAt_id R).mul_const D.ior).const_sub t
    simpa using this
  have hy : HasDerivAt (fun s : ℝ => s * D.ior) D.ior R := by
    have := (hasDerivAt_id R).mul_const D.ior
    simpa using this
  have g := (d1.comp R hx).add (hy.mul (d2.comp R hx))
  have g' : HasDerivAt (gPart D t) (-((hPart D t R - gPart D t R) / R)) R := by
    refine HasDerivAt.congr_deriv (f := gPart D t) g ?_
    unfold hPart
    simp only [Function.comp]
    field_simp
    ring
  have d4 : DifferentiableAt ℝ (fun s => filteredDeltaPrime realFns D (t - s * D.ior)) R := DifferentiableAt.comp R (f := fun s => t - s * D.ior) d3 hx.differentiableAt
  exact ⟨g', g'.differentiableAt.add ((hy.differentiableAt.pow 2).mul d4)⟩

theorem sqrt_deriv_left {r z : ℝ} (h : 0 < r * r + z * z) : HasDerivAt (fun s => Real.sqrt (s * s + z * z)) (r / Real.sqrt (r * r + z * z)) r := by
  have h1 : HasDerivAt (fun s : ℝ => s * s + z * z) (2 * r) r := by
    have := ((hasDerivAt_id r).mul (hasDerivAt_id r)).add_const (z * z)
    refine HasDerivAt.congr_deriv this ?_
    simp; ring
  refine (h1.sqrt h.ne').congr_deriv ?_
  have := (Real.sqrt_pos.2 h).ne'
  field_simp

theorem sqrt_deriv_right {r z : ℝ} (h : 0 < r * r + z * z) : HasDerivAt (fun s => Real.sqrt (r * r + s * s)) (z / Real.sqrt (r * r + z * z)) z := by
  have := sqrt_deriv_left (r := z) (z := r) (by linarith)
  have e : (fun s => Real.sqrt (s * s + r * r)) = fun s => Real.sqrt (r * r + s * s) := by funext s; rw [add_comm]
  rw [e, add_comm (z * z)] at this
  exact this

/-- A stored number, as a real number (NaN as 0; only used where it is not NaN). -/
noncomputable def comp (D : Dipole ℝ) (k : Nat) (t r z : ℝ) : ℝ := ((fieldAt realFns D r z t).getD k none).getD 0

theorem comp_eq (hn : D.ior ≠ 0) {t r z : ℝ} (hr : 0 < r) (hmin : D.rMin ≤ Real.sqrt (r * r + z * z)) :
    comp D 0 t r z = -(1 / (4 * Real.pi * D.ior ^ 2)) * (r * z * (2 * gPart D t (Real.sqrt (r * r + z * z)) + hPart D t (Real.sqrt (r * r + z * z)))) / Real.sqrt (r * r + z * z) ^ 5 ∧
    comp D 1 t r z = -(1 / (4 * Real.pi * D.ior ^ 2)) * (2 * z ^ 2 * gPart D t (Real.sqrt (r * r + z * z)) - r ^ 2 * hPart D t (Real.sqrt (r * r + z * z))) / Real.sqrt (r * r + z * z) ^ 5 := by
  have h0 : 0 < r * r + z * z := by nlinarith [mul_self_nonneg z]
  have h := field_formula (F := realFns) (D := D) hn Real.pi_ne_zero t r z _ rfl hmin (Real.sqrt_pos.2 h0).ne' _ _ rfl rfl
  unfold comp
  rw [h, abs_of_pos hr]
  exact ⟨rfl, rfl⟩

/-- **C65.** Gauss's law: off the axis, outside of the smallest radius and at any time except that of the wave front, the field has no divergence:
    `(1/r) ∂(r E_r)/∂r + ∂E_z/∂z = 0`. -/
theorem C65_gauss (D : Dipole ℝ) (hn : D.ior ≠ 0) (hN : 1 ≤ D.order) (hp : 0 < D.tPeak) (t r z : ℝ) (hr : 0 < r) (hmin : D.rMin < Real.sqrt (r * r + z * z)) (ht : t ≠ Real.sqrt (r * r + z * z) * D.ior) :
    ∃ a b, HasDerivAt (fun s => s * comp D 0 t s z) a r ∧ HasDerivAt (fun s => comp D 1 t r s) b z ∧ a / r + b = 0 := by
  have h0 : 0 < r * r + z * z := by nlinarith [mul_self_nonneg z]
  have hR : 0 < Real.sqrt (r * r + z * z) := Real.sqrt_pos.2 h0
  have hsq : Real.sqrt (r * r + z * z) ^ 2 = r * r + z * z := Real.sq_sqrt h0.le
  obtain ⟨dg, dh⟩ := parts_deriv (D := D) hN hp hR ht
  have dh := dh.hasDerivAt
  have s1 := sqrt_deriv_left h0
  have s2 := sqrt_deriv_right h0
  have hev1 : (fun s => s * comp D 0 t s z) =ᶠ[𝓝 r] fun s => s * (-(1 / (4 * Real.pi * D.ior ^ 2)) * (s * z * (2 * gPart D t (Real.sqrt (s * s + z * z)) + hPart D t (Real.sqrt (s * s + z * z)))) / Real.sqrt (s * s + z * z) ^ 5) := by
    filter_upwards [lt_mem_nhds hr, s1.continuousAt.eventually_const_lt hmin] with s a1 a2
    rw [(comp_eq hn a1 a2.le).1]
  have hev2 : (fun s => comp D 1 t r s) =ᶠ[𝓝 z] fun s => -(1 / (4 * Real.pi * D.ior ^ 2)) * (2 * s ^ 2 * gPart D t (Real.sqrt (r * r + s * s)) - r ^ 2 * hPart D t (Real.sqrt (r * r + s * s))) / Real.sqrt (r * r + s * s) ^ 5 := by
    filter_upwards [s2.continuousAt.eventually_const_lt hmin] with s a2
    rw [(comp_eq hn hr a2.le).2]
  have g1 := dg.comp r s1
  have g2 := dg.comp z s2
  have k1 := dh.comp r s1
  have k2 := dh.comp z s2
  have hR5 : Real.sqrt (r * r + z * z) ^ 5 ≠ 0 := pow_ne_zero _ hR.ne'
  have F1 := (hasDerivAt_id r).mul (((((hasDerivAt_id r).mul_const z).mul ((g1.const_mul 2).add k1)).const_mul (-(1 / (4 * Real.pi * D.ior ^ 2)))).div (s1.pow 5) hR5)
  have F2 := (((((hasDerivAt_pow 2 z).const_mul 2).mul g2).sub (k2.const_mul (r ^ 2))).const_mul (-(1 / (4 * Real.pi * D.ior ^ 2)))).div (s2.pow 5) hR5
  refine ⟨_, _, HasDerivAt.congr_of_eventuallyEq F1 hev1, HasDerivAt.congr_of_eventuallyEq F2 hev2, ?_⟩
  simp only [Function.comp, id, Pi.mul_apply, Pi.add_apply, Pi.div_apply, Pi.pow_apply, Pi.sub_apply]
  clear F1 F2 hev1 hev2 g1 g2 k1 k2 s1 s2
  generalize hPart D t (Real.sqrt (r * r + z * z)) = h at *
  generalize gPart D t (Real.sqrt (r * r + z * z)) = g at *
  generalize deriv (hPart D t) (Real.sqrt (r * r + z * z)) = h' at *
  generalize 1 / (4 * Real.pi * D.ior ^ 2) = c at *
  generalize Real.sqrt (r * r + z * z) = R at *
  have hr0 := hr.ne'
  have hR0 := hR.ne'
  simp
  field_simp
  linear_combination (-(c * z * (8 * g + 2 * h))) * hsq

/-- **C65.** Long after the excitation the field tends to that of a static dipole (of moment -1 along the axis, in a medium of permittivity `n²`). -/
theorem C65_static (D : Dipole ℝ) (hn : D.ior ≠ 0) (hN : 1 ≤ D.order) (hp : 0 < D.tPeak) (r z : ℝ) (hr : 0 < r) (hmin : D.rMin ≤ Real.sqrt (r * r + z * z)) :
    Tendsto (fun t => comp D 0 t r z) atTop (𝓝 (-(3 * r * z) / (4 * Real.pi * D.ior ^ 2 * Real.sqrt (r * r + z * z) ^ 5))) ∧
    Tendsto (fun t => comp D 1 t r z) atTop (𝓝 (-(2 * z ^ 2 - r ^ 2) / (4 * Real.pi * D.ior ^ 2 * Real.sqrt (r * r + z * z) ^ 5))) := by
  have h0 : 0 < r * r + z * z := by nlinarith [mul_self_nonneg z]
  have hR : 0 < Real.sqrt (r * r + z * z) := Real.sqrt_pos.2 h0
  generalize hRe : Real.sqrt (r * r + z * z) = R at *
  have hx : Tendsto (fun t : ℝ => t - R * D.ior) atTop atTop := tendsto_atTop_add_const_right atTop _ tendsto_id
  have hg : Tendsto (fun t => gPart D t R) atTop (𝓝 (1 + R * D.ior * 0)) := ((theta_tendsto hN hp).comp hx).add (((delta_tendsto hN hp).comp hx).const_mul _)
  have hh : Tendsto (fun t => hPart D t R) atTop (𝓝 ((1 + R * D.ior * 0) + (R * D.ior) ^ 2 * 0)) := hg.add (((deltaPrime_tendsto hN hp).comp hx).const_mul _)
  have h4 : (4 * Real.pi * D.ior ^ 2) ≠ 0 := mul_ne_zero (mul_ne_zero (by norm_num) Real.pi_ne_zero) (pow_ne_zero _ hn)
  constructor
  · have := ((((hg.const_mul 2).add hh).const_mul (r * z)).const_mul (-(1 / (4 * Real.pi * D.ior ^ 2)))).div_const (R ^ 5)
    refine (this.congr fun t => ?_).trans (le_of_eq ?_)
    · rw [(comp_eq hn hr (by rw [hRe]; exact hmin)).1, hRe]
    · congr 1; field_simp; ring
  · have := (((hg.const_mul (2 * z ^ 2)).sub (hh.const_mul (r ^ 2))).const_mul (-(1 / (4 * Real.pi * D.ior ^ 2)))).div_const (R ^ 5)
    refine (this.congr fun t => ?_).trans (le_of_eq ?_)
    · rw [(comp_eq hn hr (by rw [hRe]; exact hmin)).2, hRe]
    · congr 1; field_simp; ring

/-! ### A dipole in ice, with a filter of order 4 -/

namespace Ex65

noncomputable def ice : Dipole ℝ := ⟨178 / 100, 5, 4, 1 / 10⟩

/-- All of C65 applies, at the point `r = 3`, `z = 4` (distance 5, travel time 8.9): before and after the wave arrives. -/
theorem sqrt_25 : Real.sqrt (3 * 3 + 4 * 4) = 5 := by
  rw [show (3 : ℝ) * 3 + 4 * 4 = 5 ^ 2 by norm_num]
  exact Real.sqrt_sq (by norm_num)

example : fieldAt realFns ice 3 4 8 = [some 0, some 0] :=
  C65_causal realFns ice (by norm_num [ice]) Real.pi_ne_zero 8 3 4 5 sqrt_25.symm (by norm_num [ice]) (by norm_num) (by norm_num [ice])

example : ∃ a b, HasDerivAt (fun s => s * comp ice 0 10 s 4) a 3 ∧ HasDerivAt (fun s => comp ice 1 10 3 s) b 4 ∧ a / 3 + b = 0 :=
  C65_gauss ice (by norm_num [ice]) (by decide) (by norm_num [ice]) 10 3 4 (by norm_num) (by rw [sqrt_25]; norm_num [ice]) (by rw [sqrt_25]; norm_num [ice])

example : Tendsto (fun t => comp ice 0 t 3 4) atTop (𝓝 (-(3 * 3 * 4) / (4 * Real.pi * ice.ior ^ 2 * Real.sqrt (3 * 3 + 4 * 4) ^ 5))) :=
  (C65_static ice (by norm_num [ice]) (by decide) (by norm_num [ice]) 3 4 (by norm_num) (by rw [sqrt_25]; norm_num [ice])).1

end Ex65

end real

end Verif.Analytic
