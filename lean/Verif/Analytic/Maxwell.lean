import Verif.Analytic.Props65
/-
C76: the field that `ElectricDipole` stores (AnalyticGreensFunctionCalculator.hxx 10-96) is an electromagnetic field: with a magnetic field of the same retardation, Maxwell's equations hold in the medium (units with c = 1, permittivity n²,
permeability 1), at all points off the axis outside of the smallest radius, at all times before and after the wave front. Together with C65 (Gauss's law) these are all four of Maxwell's equations without sources.
-/
namespace Verif.Analytic
open Filter Topology

variable {D : Dipole ℝ}

/-- The magnetic field of the dipole (in the direction of rotation around the axis). -/
noncomputable def bField (D : Dipole ℝ) (t r z : ℝ) : ℝ :=
  -(r / (4 * Real.pi * Real.sqrt (r * r + z * z) ^ 3)) * (filteredDelta realFns D (t - Real.sqrt (r * r + z * z) * D.ior) +
    Real.sqrt (r * r + z * z) * D.ior * filteredDeltaPrime realFns D (t - Real.sqrt (r * r + z * z) * D.ior))

/-- What depends on the distance and the time. -/
noncomputable def bPart (D : Dipole ℝ) (t R : ℝ) : ℝ := filteredDelta realFns D (t - R * D.ior) + R * D.ior * filteredDeltaPrime realFns D (t - R * D.ior)

/-- Derivatives with respect to the distance and to time; `w` is the derivative of `δ'`. -/
theorem parts_derivs (hN : 1 ≤ D.order) (hp : 0 < D.tPeak) {t R : ℝ} (ht : t ≠ R * D.ior) :
    ∃ w, (HasDerivAt (gPart D t) (-(R * D.ior ^ 2 * filteredDeltaPrime realFns D (t - R * D.ior))) R ∧
      HasDerivAt (hPart D t) (R * D.ior ^ 2 * filteredDeltaPrime realFns D (t - R * D.ior) - R ^ 2 * D.ior ^ 3 * w) R ∧
      HasDerivAt (bPart D t) (-(R * D.ior ^ 2 * w)) R) ∧
      HasDerivAt (fun s => gPart D s R) (bPart D t R) t ∧
      HasDerivAt (fun s => hPart D s R) (bPart D t R + (R * D.ior) ^ 2 * w) t ∧
      HasDerivAt (fun s => bPart D s R) (filteredDeltaPrime realFns D (t - R * D.ior) + R * D.ior * w) t := by
  obtain ⟨d1, d2, d3⟩ := filters_deriv (D := D) hN hp (t := t - R * D.ior) (sub_ne_zero.2 ht)
  have d3 := d3.hasDerivAt
  refine ⟨deriv (filteredDeltaPrime realFns D) (t - R * D.ior), ⟨?_, ?_, ?_⟩, ?_, ?_, ?_⟩
  all_goals
    have hx : HasDerivAt (fun s : ℝ => t - s * D.ior) (-D.ior) R := by
      have := ((hasDerivAt_id R).mul_const D.ior).const_sub t
      simpa using this
    have hy : HasDerivAt (fun s : ℝ => s * D.ior) D.ior R := by
      have := (hasDerivAt_id R).mul_const D.ior
      simpa using this
    have hu : HasDerivAt (fun s : ℝ => s - R * D.ior) 1 t := (hasDerivAt_id t).sub_const _
  · have g := (d1.comp R hx).add (hy.mul (d2.comp R hx))
    refine HasDerivAt.congr_deriv (f := gPart D t) g ?_
    simp only [Function.comp]; ring
  · have g := ((d1.comp R hx).add (hy.mul (d2.comp R hx))).add ((hy.pow 2).mul (d3.comp R hx))
    refine HasDerivAt.congr_deriv (f := hPart D t) g ?_
    simp only [Function.comp, Pi.pow_apply]; push_cast; ring
  · have g := (d2.comp R hx).add (hy.mul (d3.comp R hx))
    refine HasDerivAt.congr_deriv (f := bPart D t) g ?_
    simp only [Function.comp]; ring
  · have g := (d1.comp t hu).add ((d2.comp t hu).const_mul (R * D.ior))
    refine HasDerivAt.congr_deriv (f := fun s => gPart D s R) g ?_
    unfold bPart; ring
  · have g := ((d1.comp t hu).add ((d2.comp t hu).const_mul (R * D.ior))).add ((d3.comp t hu).const_mul ((R * D.ior) ^ 2))
    refine HasDerivAt.congr_deriv (f := fun s => hPart D s R) g ?_
    unfold bPart; ring
  · have g := (d2.comp t hu).add ((d3.comp t hu).const_mul (R * D.ior))
    refine HasDerivAt.congr_deriv (f := fun s => bPart D s R) g ?_
    ring

theorem bField_eq (D : Dipole ℝ) (t r z : ℝ) : bField D t r z = -(1 / (4 * Real.pi)) * (r * bPart D t (Real.sqrt (r * r + z * z))) / Real.sqrt (r * r + z * z) ^ 3 := by
  unfold bField bPart
  have := Real.pi_ne_zero
  by_cases h : Real.sqrt (r * r + z * z) = 0
  · rw [h]; simp
  · field_simp

/-- **C76**: Faraday's law and Ampère's law. There is a magnetic field, zero until the wave arrives, such that at all times but that of the wave front, off the axis and outside of the smallest radius,
    `∂E_r/∂z - ∂E_z/∂r = -∂B/∂t`, `-∂B/∂z = n² ∂E_r/∂t` and `(1/r) ∂(r B)/∂r = n² ∂E_z/∂t`. -/
theorem C76_maxwell (D : Dipole ℝ) (hn : D.ior ≠ 0) (hN : 1 ≤ D.order) (hp : 0 < D.tPeak) :
    ∃ B : ℝ → ℝ → ℝ → ℝ, (∀ t r z, t ≤ Real.sqrt (r * r + z * z) * D.ior → B t r z = 0) ∧
      ∀ t r z, 0 < r → D.rMin < Real.sqrt (r * r + z * z) → t ≠ Real.sqrt (r * r + z * z) * D.ior →
        (∃ a b c, HasDerivAt (fun s => comp D 0 t r s) a z ∧ HasDerivAt (fun s => comp D 1 t s z) b r ∧ HasDerivAt (fun s => B s r z) c t ∧ a - b = -c) ∧
        (∃ a b, HasDerivAt (fun s => B t r s) a z ∧ HasDerivAt (fun s => comp D 0 s r z) b t ∧ -a = D.ior ^ 2 * b) ∧
        ∃ a b, HasDerivAt (fun s => s * B t s z) a r ∧ HasDerivAt (fun s => comp D 1 s r z) b t ∧ a / r = D.ior ^ 2 * b := by
  refine ⟨bField D, fun t r z ht => ?_, fun t r z hr hmin ht => ?_⟩
  · have e1 : filteredDelta realFns D (t - Real.sqrt (r * r + z * z) * D.ior) = 0 := by unfold filteredDelta; rw [if_pos (by linarith)]
    have e2 : filteredDeltaPrime realFns D (t - Real.sqrt (r * r + z * z) * D.ior) = 0 := by unfold filteredDeltaPrime; rw [if_pos (by linarith)]
    unfold bField
    rw [e1, e2]; simp
  have h0 : 0 < r * r + z * z := by nlinarith [mul_self_nonneg z]
  have hR : 0 < Real.sqrt (r * r + z * z) := Real.sqrt_pos.2 h0
  have hsq : Real.sqrt (r * r + z * z) ^ 2 = r * r + z * z := Real.sq_sqrt h0.le
  obtain ⟨w, ⟨dg, dh, db⟩, tg, th, tb⟩ := parts_derivs (D := D) hN hp ht
  have s1 := sqrt_deriv_left h0
  have s2 := sqrt_deriv_right h0
  have hR5 : Real.sqrt (r * r + z * z) ^ 5 ≠ 0 := pow_ne_zero _ hR.ne'
  have hR3 : Real.sqrt (r * r + z * z) ^ 3 ≠ 0 := pow_ne_zero _ hR.ne'
  have hpi := Real.pi_ne_zero
  -- the components as functions of each variable
  have ev0z : (fun s => comp D 0 t r s) =ᶠ[𝓝 z] fun s => -(1 / (4 * Real.pi * D.ior ^ 2)) * (r * s * (2 * gPart D t (Real.sqrt (r * r + s * s)) + hPart D t (Real.sqrt (r * r + s * s)))) / Real.sqrt (r * r + s * s) ^ 5 := by
    filter_upwards [s2.continuousAt.eventually_const_lt hmin] with s a2
    rw [(comp_eq hn hr a2.le).1]
  have ev1r : (fun s => comp D 1 t s z) =ᶠ[𝓝 r] fun s => -(1 / (4 * Real.pi * D.ior ^ 2)) * (2 * z ^ 2 * gPart D t (Real.sqrt (s * s + z * z)) - s ^ 2 * hPart D t (Real.sqrt (s * s + z * z))) / Real.sqrt (s * s + z * z) ^ 5 := by
    filter_upwards [lt_mem_nhds hr, s1.continuousAt.eventually_const_lt hmin] with s a1 a2
    rw [(comp_eq hn a1 a2.le).2]
  have e0t : (fun s => comp D 0 s r z) = fun s => -(1 / (4 * Real.pi * D.ior ^ 2)) * (r * z * (2 * gPart D s (Real.sqrt (r * r + z * z)) + hPart D s (Real.sqrt (r * r + z * z)))) / Real.sqrt (r * r + z * z) ^ 5 :=
    funext fun s => (comp_eq hn hr hmin.le).1
  have e1t : (fun s => comp D 1 s r z) = fun s => -(1 / (4 * Real.pi * D.ior ^ 2)) * (2 * z ^ 2 * gPart D s (Real.sqrt (r * r + z * z)) - r ^ 2 * hPart D s (Real.sqrt (r * r + z * z))) / Real.sqrt (r * r + z * z) ^ 5 :=
    funext fun s => (comp_eq hn hr hmin.le).2
  have ebt : (fun s => bField D s r z) = fun s => -(1 / (4 * Real.pi)) * (r * bPart D s (Real.sqrt (r * r + z * z))) / Real.sqrt (r * r + z * z) ^ 3 := funext fun s => bField_eq D s r z
  have ebz : (fun s => bField D t r s) = fun s => -(1 / (4 * Real.pi)) * (r * bPart D t (Real.sqrt (r * r + s * s))) / Real.sqrt (r * r + s * s) ^ 3 := funext fun s => bField_eq D t r s
  have ebr : (fun s => s * bField D t s z) = fun s => s * (-(1 / (4 * Real.pi)) * (s * bPart D t (Real.sqrt (s * s + z * z))) / Real.sqrt (s * s + z * z) ^ 3) := funext fun s => by rw [bField_eq D t s z]
  -- derivatives of the parts
  have g1 := dg.comp r s1
  have g2 := dg.comp z s2
  have k1 := dh.comp r s1
  have k2 := dh.comp z s2
  have b1 := db.comp r s1
  have b2 := db.comp z s2
  have F0z := (((((hasDerivAt_id z).const_mul r).mul ((g2.const_mul 2).add k2)).const_mul (-(1 / (4 * Real.pi * D.ior ^ 2)))).div (s2.pow 5) hR5)
  have F1r := ((((g1.const_mul (2 * z ^ 2)).sub ((hasDerivAt_pow 2 r).mul k1)).const_mul (-(1 / (4 * Real.pi * D.ior ^ 2)))).div (s1.pow 5) hR5)
  have Bt := ((tb.const_mul r).const_mul (-(1 / (4 * Real.pi)))).div_const (Real.sqrt (r * r + z * z) ^ 3)
  have Bz := (((b2.const_mul r).const_mul (-(1 / (4 * Real.pi)))).div (s2.pow 3) hR3)
  have Br := (hasDerivAt_id r).mul ((((hasDerivAt_id r).mul b1).const_mul (-(1 / (4 * Real.pi)))).div (s1.pow 3) hR3)
  have F0t := ((((tg.const_mul 2).add th).const_mul (r * z)).const_mul (-(1 / (4 * Real.pi * D.ior ^ 2)))).div_const (Real.sqrt (r * r + z * z) ^ 5)
  have F1t := (((tg.const_mul (2 * z ^ 2)).sub (th.const_mul (r ^ 2))).const_mul (-(1 / (4 * Real.pi * D.ior ^ 2)))).div_const (Real.sqrt (r * r + z * z) ^ 5)
  refine ⟨⟨_, _, _, HasDerivAt.congr_of_eventuallyEq F0z ev0z, HasDerivAt.congr_of_eventuallyEq F1r ev1r, HasDerivAt.congr_of_eventuallyEq Bt (.of_eq ebt), ?_⟩,
    ⟨_, _, HasDerivAt.congr_of_eventuallyEq Bz (.of_eq ebz), HasDerivAt.congr_of_eventuallyEq F0t (.of_eq e0t), ?_⟩,
    ⟨_, _, HasDerivAt.congr_of_eventuallyEq Br (.of_eq ebr), HasDerivAt.congr_of_eventuallyEq F1t (.of_eq e1t), ?_⟩⟩
  all_goals
    simp only [Function.comp, id, Pi.mul_apply, Pi.add_apply, Pi.div_apply, Pi.pow_apply, Pi.sub_apply]
    try simp only [hPart, gPart, bPart]
    clear F0z F1r Bt Bz Br F0t F1t ev0z ev1r e0t e1t ebt ebz ebr g1 g2 k1 k2 b1 b2 dg dh db tg th tb s1 s2
    generalize filteredTheta realFns D (t - Real.sqrt (r * r + z * z) * D.ior) = th at *
    generalize filteredDelta realFns D (t - Real.sqrt (r * r + z * z) * D.ior) = d at *
    generalize filteredDeltaPrime realFns D (t - Real.sqrt (r * r + z * z) * D.ior) = q at *
    generalize Real.sqrt (r * r + z * z) = R at *
    generalize D.ior = n at *
    generalize Real.pi = π at *
    have hr0 := hr.ne'
    have hR0 := hR.ne'
    have hz : z ^ 2 = R ^ 2 - r ^ 2 := by linarith
    try push_cast
    try simp only [mul_one, one_mul]
    field_simp
  · linear_combination (5 * R * n * d + 4 * R ^ 2 * n ^ 2 * q + R ^ 3 * n ^ 3 * w + 5 * th) * hz
  · ring
  · linear_combination (2 * R * n * q + 2 * d) * hz

/-- The hypotheses of C76 can be met: the dipole in ice of C65, at the point `r = 3`, `z = 4`, after the wave has arrived. -/
example : ∃ B : ℝ → ℝ → ℝ → ℝ, B 8 3 4 = 0 ∧ ∃ a b c, HasDerivAt (fun s => comp Ex65.ice 0 20 3 s) a 4 ∧ HasDerivAt (fun s => comp Ex65.ice 1 20 s 4) b 3 ∧ HasDerivAt (fun s => B s 3 4) c 20 ∧ a - b = -c := by
  obtain ⟨B, h1, h2⟩ := C76_maxwell Ex65.ice (by norm_num [Ex65.ice]) (by norm_num [Ex65.ice]) (by norm_num [Ex65.ice])
  refine ⟨B, h1 8 3 4 ?_, (h2 20 3 4 (by norm_num) ?_ ?_).1⟩
  · rw [Ex65.sqrt_25]; norm_num [Ex65.ice]
  · rw [Ex65.sqrt_25]; norm_num [Ex65.ice]
  · rw [Ex65.sqrt_25]; norm_num [Ex65.ice]

end Verif.Analytic
