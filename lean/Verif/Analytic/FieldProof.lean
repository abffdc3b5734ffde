import Verif.Analytic.Field
import Verif.Analytic.Props64
/-
Proofs about the field of the electric dipole.
-/
namespace Verif.Analytic
open Verif Filter Topology

section generic
variable {K : Type} [Field K] [LinearOrder K] [IsStrictOrderedRing K] {F : Fns K} {D : Dipole K}

theorem quo_some {a b : K} (h : b ≠ 0) : quo a b = some (a / b) := by unfold quo; rw [if_neg h]

/-- Distance from the origin. -/
def dist (F : Fns K) (r z : K) : K := F.sqrt (r * r + z * z)

theorem field_formula (hn : D.ior ≠ 0) (hp : F.pi ≠ 0) (t r z R : K) (hR : R = dist F r z) (hmin : D.rMin ≤ R) (h0 : R ≠ 0) (g h : K)
    (hg : g = filteredTheta F D (t - R * D.ior) + R * D.ior * filteredDelta F D (t - R * D.ior))
    (hh : h = g + (R * D.ior) ^ 2 * filteredDeltaPrime F D (t - R * D.ior)) :
    fieldAt F D r z t = [some (-(1 / (4 * F.pi * D.ior ^ 2)) * (|r| * z * (2 * g + h)) / R ^ 5), some (-(1 / (4 * F.pi * D.ior ^ 2)) * (2 * z ^ 2 * g - r ^ 2 * h) / R ^ 5)] := by
  have hab : |r| * |r| = r * r := abs_mul_abs_self r
  have hR' : F.sqrt (r * r + z * z) = R := hR.symm
  have hlt : ¬ R < D.rMin := not_lt.2 hmin
  have h4 : (4 : K) ≠ 0 := by norm_num
  have heps : (1 : K) * D.ior ^ 2 * 4 * F.pi ≠ 0 := by
    rw [one_mul]
    exact mul_ne_zero (mul_ne_zero (pow_ne_zero _ hn) h4) hp
  unfold fieldAt eRxy eZ
  simp only [abs_abs]
  have e1 : eR F D t |r| z = some (-2 / (D.ior ^ 2 * 4 * F.pi) * (z / R / R ^ 3) * g) := by
    unfold eR
    simp only [abs_abs, hab, hR', if_neg hlt, quo_some h0, Option.bind_some, quo_some (pow_ne_zero 3 h0)]
    simp only [qw, dsLen, cLight, eps, div_one, quo_some heps, ← hg]
    simp [omul]
  have e2 : eTheta F D t |r| z = some (-1 / (D.ior ^ 2 * 4 * F.pi) * (|r| / R / R ^ 3) * h) := by
    unfold eTheta
    simp only [abs_abs, hab, hR', if_neg hlt, quo_some h0, Option.bind_some, quo_some (pow_ne_zero 3 h0)]
    simp only [qw, dsLen, cLight, eps, div_one, quo_some heps, ← hg, ← hh]
    simp [omul]
  rw [e1, e2]
  simp only [hab, hR', quo_some h0, omul, oadd, osub, Option.bind_some]
  have hr2 : r ^ 2 = |r| * |r| := by rw [hab]; ring
  congr 1
  · congr 1
    field_simp
    ring
  · congr 2
    rw [hr2]
    field_simp
    ring

end generic

/-! ### Real numbers -/

/-- The functions without rounding. -/
noncomputable def realFns : Fns ℝ :=
  ⟨Real.sqrt, Real.exp, fun x => Real.log (Real.Gamma x), fun a z => ∫ t in Set.Ioi z, t ^ (a - 1) * Real.exp (-t), Real.pi⟩

section filter
variable {D : Dipole ℝ}

theorem igamma_eq (N : Nat) (z : ℝ) : realFns.igamma (1 + N) z = upperGamma N z := by
  show (∫ t in Set.Ioi z, t ^ ((1 : ℝ) + N - 1) * Real.exp (-t)) = _
  unfold upperGamma
  congr 1
  funext t
  rw [add_sub_cancel_left, Real.rpow_natCast]

theorem theta_eq (hN : 1 ≤ D.order) (hp : 0 < D.tPeak) {t : ℝ} (ht : 0 < t) :
    filteredTheta realFns D t = 1 - Real.exp (-(D.order * t / D.tPeak)) * ePart (D.order * t / D.tPeak) (D.order + 1) := by
  have hN' : (0 : ℝ) < D.order := by exact_mod_cast hN
  unfold filteredTheta
  rw [if_neg (not_le.2 ht), igamma_eq, upperGamma_eq _ (by positivity)]
  have e : realFns.exp (realFns.lgamma ((D.order : ℝ) + 1)) = D.order.factorial := exp_lgamma _
  rw [e, mul_div_cancel_left₀ _ (fact_pos _).ne']

theorem exp_lgamma_pred (hN : 1 ≤ D.order) : realFns.exp (realFns.lgamma (D.order : ℝ)) = (D.order - 1).factorial := by
  obtain ⟨k, hk⟩ := Nat.exists_eq_add_of_le hN
  rw [hk]
  have : ((1 + k : Nat) : ℝ) = (k : ℝ) + 1 := by push_cast; ring
  rw [this, Nat.add_sub_cancel_left]
  exact exp_lgamma k

theorem delta_eq (hN : 1 ≤ D.order) {t : ℝ} (ht : 0 < t) :
    filteredDelta realFns D t = (D.order * t / D.tPeak) ^ D.order * Real.exp (-(D.order * t / D.tPeak)) / (D.tPeak * (D.order - 1).factorial) := by
  unfold filteredDelta
  rw [if_neg (not_le.2 ht), exp_lgamma_pred hN]
  have e1 : t / D.tPeak * D.order = D.order * t / D.tPeak := by ring
  have e2 : -t / D.tPeak * D.order = -(D.order * t / D.tPeak) := by ring
  rw [e1, e2]
  rfl

theorem theta_deriv (hN : 1 ≤ D.order) (hp : 0 < D.tPeak) {t : ℝ} (ht : 0 < t) : HasDerivAt (filteredTheta realFns D) (filteredDelta realFns D t) t := by
  have hx : HasDerivAt (fun s : ℝ => D.order * s / D.tPeak) (D.order / D.tPeak) t := by
    have := ((hasDerivAt_id t).const_mul (D.order : ℝ)).div_const D.tPeak
    simpa using this
  have h := (HasDerivAt.comp t (gamma_deriv D.order (D.order * t / D.tPeak)) hx).div_const (D.order.factorial : ℝ)
  have h' := h.const_add 1
  have hev : filteredTheta realFns D =ᶠ[𝓝 t] fun s => 1 + ((fun t => -(D.order.factorial * (Real.exp (-t) * ePart t (D.order + 1)))) ∘ fun s : ℝ => D.order * s / D.tPeak) s / D.order.factorial := by
    filter_upwards [lt_mem_nhds ht] with s hs
    rw [theta_eq hN hp hs]
    have := (fact_pos D.order).ne'
    simp only [Function.comp]
    field_simp
    ring
  refine (h'.congr_of_eventuallyEq hev).congr_deriv ?_
  rw [delta_eq hN ht]
  obtain ⟨k, hk⟩ := Nat.exists_eq_add_of_le' hN
  rw [hk, Nat.add_sub_cancel, Nat.factorial_succ]
  have := (fact_pos k).ne'
  have h2 : ((k + 1 : Nat) : ℝ) ≠ 0 := by positivity
  push_cast at h2 ⊢
  field_simp

theorem delta_deriv (hN : 1 ≤ D.order) (hp : 0 < D.tPeak) {t : ℝ} (ht : 0 < t) : HasDerivAt (filteredDelta realFns D) (filteredDeltaPrime realFns D t) t := by
  have hx : HasDerivAt (fun s : ℝ => D.order * s / D.tPeak) (D.order / D.tPeak) t := by
    have := ((hasDerivAt_id t).const_mul (D.order : ℝ)).div_const D.tPeak
    simpa using this
  have h := ((hx.pow D.order).mul hx.neg.exp).div_const (D.tPeak * (D.order - 1).factorial)
  have hev : filteredDelta realFns D =ᶠ[𝓝 t] fun s => (D.order * s / D.tPeak) ^ D.order * Real.exp (-(D.order * s / D.tPeak)) / (D.tPeak * (D.order - 1).factorial) := by
    filter_upwards [lt_mem_nhds ht] with s hs
    exact delta_eq hN hs
  refine (HasDerivAt.congr_of_eventuallyEq h hev).congr_deriv ?_
  unfold filteredDeltaPrime
  rw [if_neg (not_le.2 ht), delta_eq hN ht]
  obtain ⟨k, hk⟩ := Nat.exists_eq_add_of_le' hN
  rw [hk, Nat.add_sub_cancel]
  have := (fact_pos k).ne'
  have h2 : ((k + 1 : Nat) : ℝ) ≠ 0 := by positivity
  simp only [pow_succ]
  push_cast at h2 ⊢
  simp
  field_simp
  ring

theorem deltaPrime_diff (hN : 1 ≤ D.order) (hp : 0 < D.tPeak) {t : ℝ} (ht : 0 < t) : DifferentiableAt ℝ (filteredDeltaPrime realFns D) t := by
  have h1 := (delta_deriv hN hp ht).differentiableAt
  have hev : filteredDeltaPrime realFns D =ᶠ[𝓝 t] fun s => filteredDelta realFns D s * (D.tPeak - s) * D.order / (D.tPeak * s) := by
    filter_upwards [lt_mem_nhds ht] with s hs
    unfold filteredDeltaPrime
    rw [if_neg (not_le.2 hs)]
  refine DifferentiableAt.congr_of_eventuallyEq ?_ hev
  refine DifferentiableAt.div ((h1.mul (by fun_prop)).mul_const _) (by fun_prop) (by positivity)

end filter

end Verif.Analytic
