import Verif.Analytic.FilterSmooth
import Verif.Green.Convolution
import Verif.Analytic.Props67
import Mathlib.Analysis.Calculus.ContDiff.Bounds
/-
C90: the Green's function of the analytic dipole converges to the field of the dipole when the grid is refined.
-/
namespace Verif.Analytic
open Verif Verif.ND Verif.Dist Verif.Tree Verif.Bytes Verif.Ops Verif.Rebuild Verif.Green Verif.NullSup Set

/-! ### Smoothness of the field -/

/-- Points of space and time `(r, z, t)` away from the dipole. -/
def awayU : Set (ℝ × ℝ × ℝ) := {p | p.1 * p.1 + p.2.1 * p.2.1 ≠ 0}

theorem awayU_open : IsOpen awayU := isOpen_ne_fun (by fun_prop) continuous_const

/-- The two components, as functions of the signed distance from the axis. -/
noncomputable def smoothE (D : Dipole ℝ) (c : Nat) (p : ℝ × ℝ × ℝ) : ℝ :=
  let R := Real.sqrt (p.1 * p.1 + p.2.1 * p.2.1)
  let T := R * D.ior
  let s := p.2.2 - T
  if c = 0 then -(p.1 * p.2.1 / R ^ 5) * (3 * (filteredTheta realFns D s + T * filteredDelta realFns D s) + T ^ 2 * filteredDeltaPrime realFns D s) / (4 * Real.pi * D.ior ^ 2)
  else -((2 * p.2.1 ^ 2 - p.1 ^ 2) * (filteredTheta realFns D s + T * filteredDelta realFns D s) - p.1 ^ 2 * T ^ 2 * filteredDeltaPrime realFns D s) / (4 * Real.pi * D.ior ^ 2 * R ^ 5)

theorem smoothE_contDiffOn {D : Dipole ℝ} (hn : D.ior ≠ 0) {d : Nat} (hN : d + 2 ≤ D.order) (hp : 0 < D.tPeak) (c : Nat) : ContDiffOn ℝ d (smoothE D c) awayU := by
  intro p hp0
  have hq : p.1 * p.1 + p.2.1 * p.2.1 ≠ 0 := hp0
  have hR : ContDiffAt ℝ d (fun p : ℝ × ℝ × ℝ => Real.sqrt (p.1 * p.1 + p.2.1 * p.2.1)) p := ContDiffAt.sqrt (by fun_prop) hq
  have hpos : 0 < p.1 * p.1 + p.2.1 * p.2.1 := lt_of_le_of_ne (add_nonneg (mul_self_nonneg _) (mul_self_nonneg _)) (Ne.symm hq)
  have hR0 : Real.sqrt (p.1 * p.1 + p.2.1 * p.2.1) ≠ 0 := (Real.sqrt_pos.2 hpos).ne'
  have h1 := theta_contDiff (D := D) (d := d) (by omega) hp
  have h2 := delta_contDiff (D := D) (d := d) (by omega)
  have h3 := deltaPrime_contDiff (D := D) (d := d) (by omega) hp
  have hs : ContDiffAt ℝ d (fun p : ℝ × ℝ × ℝ => p.2.2 - Real.sqrt (p.1 * p.1 + p.2.1 * p.2.1) * D.ior) p := by fun_prop
  have g1 : ContDiffAt ℝ d (fun p : ℝ × ℝ × ℝ => filteredTheta realFns D (p.2.2 - Real.sqrt (p.1 * p.1 + p.2.1 * p.2.1) * D.ior)) p := h1.contDiffAt.comp p hs
  have g2 : ContDiffAt ℝ d (fun p : ℝ × ℝ × ℝ => filteredDelta realFns D (p.2.2 - Real.sqrt (p.1 * p.1 + p.2.1 * p.2.1) * D.ior)) p := h2.contDiffAt.comp p hs
  have g3 : ContDiffAt ℝ d (fun p : ℝ × ℝ × ℝ => filteredDeltaPrime realFns D (p.2.2 - Real.sqrt (p.1 * p.1 + p.2.1 * p.2.1) * D.ior)) p := h3.contDiffAt.comp p hs
  have hpi : 4 * Real.pi * D.ior ^ 2 ≠ 0 := mul_ne_zero (mul_ne_zero (by norm_num) Real.pi_ne_zero) (pow_ne_zero _ hn)
  refine ContDiffAt.contDiffWithinAt ?_
  unfold smoothE
  by_cases hc : c = 0
  · simp only [if_pos hc]
    refine ContDiffAt.div (ContDiffAt.mul (ContDiffAt.neg (ContDiffAt.div (by fun_prop) (hR.pow 5) (pow_ne_zero _ hR0))) ?_) contDiffAt_const hpi
    fun_prop
  · simp only [if_neg hc]
    refine ContDiffAt.div ?_ (by fun_prop) (mul_ne_zero hpi (pow_ne_zero _ hR0))
    fun_prop

/-- A smooth function has bounded derivatives along every direction of the axes, uniformly in a box. -/
theorem slice_bound {f : ℝ × ℝ × ℝ → ℝ} {U : Set (ℝ × ℝ × ℝ)} (hU : IsOpen U) {d : Nat} (hf : ContDiffOn ℝ d f U) {K : Set (ℝ × ℝ × ℝ)} (hK : IsCompact K) (hKU : K ⊆ U) :
    ∃ M, 0 ≤ M ∧ ∀ (L : ℝ →L[ℝ] ℝ × ℝ × ℝ), ‖L‖ ≤ 1 → ∀ (q : ℝ × ℝ × ℝ) (a b : ℝ), a < b → (∀ x ∈ Icc a b, L x + q ∈ K) → BoundedDeriv d (fun x => f (L x + q)) a b M := by
  have hc : ContinuousOn (fun p => ‖iteratedFDerivWithin ℝ d f U p‖) K := ((hf.continuousOn_iteratedFDerivWithin le_rfl hU.uniqueDiffOn).norm).mono hKU
  obtain ⟨M, hM⟩ := (hK.image_of_continuousOn hc).bddAbove
  refine ⟨max M 0, le_max_right _ _, fun L hL q a b hab hin => ?_⟩
  let V : Set (ℝ × ℝ × ℝ) := (fun p => p + q) ⁻¹' U
  have hV : IsOpen V := hU.preimage (by fun_prop)
  have hfV : ContDiffOn ℝ d (fun p => f (p + q)) V := hf.comp (contDiff_id.add contDiff_const).contDiffOn (fun p hp => hp)
  let W : Set ℝ := L ⁻¹' V
  have hW : IsOpen W := hV.preimage L.continuous
  have hsub : Icc a b ⊆ W := fun x hx => hKU (hin x hx)
  have hg : ContDiffOn ℝ d (fun x => f (L x + q)) W := hfV.comp L.contDiff.contDiffOn (fun p hp => hp)
  refine ⟨hg.mono hsub, fun u hu => ?_⟩
  have huW : u ∈ W := hsub hu
  have e1 : iteratedDerivWithin d (fun x => f (L x + q)) (Icc a b) u = iteratedDerivWithin d (fun x => f (L x + q)) W u := by
    rw [iteratedDerivWithin_of_isOpen hW huW]
    exact iteratedDerivWithin_eq_iteratedDeriv (uniqueDiffOn_Icc hab) (hg.contDiffAt (hW.mem_nhds huW)) hu
  rw [e1, ← Real.norm_eq_abs, ← norm_iteratedFDerivWithin_eq_norm_iteratedDerivWithin]
  have e2 := L.iteratedFDerivWithin_comp_right hfV hV.uniqueDiffOn hW.uniqueDiffOn huW (i := d) le_rfl
  have e2' : iteratedFDerivWithin ℝ d (fun x => f (L x + q)) W u = (iteratedFDerivWithin ℝ d (fun p => f (p + q)) V (L u)).compContinuousLinearMap fun _ => L := e2
  rw [e2']
  have e3 : iteratedFDerivWithin ℝ d (fun p => f (p + q)) V (L u) = iteratedFDerivWithin ℝ d f U (L u + q) := by
    rw [iteratedFDerivWithin_of_isOpen d hV huW, iteratedFDerivWithin_of_isOpen d hU (show L u + q ∈ U from huW), iteratedFDeriv_comp_add_right]
  rw [e3]
  refine (ContinuousMultilinearMap.norm_compContinuousLinearMap_le _ _).trans ?_
  have hb : ‖iteratedFDerivWithin ℝ d f U (L u + q)‖ ≤ M := hM ⟨_, hin u hu, rfl⟩
  have hL1 : (∏ _i : Fin d, ‖L‖) ≤ 1 := by
    rw [Finset.prod_const]
    exact pow_le_one₀ (norm_nonneg _) hL
  calc _ ≤ ‖iteratedFDerivWithin ℝ d f U (L u + q)‖ * 1 := mul_le_mul_of_nonneg_left hL1 (norm_nonneg _)
    _ ≤ max M 0 := by rw [mul_one]; exact hb.trans (le_max_left _ _)

/-! ### Specification -/

/-- The component `c` of the field that the code calculates for the dipole, without rounding (0: radial, 1: vertical; `C65_field_formula` gives it explicitly). -/
noncomputable def dipoleE (D : Dipole ℝ) (c : Nat) (r z t : ℝ) : ℝ := ((fieldAt realFns D r z t).getD c none).getD 0

/-- The box is away from the dipole, and outside of the smallest radius. -/
structure AwayFrom (D : Dipole ℝ) (B : Region) : Prop where
  order : (0 ≤ B.ra ∧ B.ra < B.rb) ∧ B.za < B.zb ∧ B.ta < B.tb
  away : ∀ r ∈ Icc B.ra B.rb, ∀ z ∈ Icc B.za B.zb, D.rMin ≤ Real.sqrt (r * r + z * z) ∧ r * r + z * z ≠ 0

/-! ### Proof -/

variable {D : Dipole ℝ} {B : Region}

theorem AwayFrom.field (hB : AwayFrom D B) (hn : D.ior ≠ 0) {r z : ℝ} (hr : r ∈ Icc B.ra B.rb) (hz : z ∈ Icc B.za B.zb) (t : ℝ) :
    fieldAt realFns D r z t = [some (smoothE D 0 (r, z, t)), some (smoothE D 1 (r, z, t))] := by
  obtain ⟨h1, h2⟩ := hB.away r hr z hz
  have h0 : Real.sqrt (r * r + z * z) ≠ 0 := by
    intro h
    rw [Real.sqrt_eq_zero (add_nonneg (mul_self_nonneg _) (mul_self_nonneg _))] at h
    exact h2 h
  rw [C65_field_formula realFns D hn Real.pi_ne_zero t r z _ _ rfl rfl h1 h0, abs_of_nonneg (hB.order.1.1.trans hr.1)]
  rfl

theorem AwayFrom.eq (hB : AwayFrom D B) (hn : D.ior ≠ 0) {r z : ℝ} (hr : r ∈ Icc B.ra B.rb) (hz : z ∈ Icc B.za B.zb) (t : ℝ) {c : Nat} (hc : c < 2) : dipoleE D c r z t = smoothE D c (r, z, t) := by
  unfold dipoleE
  rw [hB.field hn hr hz]
  have : c = 0 ∨ c = 1 := by omega
  rcases this with rfl | rfl <;> rfl

theorem BoundedDeriv.congr {d : Nat} {f g : ℝ → ℝ} {a b M : ℝ} (h : BoundedDeriv d f a b M) (e : ∀ x ∈ Icc a b, g x = f x) : BoundedDeriv d g a b M :=
  ⟨h.1.congr e, fun u hu => by rw [iteratedDerivWithin_congr e hu]; exact h.2 u hu⟩

theorem AwayFrom.smooth (hB : AwayFrom D B) (hn : D.ior ≠ 0) {d : Nat} (hN : d + 2 ≤ D.order) (hp : 0 < D.tPeak) :
    ∃ M, 0 ≤ M ∧ ∀ c < 2, SmoothField d (dipoleE D c) B M M M := by
  have hK : IsCompact (Icc B.ra B.rb ×ˢ Icc B.za B.zb ×ˢ Icc B.ta B.tb) := isCompact_Icc.prod (isCompact_Icc.prod isCompact_Icc)
  have hKU : Icc B.ra B.rb ×ˢ Icc B.za B.zb ×ˢ Icc B.ta B.tb ⊆ awayU := fun p hp => (hB.away p.1 hp.1 p.2.1 hp.2.1).2
  have one : ∀ c, ∃ M, 0 ≤ M ∧ (c < 2 → SmoothField d (dipoleE D c) B M M M) := by
    intro c
    obtain ⟨M, h0, hM⟩ := slice_bound awayU_open (smoothE_contDiffOn hn hN hp c) hK hKU
    refine ⟨M, h0, fun hc => ⟨fun z hz t ht => ?_, fun r hr t ht => ?_, fun r hr z hz => ?_⟩⟩
    · refine BoundedDeriv.congr (hM (ContinuousLinearMap.inl ℝ ℝ (ℝ × ℝ)) (ContinuousLinearMap.norm_inl_le_one ℝ ℝ (ℝ × ℝ)) (0, z, t) B.ra B.rb hB.order.1.2 fun x hx => ?_) fun x hx => ?_
      · rw [show ContinuousLinearMap.inl ℝ ℝ (ℝ × ℝ) x + (0, z, t) = (x, z, t) by simp]; exact ⟨hx, hz, ht⟩
      · rw [hB.eq hn hx hz t hc]; simp
    · refine BoundedDeriv.congr (hM ((ContinuousLinearMap.inr ℝ ℝ (ℝ × ℝ)).comp (ContinuousLinearMap.inl ℝ ℝ ℝ)) ?_ (r, 0, t) B.za B.zb hB.order.2.1 fun x hx => ?_) fun x hx => ?_
      · refine (ContinuousLinearMap.opNorm_comp_le _ _).trans ?_
        exact mul_le_one₀ (ContinuousLinearMap.norm_inr_le_one ℝ ℝ (ℝ × ℝ)) (norm_nonneg _) (ContinuousLinearMap.norm_inl_le_one ℝ ℝ ℝ)
      · rw [show ((ContinuousLinearMap.inr ℝ ℝ (ℝ × ℝ)).comp (ContinuousLinearMap.inl ℝ ℝ ℝ)) x + (r, 0, t) = (r, x, t) by simp]; exact ⟨hr, hx, ht⟩
      · rw [hB.eq hn hr hx t hc]; simp
    · refine BoundedDeriv.congr (hM ((ContinuousLinearMap.inr ℝ ℝ (ℝ × ℝ)).comp (ContinuousLinearMap.inr ℝ ℝ ℝ)) ?_ (r, z, 0) B.ta B.tb hB.order.2.2 fun x hx => ?_) fun x hx => ?_
      · refine (ContinuousLinearMap.opNorm_comp_le _ _).trans ?_
        exact mul_le_one₀ (ContinuousLinearMap.norm_inr_le_one ℝ ℝ (ℝ × ℝ)) (norm_nonneg _) (ContinuousLinearMap.norm_inr_le_one ℝ ℝ ℝ)
      · rw [show ((ContinuousLinearMap.inr ℝ ℝ (ℝ × ℝ)).comp (ContinuousLinearMap.inr ℝ ℝ ℝ)) x + (r, z, 0) = (r, z, x) by simp]; exact ⟨hr, hz, hx⟩
      · rw [hB.eq hn hr hz x hc]; simp
  obtain ⟨M0, p0, h0⟩ := one 0
  obtain ⟨M1, p1, h1⟩ := one 1
  have up : ∀ {d : Nat} {f : ℝ → ℝ} {a b M M' : ℝ}, M ≤ M' → BoundedDeriv d f a b M → BoundedDeriv d f a b M' := fun hMM h => ⟨h.1, fun u hu => (h.2 u hu).trans hMM⟩
  refine ⟨max M0 M1, le_max_of_le_left p0, fun c hc => ?_⟩
  have : c = 0 ∨ c = 1 := by omega
  rcases this with rfl | rfl
  · obtain ⟨a1, a2, a3⟩ := h0 (by omega)
    exact ⟨fun z hz t ht => up (le_max_left _ _) (a1 z hz t ht), fun r hr t ht => up (le_max_left _ _) (a2 r hr t ht), fun r hr z hz => up (le_max_left _ _) (a3 r hr z hz)⟩
  · obtain ⟨a1, a2, a3⟩ := h1 (by omega)
    exact ⟨fun z hz t ht => up (le_max_right _ _) (a1 z hz t ht), fun r hr t ht => up (le_max_right _ _) (a2 r hr t ht), fun r hr z hz => up (le_max_right _ _) (a3 r hr z hz)⟩

/-! ### The property -/

/-- **C90.** For every dipole and every box away from it there is a constant `M` such that on every grid the field that is interpolated from the samples differs from the field of the dipole by at most
    `M` times the power `d` of the steps (and the error `δ` of the samples). The order `d` is that of the kernel, limited by the smoothness of the filter. -/
theorem C90_field (D : Dipole ℝ) (hn : D.ior ≠ 0) (hp : 0 < D.tPeak) {d : Nat} (hN : d + 2 ≤ D.order) {B : Region} (hB : AwayFrom D B) {kn : Kern ℝ} {E N : ℝ} (h : Accuracy kn d E N) :
    ∃ M, 0 ≤ M ∧ ∀ (G : GMeta ℝ) (A : Nat → Int → Int → Int → ℝ) (δ : ℝ), 0 < G.dr ∧ 0 < G.dz ∧ 0 < G.dt → (∀ c < 2, Sampled G (dipoleE D c) (A c) B δ) →
      ∀ c < 2, ∀ r z t, Around G kn.support B r z t → |greenAt G kn A c r z t - dipoleE D c r z t| ≤ interpErr G d E N M M M δ := by
  obtain ⟨M, h0, hM⟩ := hB.smooth hn hN hp
  exact ⟨M, h0, fun G A δ hG hA c hc r z t ha => C87_interpolation h G hG (dipoleE D c) A c B (hA c hc) (hM c hc) r z t ha⟩

/-- **C90.** Along a track away from the axis the integrand of the signal has bounded second derivatives. -/
theorem C90_track (D : Dipole ℝ) (hn : D.ior ≠ 0) (hp : 0 < D.tPeak) (hN : 4 ≤ D.order) {B : Region} (hB : AwayFrom D B) (seg : Segment ℝ) (hseg : seg.t0 < seg.t1) (τ : ℝ)
    (hin : ∀ t ∈ Icc seg.t0 seg.t1, 0 < atR seg t ∧ atR seg t ∈ Icc B.ra B.rb ∧ atZ seg t ∈ Icc B.za B.zb) : ∃ M, BoundedDeriv 2 (induced (dipoleE D) seg τ) seg.t0 seg.t1 M := by
  have hX : ContDiff ℝ 2 (atX seg) := by unfold atX; fun_prop
  have hY : ContDiff ℝ 2 (atY seg) := by unfold atY; fun_prop
  have hZ : ContDiff ℝ 2 (atZ seg) := by unfold atZ; fun_prop
  have hR : ContDiffOn ℝ 2 (atR seg) (Icc seg.t0 seg.t1) := by
    intro t ht
    unfold atR
    refine (ContDiffAt.sqrt (by fun_prop) ?_).contDiffWithinAt
    intro h0
    have := (hin t ht).1
    unfold atR at this
    rw [h0, Real.sqrt_zero] at this
    exact lt_irrefl _ this
  have hp3 : ContDiffOn ℝ 2 (fun t => (atR seg t, atZ seg t, τ - t)) (Icc seg.t0 seg.t1) := hR.prodMk (hZ.contDiffOn.prodMk (by fun_prop))
  have hE : ∀ c, ContDiffOn ℝ 2 (fun t => smoothE D c (atR seg t, atZ seg t, τ - t)) (Icc seg.t0 seg.t1) := fun c =>
    (smoothE_contDiffOn (d := 2) hn hN hp c).comp hp3 fun t ht => (hB.away _ (hin t ht).2.1 _ (hin t ht).2.2).2
  have hI : ContDiffOn ℝ 2 (fun t => smoothE D 0 (atR seg t, atZ seg t, τ - t) * (seg.charge * (velX seg * atX seg t + velY seg * atY seg t) / atR seg t) +
      smoothE D 1 (atR seg t, atZ seg t, τ - t) * (seg.charge * velZ seg)) (Icc seg.t0 seg.t1) := by
    refine ContDiffOn.add ((hE 0).mul (ContDiffOn.div ?_ hR fun t ht => (hin t ht).1.ne')) ((hE 1).mul contDiffOn_const)
    exact (contDiff_const.mul ((contDiff_const.mul hX).add (contDiff_const.mul hY))).contDiffOn
  have hc := hI.continuousOn_iteratedDerivWithin (m := 2) le_rfl (uniqueDiffOn_Icc hseg)
  obtain ⟨M, hM⟩ := (isCompact_Icc.image_of_continuousOn hc.abs).bddAbove
  refine ⟨M, BoundedDeriv.congr ⟨hI, fun u hu => hM ⟨u, hu, rfl⟩⟩ fun t ht => ?_⟩
  unfold induced
  rw [hB.eq hn (hin t ht).2.1 (hin t ht).2.2 _ (by decide), hB.eq hn (hin t ht).2.1 (hin t ht).2.2 _ (by decide)]

/-- The samples that the code stores are within `δ` of the field of the dipole at the positions that the stored description of the grid gives to them (`δ` covers the rounding of the field and of the description),
    and the box is within the grid. -/
structure StoredWell (D : Dipole ℝ) (P : Params ℝ) (enc : Option ℝ → Nat) (val : Nat → ℝ) (G : GMeta ℝ) (nr nz nt : Nat) (sr sz st : ℝ) (B : Region) (δ : ℝ) : Prop where
  dip : P.dip = D
  pos : (0 < G.dr ∧ 0 < G.dz ∧ 0 < G.dt) ∧ 0 ≤ δ
  inside : (G.r0 ≤ B.ra ∧ B.rb ≤ G.r0 + nr * G.dr) ∧ (G.z0 ≤ B.za ∧ B.zb ≤ G.z0 + nz * G.dz) ∧ G.t0 ≤ B.ta ∧ B.tb ≤ G.t0 + nt * G.dt
  near : ∀ c < 2, ∀ i j k : Nat, G.r0 + i * G.dr ∈ Icc B.ra B.rb → G.z0 + j * G.dz ∈ Icc B.za B.zb → G.t0 + k * G.dt ∈ Icc B.ta B.tb →
    |val (enc ((fieldAt realFns D (P.r0 + sr * i) (P.z0 + sz * j) (st * k)).getD c none)) - dipoleE D c (G.r0 + i * G.dr) (G.z0 + j * G.dz) (G.t0 + k * G.dt)| ≤ δ

theorem StoredWell.sampled {P : Params ℝ} {enc : Option ℝ → Nat} {val : Nat → ℝ} {G : GMeta ℝ} {nr nz nt : Nat} {sr sz st δ : ℝ} (h : StoredWell D P enc val G nr nz nt sr sz st B δ) {c : Nat} (hc : c < 2) :
    Sampled G (dipoleE D c) (gridField realFns P enc val nr nz nt sr sz st c) B δ := by
  have idx : ∀ {o s a b : ℝ} {n : Nat} {i : Int}, 0 < s → o ≤ a ∧ b ≤ o + n * s → o + i * s ∈ Icc a b → 0 ≤ i ∧ i ≤ n := by
    intro o s a b n i hs ⟨h1, h2⟩ ⟨h3, h4⟩
    constructor
    · by_contra hc
      have : (i : ℝ) ≤ -1 := by exact_mod_cast (by omega : i ≤ -1)
      nlinarith
    · by_contra hc
      have : (n : ℝ) + 1 ≤ i := by exact_mod_cast (by omega : (n : Int) + 1 ≤ i)
      nlinarith
  intro i j k hi hj hk
  obtain ⟨i0, i1⟩ := idx h.pos.1.1 h.inside.1 hi
  obtain ⟨j0, j1⟩ := idx h.pos.1.2.1 h.inside.2.1 hj
  obtain ⟨k0, k1⟩ := idx h.pos.1.2.2 h.inside.2.2 hk
  unfold gridField
  rw [if_pos ⟨by rw [abs_of_nonneg i0]; exact i1, ⟨j0, j1⟩, k0, k1⟩, abs_of_nonneg i0, h.dip]
  obtain ⟨i, rfl⟩ := Int.eq_ofNat_of_zero_le i0
  obtain ⟨j, rfl⟩ := Int.eq_ofNat_of_zero_le j0
  obtain ⟨k, rfl⟩ := Int.eq_ofNat_of_zero_le k0
  simp only [Int.cast_natCast] at hi hj hk ⊢
  exact h.near c hc i j k hi hj hk

/-- **C90**, end to end. For every dipole and every box away from it there is a constant `M`: calculate the Green's function of the dipole on any grid, store it, load it with a cache of any size, and ask for the signal
    of a charge on a track inside of the box. Each output sample after the end of the track is the one before, minus the weight times the integral of the field of the dipole along the track; the error is
    at most `M` times the power `d` of the steps of the grid, plus that from the errors `δ` of the samples, plus that of the trapezoidal rule. -/
theorem C90_signal (D : Dipole ℝ) (hn : D.ior ≠ 0) (hp : 0 < D.tPeak) {d : Nat} (hN : d + 2 ≤ D.order) {B : Region} (hB : AwayFrom D B) {kn : Kern ℝ} {E N : ℝ} (h : Accuracy kn d E N) (hk : IsKernel kn) :
    ∃ M, 0 ≤ M ∧ ∀ {hst : Host} {junk : Nat → Nat} (_hj : ∀ k, junk k < 2 ^ 32) (S : Sorter) (_Z : SlabSize) (pow2 : ℝ → ℝ) (enc : Option ℝ → Nat) (_henc : ∀ x, enc x < 2 ^ 32)
      {uuid uuid' : Nat → List Nat} (_hu : FreshNames uuid) (_hu' : FreshNames uuid') (P : Params ℝ) {dir tmp : Nat} (_hne : tmp ≠ dir) (dsk : Disk) (_hd : ∀ e, e ≠ dir → dsk.fs (e, .index) = none)
      {hs ht : ℝ} (_h : DipoleOk realFns pow2 P hs ht) {val : Nat → ℝ} (_hval : ∀ x, FloatIsZero x → val x = 0),
      ∃ (d' : Disk) (nr nz nt : Nat) (sr sz st : ℝ), electricDipole (dipCfg hst junk) S realFns pow2 enc uuid uuid' P dir tmp dsk = .ok d' ∧
        Divides P.r0 P.r1 hs nr sr ∧ Divides P.z0 P.z1 hs nz sz ∧ Divides 0 P.tEnd ht nt st ∧
        ∀ G, G = ⟨val (enc (some P.r0)), val (enc (some P.z0)), val (enc (some 0)), val (enc (some sr)), val (enc (some sz)), val (enc (some st))⟩ →
        ∀ δ, StoredWell D P enc val G nr nz nt sr sz st B δ → ∀ cache, ∃ (g : Lib) (gm : GFMeta) (I : Lib × FS → Prop), load (dipCfg hst junk) S dir cache d' = .ok (g, gm) ∧ gmetaOf val gm = G ∧ I (g, d'.fs) ∧
          ∀ (s : Lib × FS), I s → ∀ (grow : ℝ → ℝ), grow 0 = 0 → ∀ (mem : Nat → Nat → Nat → ℝ) (wmem : Nat → ℝ) (maxI maxS : Nat), 0 < maxI ∧ maxI < 2 ^ 62 → 0 < maxS ∧ maxS < 2 ^ 62 →
          ∀ (seg : Segment ℝ) (tsig tsamp : ℝ) (n : Nat) (out : List ℝ) (oob : OOB) (weight : ℝ), n ≤ out.length →
            SignalOk G kn (gridField realFns P enc val nr nz nt sr sz st) ⟨nr, nz, nt, P.maxPts, 2, false⟩ seg tsig tsamp n oob →
            ∃ s' out', apply (libOf (readerCfg (dipCfg hst junk) cache) val) G kn grow mem wmem maxI maxS seg tsig tsamp n out oob weight s = .ok (s', out') ∧ I s' ∧ out'.length = out.length ∧
              (∀ k, n ≤ k → out'.getD k 0 = out.getD k 0) ∧
              ∀ k < n, TrackCovered G kn ⟨nr, nz, nt, P.maxPts, 2, false⟩ B seg (tsig + k * tsamp) → seg.t1 ≤ tsig + k * tsamp → ∀ M2 : ℝ, BoundedDeriv 2 (induced (dipoleE D) seg (tsig + k * tsamp)) seg.t0 seg.t1 M2 →
                |out'.getD k 0 - (out.getD k 0 - weight * ∫ t in seg.t0..seg.t1, induced (dipoleE D) seg (tsig + k * tsamp) t)| ≤
                  |weight| * (fieldError seg (interpErr G d E N M M M δ) (interpErr G d E N M M M δ) + ((seg.t1 - seg.t0) / intervals seg) ^ 2 / 12 * (M2 * (seg.t1 - seg.t0))) := by
  obtain ⟨M, h0, hM⟩ := hB.smooth hn hN hp
  refine ⟨M, h0, fun {hst junk} hj S Z pow2 enc henc {uuid uuid'} hu hu' P {dir tmp} hne dsk hd {hs ht} hok {val} hval => ?_⟩
  obtain ⟨d', nr, nz, nt, sr, sz, st, e1, e2, e3, e4, e5⟩ := C67_dipole_signal_partial hj S Z realFns pow2 enc henc hu hu' P hne dsk hd hok hval hk
  refine ⟨d', nr, nz, nt, sr, sz, st, e1, e2, e3, e4, fun G hG δ hw cache => ?_⟩
  obtain ⟨g, gm, I, f1, f2, f3, f4⟩ := e5 (by have := hw.pos.1.2.2; rw [hG] at this; exact this) cache
  rw [← hG] at f2
  rw [f2] at f4
  refine ⟨g, gm, I, f1, f2, f3, fun s hs grow hg mem wmem maxI maxS hI hS seg tsig tsamp n out oob weight hl hq => ?_⟩
  exact C88_smooth f4 h hw.pos.1 (Mr := fun _ => M) (Mz := fun _ => M) (Mt := fun _ => M) ⟨fun c hc => hw.sampled hc, fun c hc => hM c hc, hw.pos.2, fun _ _ => ⟨h0, h0, h0⟩⟩ hg mem wmem hI hS hl weight hq hs

end Verif.Analytic
