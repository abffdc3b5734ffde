import Verif.Green.TrackFProof
/-
C85: the effect of the displacements on the contributions of the points of a track.
-/
namespace Verif.Green
open Verif Verif.ND Verif.Dist

set_option linter.unusedSectionVars false

/-! ### Specification -/

/-- Bounds for the distance from the axis and for the height along the track. -/
noncomputable def reachXY (seg : Segment ℝ) : ℝ := |seg.p0.x| + |seg.p1.x - seg.p0.x| + (|seg.p0.y| + |seg.p1.y - seg.p0.y|)
noncomputable def reachZ (seg : Segment ℝ) : ℝ := |seg.p0.z| + |seg.p1.z - seg.p0.z|

/-- The magnitude of the current. -/
noncomputable def currentMag (seg : Segment ℝ) : ℝ := |seg.current.x| + |seg.current.y| + |seg.current.z|

variable {σ : Type}

/-- By how much the position on the grid of the Green's function is displaced, in grid steps, for sample `k`. -/
noncomputable def shift (u W : ℝ) (S : Setup σ ℝ) (seg : Segment ℝ) (k : Nat) : ℝ :=
  eps u 14 * ((reachXY seg + |S.G.r0|) / S.G.dr) + eps u 11 * ((reachZ seg + |S.G.z0|) / S.G.dz) +
    eps u 10 * ((|S.tsig| + k * S.tsamp + (|seg.t0| + (seg.t1 - seg.t0)) + |S.G.t0|) / S.G.dt) + (2 * u + eps u 5) * W

/-- The exact contribution of point `p` of `N + 1` points of the track to sample `k`, without regard to causality. -/
noncomputable def pointValue (kn : Kern ℝ) (F : Nat → Int → Int → Int → ℝ) (S : Setup σ ℝ) (seg : Segment ℝ) (N p k : Nat) : ℝ :=
  let q := seg.place (p / N)
  let x := (rho q - S.G.r0) / S.G.dr
  let y := (q.z - S.G.z0) / S.G.dz
  let t := (lag S seg (p / N) k - S.G.t0) / S.G.dt
  (interpAt kn (F 0) x y t * radial seg.current q + interpAt kn (F 1) x y t * seg.current.z) * -(trapezoid (N + 1) p * ((seg.t1 - seg.t0) / N) * S.weight)

/-! ### Proofs -/

variable {u : ℝ}

theorem rho_nonneg (q : XYZ ℝ) : 0 ≤ rho q := Real.sqrt_nonneg _

theorem rho_sq (q : XYZ ℝ) : rho q ^ 2 = q.x ^ 2 + q.y ^ 2 := Real.sq_sqrt (by positivity)

theorem abs_x_le (q : XYZ ℝ) : |q.x| ≤ rho q := Real.abs_le_sqrt (by nlinarith [sq_nonneg q.y])

theorem abs_y_le (q : XYZ ℝ) : |q.y| ≤ rho q := Real.abs_le_sqrt (by nlinarith [sq_nonneg q.x])

theorem rho_le_add (q X : XYZ ℝ) : rho q ≤ rho X + (|q.x - X.x| + |q.y - X.y|) := by
  have h1 := abs_x_le X
  have h2 := abs_y_le X
  have h0 := rho_nonneg X
  have hs := rho_sq X
  set a := |q.x - X.x| with ha
  set b := |q.y - X.y| with hb
  have a0 : 0 ≤ a := abs_nonneg _
  have b0 : 0 ≤ b := abs_nonneg _
  have ex : |q.x| ≤ |X.x| + a := by have := abs_add_le X.x (q.x - X.x); rwa [add_sub_cancel] at this
  have ey : |q.y| ≤ |X.y| + b := by have := abs_add_le X.y (q.y - X.y); rwa [add_sub_cancel] at this
  apply Real.sqrt_le_iff.2
  refine ⟨by linarith, ?_⟩
  have x2 : q.x ^ 2 ≤ (|X.x| + a) ^ 2 := by rw [← sq_abs q.x]; exact pow_le_pow_left₀ (abs_nonneg _) ex 2
  have y2 : q.y ^ 2 ≤ (|X.y| + b) ^ 2 := by rw [← sq_abs q.y]; exact pow_le_pow_left₀ (abs_nonneg _) ey 2
  have sx := sq_abs X.x
  have sy := sq_abs X.y
  have p1 : |X.x| * a ≤ rho X * a := mul_le_mul_of_nonneg_right h1 a0
  have p2 : |X.y| * b ≤ rho X * b := mul_le_mul_of_nonneg_right h2 b0
  have p3 : 0 ≤ a * b := mul_nonneg a0 b0
  nlinarith

theorem rho_sub (q X : XYZ ℝ) : |rho q - rho X| ≤ |q.x - X.x| + |q.y - X.y| := by
  have h1 := rho_le_add q X
  have h2 := rho_le_add X q
  rw [abs_sub_comm X.x, abs_sub_comm X.y] at h2
  rw [abs_le]
  constructor <;> linarith

theorem dir_le (a : ℝ) {r : ℝ} (h : |a| ≤ r) : |a / r| ≤ 1 := by
  have r0 : 0 ≤ r := (abs_nonneg _).trans h
  rw [abs_div, abs_of_nonneg r0]
  exact div_le_one_of_le₀ h r0

theorem dir_sub {a b r s : ℝ} (hs : 0 < s) (ha : |a| ≤ r) : |a / r - b / s| ≤ (|a - b| + |r - s|) / s := by
  have r0 : 0 ≤ r := (abs_nonneg _).trans ha
  rcases r0.eq_or_lt with h | h
  · have ha0 : a = 0 := abs_eq_zero.1 (le_antisymm (by rw [← h] at ha; exact ha) (abs_nonneg _))
    rw [ha0, zero_div, zero_sub, abs_neg, abs_div, abs_of_pos hs, zero_sub, abs_neg]
    exact div_le_div_of_nonneg_right (by linarith [abs_nonneg (r - s)]) hs.le
  · have e : a / r - b / s = ((a - b) - a / r * (r - s)) / s := by field_simp; ring
    rw [e, abs_div, abs_of_pos hs]
    refine div_le_div_of_nonneg_right ((abs_sub _ _).trans ?_) hs.le
    rw [abs_mul]
    have := mul_le_mul_of_nonneg_right (dir_le a ha) (abs_nonneg (r - s))
    linarith

theorem radialMag_le (f q : XYZ ℝ) : radialMag f q ≤ |f.x| + |f.y| := by
  unfold radialMag
  rw [abs_mul, abs_mul]
  have h1 := mul_le_mul_of_nonneg_left (dir_le _ (abs_x_le q)) (abs_nonneg f.x)
  have h2 := mul_le_mul_of_nonneg_left (dir_le _ (abs_y_le q)) (abs_nonneg f.y)
  linarith

theorem radial_le (f q : XYZ ℝ) : |radial f q| ≤ |f.x| + |f.y| := (abs_add_le _ _).trans (radialMag_le f q)

theorem radial_sub (f q X : XYZ ℝ) (hX : 0 < rho X) : |radial f q - radial f X| ≤ (|f.x| + |f.y|) * (2 * (|q.x - X.x| + |q.y - X.y|) / rho X) := by
  have hr := rho_sub q X
  have a0 := abs_nonneg (q.x - X.x)
  have b0 := abs_nonneg (q.y - X.y)
  have hx : |q.x / rho q - X.x / rho X| ≤ 2 * (|q.x - X.x| + |q.y - X.y|) / rho X :=
    (dir_sub hX (abs_x_le q)).trans (div_le_div_of_nonneg_right (by linarith) hX.le)
  have hy : |q.y / rho q - X.y / rho X| ≤ 2 * (|q.x - X.x| + |q.y - X.y|) / rho X :=
    (dir_sub hX (abs_y_le q)).trans (div_le_div_of_nonneg_right (by linarith) hX.le)
  unfold radial
  rw [show f.x * (q.x / rho q) + f.y * (q.y / rho q) - (f.x * (X.x / rho X) + f.y * (X.y / rho X)) = f.x * (q.x / rho q - X.x / rho X) + f.y * (q.y / rho q - X.y / rho X) by ring]
  refine (abs_add_le _ _).trans ?_
  rw [abs_mul, abs_mul, add_mul]
  exact add_le_add (mul_le_mul_of_nonneg_left hx (abs_nonneg _)) (mul_le_mul_of_nonneg_left hy (abs_nonneg _))

theorem coord_le {a d lam : ℝ} (h0 : 0 ≤ lam) (h1 : lam ≤ 1) : |a + lam * d| ≤ |a| + |d| := by
  refine (abs_add_le _ _).trans ?_
  rw [abs_mul, abs_of_nonneg h0]
  nlinarith [abs_nonneg d]

theorem rho_le_sum (q : XYZ ℝ) : rho q ≤ |q.x| + |q.y| := by
  have := rho_le_add q ⟨0, 0, 0⟩
  have e : rho ⟨0, 0, 0⟩ = 0 := by unfold rho; simp
  rwa [e, zero_add, sub_zero, sub_zero] at this

/-- The total displacement. -/
theorem Displaced.shift {W : ℝ} {S : Setup σ ℝ} {seg : Segment ℝ} {lam : ℝ} {k : Nat} {q : XYZ ℝ} {x y t : ℝ} (hu : 0 ≤ u) (hg : 0 < S.G.dr ∧ 0 < S.G.dz) (h0 : 0 ≤ lam) (h1 : lam ≤ 1)
    (h : Displaced u W S seg lam k q x y t) :
    |x - (rho (seg.place lam) - S.G.r0) / S.G.dr| + |y - ((seg.place lam).z - S.G.z0) / S.G.dz| + |t - (lag S seg lam k - S.G.t0) / S.G.dt| ≤ Verif.Green.shift u W S seg k ∧
    |q.x - (seg.place lam).x| + |q.y - (seg.place lam).y| ≤ eps u 9 * reachXY seg := by
  have e9 := eps_nonneg hu 9
  have e5 := eps_nonneg hu 5
  have e2 := eps_nonneg hu 2
  have hxy : |q.x - (seg.place lam).x| + |q.y - (seg.place lam).y| ≤ eps u 9 * reachXY seg := by
    unfold reachXY
    rw [mul_add]
    exact add_le_add h.qx h.qy
  refine ⟨?_, hxy⟩
  have rX : rho (seg.place lam) ≤ reachXY seg := (rho_le_sum _).trans (add_le_add (coord_le h0 h1) (coord_le h0 h1))
  have zX : |(seg.place lam).z| ≤ reachZ seg := coord_le h0 h1
  have rq : rho q ≤ (1 + u) ^ 9 * reachXY seg := by
    have := rho_le_add q (seg.place lam)
    have e : (1 + u) ^ 9 * reachXY seg = reachXY seg + eps u 9 * reachXY seg := by unfold eps; ring
    rw [e]; linarith
  have zq : |q.z| ≤ (1 + u) ^ 9 * reachZ seg := by
    have := abs_add_le (seg.place lam).z (q.z - (seg.place lam).z)
    rw [add_sub_cancel] at this
    have h2 := h.qz
    have e : (1 + u) ^ 9 * reachZ seg = reachZ seg + eps u 9 * reachZ seg := by unfold eps; ring
    rw [e]; unfold reachZ at *; linarith
  have r0 : 0 ≤ |S.G.r0| := abs_nonneg _
  have z0 : 0 ≤ |S.G.z0| := abs_nonneg _
  have L0 : 0 ≤ reachXY seg := by unfold reachXY; positivity
  have L1 : 0 ≤ reachZ seg := by unfold reachZ; positivity
  have p9 := one_le_pow hu 9
  have ax : |x - (rho (seg.place lam) - S.G.r0) / S.G.dr| ≤ eps u 14 * ((reachXY seg + |S.G.r0|) / S.G.dr) + u * W := by
    have b1 := abs_sub_le x ((rho q - S.G.r0) / S.G.dr) ((rho (seg.place lam) - S.G.r0) / S.G.dr)
    have b2 : |(rho q - S.G.r0) / S.G.dr - (rho (seg.place lam) - S.G.r0) / S.G.dr| ≤ eps u 9 * reachXY seg / S.G.dr := by
      rw [← sub_div, abs_div, abs_of_pos hg.1, sub_sub_sub_cancel_right]
      exact div_le_div_of_nonneg_right ((rho_sub _ _).trans hxy) hg.1.le
    have b3 : eps u 5 * ((rho q + |S.G.r0|) / S.G.dr) + eps u 9 * reachXY seg / S.G.dr ≤ eps u 14 * ((reachXY seg + |S.G.r0|) / S.G.dr) := by
      rw [← mul_div_assoc, ← mul_div_assoc, ← add_div]
      refine div_le_div_of_nonneg_right ?_ hg.1.le
      have c1 : eps u 5 * (rho q + |S.G.r0|) ≤ eps u 5 * ((1 + u) ^ 9 * reachXY seg + (1 + u) ^ 9 * |S.G.r0|) := mul_le_mul_of_nonneg_left (by nlinarith) e5
      have c2 : eps u 14 * (reachXY seg + |S.G.r0|) = eps u 5 * ((1 + u) ^ 9 * reachXY seg + (1 + u) ^ 9 * |S.G.r0|) + eps u 9 * reachXY seg + eps u 9 * |S.G.r0| := by unfold eps; ring
      have c3 := mul_nonneg e9 r0
      linarith
    linarith [h.r]
  have ay : |y - ((seg.place lam).z - S.G.z0) / S.G.dz| ≤ eps u 11 * ((reachZ seg + |S.G.z0|) / S.G.dz) + u * W := by
    have b1 := abs_sub_le y ((q.z - S.G.z0) / S.G.dz) (((seg.place lam).z - S.G.z0) / S.G.dz)
    have b2 : |(q.z - S.G.z0) / S.G.dz - ((seg.place lam).z - S.G.z0) / S.G.dz| ≤ eps u 9 * reachZ seg / S.G.dz := by
      rw [← sub_div, abs_div, abs_of_pos hg.2, sub_sub_sub_cancel_right]
      exact div_le_div_of_nonneg_right h.qz hg.2.le
    have b3 : eps u 2 * ((|q.z| + |S.G.z0|) / S.G.dz) + eps u 9 * reachZ seg / S.G.dz ≤ eps u 11 * ((reachZ seg + |S.G.z0|) / S.G.dz) := by
      rw [← mul_div_assoc, ← mul_div_assoc, ← add_div]
      refine div_le_div_of_nonneg_right ?_ hg.2.le
      have c1 : eps u 2 * (|q.z| + |S.G.z0|) ≤ eps u 2 * ((1 + u) ^ 9 * reachZ seg + (1 + u) ^ 9 * |S.G.z0|) := mul_le_mul_of_nonneg_left (by nlinarith) e2
      have c2 : eps u 11 * (reachZ seg + |S.G.z0|) = eps u 2 * ((1 + u) ^ 9 * reachZ seg + (1 + u) ^ 9 * |S.G.z0|) + eps u 9 * reachZ seg + eps u 9 * |S.G.z0| := by unfold eps; ring
      have c3 := mul_nonneg e9 z0
      linarith
    linarith [h.z]
  unfold Verif.Green.shift
  have := h.t
  linarith

section
variable {S : Setup σ ℝ} {ms : List Meta} {F : Nat → Int → Int → Int → ℝ} {kn : Kern ℝ} {W : Nat} {seg : Segment ℝ} {N : Nat} {lam Lam M : ℝ}

/-- The error of a contribution, divided by the weight of the point, the current and the field. -/
noncomputable def pointError (u W lam Lam rmin : ℝ) (S : Setup σ ℝ) (seg : Segment ℝ) (k : Nat) : ℝ :=
  lam * Lam ^ 2 * Verif.Green.shift u W S seg k + 2 * Lam ^ 3 * (eps u 9 * reachXY seg / rmin)

theorem pointValue_le (hk : Steady kn lam Lam) (hM : ∀ c < 2, ∀ i j k, |F c i j k| ≤ M) (N p k : Nat) :
    |pointValue kn F S seg N p k| ≤ Lam ^ 3 * M * currentMag seg * |trapezoid (N + 1) p * ((seg.t1 - seg.t0) / N) * S.weight| := by
  unfold pointValue
  simp only
  rw [abs_mul, abs_neg]
  refine mul_le_mul_of_nonneg_right ((abs_add_le _ _).trans ?_) (abs_nonneg _)
  rw [abs_mul, abs_mul]
  have m : ∀ c < 2, ∀ x y t, |interpAt kn (F c) x y t| ≤ Lam ^ 3 * M := fun c hc x y t => (interpAt_le_mag _ _ _ _ _).trans (interpMag_bound hk (hM c hc) x y t)
  have L0 : 0 ≤ Lam ^ 3 * M := (abs_nonneg _).trans (m 0 (by decide) 0 0 0)
  unfold currentMag
  rw [mul_add]
  exact add_le_add (mul_le_mul (m 0 (by decide) _ _ _) (radial_le _ _) (abs_nonneg _) L0) (mul_le_mul_of_nonneg_right (m 1 (by decide) _ _ _) (abs_nonneg _))

/-- The magnitude of a contribution. -/
theorem Share.mag (hk : Steady kn lam Lam) (hM : ∀ c < 2, ∀ i j k, |F c i j k| ≤ M) {p k : Nat} {v m : ℝ} (h : Share kn F ms u W S seg N p k v m) :
    0 ≤ m ∧ m ≤ Lam ^ 3 * M * currentMag seg * |trapezoid (N + 1) p * ((seg.t1 - seg.t0) / N) * S.weight| := by
  refine ⟨(abs_nonneg _).trans h.bound, ?_⟩
  have b : ∀ c < 2, ∀ x y t, interpMag kn (F c) x y t ≤ Lam ^ 3 * M := fun c hc x y t => interpMag_bound hk (hM c hc) x y t
  have n0 : ∀ c x y t, 0 ≤ interpMag kn (F c) x y t := fun c x y t => (abs_nonneg _).trans (interpAt_le_mag _ _ _ _ _)
  have L0 : 0 ≤ Lam ^ 3 * M := (n0 0 0 0 0).trans (b 0 (by decide) 0 0 0)
  have C0 : 0 ≤ currentMag seg := by unfold currentMag; positivity
  rcases h with ⟨-, -, rfl⟩ | ⟨-, -, -, rfl⟩ | ⟨-, q, x, y, t, -, -, rfl⟩
  · positivity
  · positivity
  · refine mul_le_mul_of_nonneg_right ?_ (abs_nonneg _)
    unfold currentMag
    rw [mul_add]
    refine add_le_add (mul_le_mul (b 0 (by decide) _ _ _) (radialMag_le _ _) ?_ L0) (mul_le_mul_of_nonneg_right (b 1 (by decide) _ _ _) (abs_nonneg _))
    unfold radialMag; positivity

/-- A contribution that is taken into account. -/
theorem share_error (hk : Steady kn lam Lam) (hM : ∀ c < 2, ∀ i j k, |F c i j k| ≤ M) (hu : 0 ≤ u) (hg : 0 < S.G.dr ∧ 0 < S.G.dz) {rmin : ℝ} (hr : 0 < rmin) {p k : Nat} (hN : 0 < N) (hp : p ≤ N)
    (hrm : rmin ≤ rho (seg.place (p / N))) {q : XYZ ℝ} {x y t : ℝ} (h : Displaced u W S seg (p / N) k q x y t) :
    |(interpAt kn (F 0) x y t * radial seg.current q + interpAt kn (F 1) x y t * seg.current.z) * -(trapezoid (N + 1) p * ((seg.t1 - seg.t0) / N) * S.weight) - pointValue kn F S seg N p k| ≤
      pointError u W lam Lam rmin S seg k * M * currentMag seg * |trapezoid (N + 1) p * ((seg.t1 - seg.t0) / N) * S.weight| := by
  have hNr : (0 : ℝ) < N := by exact_mod_cast hN
  have h0 : (0 : ℝ) ≤ (p : ℝ) / N := by positivity
  have h1 : (p : ℝ) / N ≤ 1 := (div_le_one hNr).2 (by exact_mod_cast hp)
  obtain ⟨s1, s2⟩ := h.shift hu hg h0 h1
  unfold pointValue
  simp only
  set X := seg.place (p / N) with hX
  set x0 := (rho X - S.G.r0) / S.G.dr
  set y0 := (X.z - S.G.z0) / S.G.dz
  set t0 := (lag S seg (p / N) k - S.G.t0) / S.G.dt
  set cur := seg.current
  have hrX : 0 < rho X := lt_of_lt_of_le hr hrm
  have M0 : 0 ≤ M := (abs_nonneg _).trans (hM 0 (by decide) 0 0 0)
  have l : ∀ c < 2, |interpAt kn (F c) x y t - interpAt kn (F c) x0 y0 t0| ≤ lam * Lam ^ 2 * M * Verif.Green.shift u W S seg k := fun c hc =>
    (interpAt_lip hk (hM c hc) x y t x0 y0 t0).trans (mul_le_mul_of_nonneg_left s1 (by have := hk.pos; positivity))
  have m0 : |interpAt kn (F 0) x0 y0 t0| ≤ Lam ^ 3 * M := (interpAt_le_mag _ _ _ _ _).trans (interpMag_bound hk (hM 0 (by decide)) _ _ _)
  have L0 : 0 ≤ Lam ^ 3 * M := (abs_nonneg _).trans m0
  have rs : |radial cur q - radial cur X| ≤ (|cur.x| + |cur.y|) * (2 * (eps u 9 * reachXY seg) / rmin) := by
    refine (radial_sub cur q X hrX).trans (mul_le_mul_of_nonneg_left ?_ (by positivity))
    exact div_le_div₀ (by have := eps_nonneg hu 9; have : 0 ≤ reachXY seg := (by unfold reachXY; positivity); positivity) (by linarith) hr hrm
  have e : (interpAt kn (F 0) x y t * radial cur q + interpAt kn (F 1) x y t * cur.z) - (interpAt kn (F 0) x0 y0 t0 * radial cur X + interpAt kn (F 1) x0 y0 t0 * cur.z) =
      (interpAt kn (F 0) x y t - interpAt kn (F 0) x0 y0 t0) * radial cur q + interpAt kn (F 0) x0 y0 t0 * (radial cur q - radial cur X) +
        (interpAt kn (F 1) x y t - interpAt kn (F 1) x0 y0 t0) * cur.z := by ring
  rw [← sub_mul, e, abs_mul, abs_neg]
  refine mul_le_mul_of_nonneg_right ?_ (abs_nonneg _)
  refine (abs_add_le _ _).trans ?_
  have t1 := abs_add_le ((interpAt kn (F 0) x y t - interpAt kn (F 0) x0 y0 t0) * radial cur q) (interpAt kn (F 0) x0 y0 t0 * (radial cur q - radial cur X))
  rw [abs_mul, abs_mul] at t1
  rw [abs_mul (interpAt kn (F 1) x y t - interpAt kn (F 1) x0 y0 t0)]
  have a1 := mul_le_mul (l 0 (by decide)) (radial_le cur q) (abs_nonneg _) ((abs_nonneg _).trans (l 0 (by decide)))
  have a2 := mul_le_mul m0 rs (abs_nonneg _) L0
  have a3 := mul_le_mul_of_nonneg_right (l 1 (by decide)) (abs_nonneg cur.z)
  have a4 : 0 ≤ Lam ^ 3 * M * (|cur.z| * (2 * (eps u 9 * reachXY seg) / rmin)) := by
    have := eps_nonneg hu 9; have : 0 ≤ reachXY seg := (by unfold reachXY; positivity); positivity
  have e2 : pointError u W lam Lam rmin S seg k * M * currentMag seg = lam * Lam ^ 2 * M * Verif.Green.shift u W S seg k * (|cur.x| + |cur.y|) +
      Lam ^ 3 * M * ((|cur.x| + |cur.y|) * (2 * (eps u 9 * reachXY seg) / rmin)) + lam * Lam ^ 2 * M * Verif.Green.shift u W S seg k * |cur.z| +
      Lam ^ 3 * M * (|cur.z| * (2 * (eps u 9 * reachXY seg) / rmin)) := by
    unfold pointError currentMag; ring
  rw [e2]
  linarith

theorem trapezoid_sum (N : Nat) (hN : 0 < N) : ∑ p ∈ Finset.range (N + 1), trapezoid (K := ℝ) (N + 1) p = N := by
  obtain ⟨n, rfl⟩ : ∃ n, N = n + 1 := ⟨N - 1, by omega⟩
  rw [Finset.sum_range_succ, Finset.sum_range_succ']
  have e : ∀ i ∈ Finset.range n, trapezoid (K := ℝ) (n + 1 + 1) (i + 1) = 1 := by
    intro i hi
    have := Finset.mem_range.1 hi
    unfold trapezoid
    rw [if_neg (by omega)]
  rw [Finset.sum_congr rfl e]
  have a : trapezoid (K := ℝ) (n + 1 + 1) 0 = 1 / 2 := by unfold trapezoid; simp
  have b : trapezoid (K := ℝ) (n + 1 + 1) (n + 1) = 1 / 2 := by unfold trapezoid; simp
  rw [a, b]
  simp
  ring

theorem trapezoid_range (n i : Nat) : 0 ≤ trapezoid (K := ℝ) n i ∧ trapezoid (K := ℝ) n i ≤ 1 := by
  unfold trapezoid
  split_ifs <;> norm_num

end

end Verif.Green
