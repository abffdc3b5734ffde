import Verif.Green.Smooth
import Verif.Green.Props79
import Verif.Green.Request
/-
C87: how well the interpolated Green's function approximates the field that was sampled.
-/
namespace Verif.Green
open Verif Set

/-! ### Specification -/

/-- Kernel `kn` is used for data with `d` derivatives: `E` is the constant in the error of the interpolation along one axis, and `N` is the largest factor by which it amplifies errors of the samples. -/
inductive Accuracy : Kern ℝ → Nat → ℝ → ℝ → Prop where
  | linear1 : Accuracy linear 1 (1 / 2) 1
  | linear2 : Accuracy linear 2 (1 / 8) 1
  | keys1 : Accuracy (keys (Real.sqrt 7)) 1 (3 / 4) (5 / 4)
  | keys2 : Accuracy (keys (Real.sqrt 7)) 2 (9 / 32) (5 / 4)
  | keys3 : Accuracy (keys (Real.sqrt 7)) 3 (3 / 32) (5 / 4)

/-- `f` has `d` continuous derivatives on `[a, b]`, and the last one is at most `M`. -/
def BoundedDeriv (d : Nat) (f : ℝ → ℝ) (a b M : ℝ) : Prop :=
  ContDiffOn ℝ d f (Icc a b) ∧ ∀ u ∈ Icc a b, |iteratedDerivWithin d f (Icc a b) u| ≤ M

/-- A box in the coordinates `r`, `z`, `t`. -/
structure Region where
  ra : ℝ
  rb : ℝ
  za : ℝ
  zb : ℝ
  ta : ℝ
  tb : ℝ

/-- In the box, the derivatives of order `d` of the field along the three axes are at most `Mr`, `Mz`, `Mt`. -/
structure SmoothField (d : Nat) (F : ℝ → ℝ → ℝ → ℝ) (B : Region) (Mr Mz Mt : ℝ) : Prop where
  r : ∀ z ∈ Icc B.za B.zb, ∀ t ∈ Icc B.ta B.tb, BoundedDeriv d (fun r => F r z t) B.ra B.rb Mr
  z : ∀ r ∈ Icc B.ra B.rb, ∀ t ∈ Icc B.ta B.tb, BoundedDeriv d (fun z => F r z t) B.za B.zb Mz
  t : ∀ r ∈ Icc B.ra B.rb, ∀ z ∈ Icc B.za B.zb, BoundedDeriv d (fun t => F r z t) B.ta B.tb Mt

/-- The samples at the grid points in the box are the field, up to an error `δ`. -/
def Sampled (G : GMeta ℝ) (F : ℝ → ℝ → ℝ → ℝ) (A : Int → Int → Int → ℝ) (B : Region) (δ : ℝ) : Prop :=
  ∀ i j k : Int, G.r0 + i * G.dr ∈ Icc B.ra B.rb → G.z0 + j * G.dz ∈ Icc B.za B.zb → G.t0 + k * G.dt ∈ Icc B.ta B.tb → |A i j k - F (G.r0 + i * G.dr) (G.z0 + j * G.dz) (G.t0 + k * G.dt)| ≤ δ

/-- Along an axis with grid points `o + i st`: the grid points that a kernel of support `s` uses at the position `p`, the first one `s - 1` points before that below `p`, the last one `s` points after it, are between
    `a` and `b`. -/
def AxisIn (o st : ℝ) (s : Nat) (a b p : ℝ) : Prop := a ≤ o + ((⌊(p - o) / st⌋ : ℝ) - ((s : ℝ) - 1)) * st ∧ o + ((⌊(p - o) / st⌋ : ℝ) + s) * st ≤ b

/-- The box contains all grid points that the kernel uses. -/
structure Around (G : GMeta ℝ) (s : Nat) (B : Region) (r z t : ℝ) : Prop where
  r : AxisIn G.r0 G.dr s B.ra B.rb r
  z : AxisIn G.z0 G.dz s B.za B.zb z
  t : AxisIn G.t0 G.dt s B.ta B.tb t

/-- The largest difference between field and interpolation. -/
noncomputable def interpErr (G : GMeta ℝ) (d : Nat) (E N Mr Mz Mt δ : ℝ) : ℝ := E * (Mr * G.dr ^ d + N * Mz * G.dz ^ d + N ^ 2 * Mt * G.dt ^ d) + N ^ 3 * δ

/-! ### Proof -/

/-- The weights of the cubic kernel. -/
theorem keys_weights (f : ℝ) (h0 : 0 ≤ f) (h1 : f < 1) :
    (keys (Real.sqrt 7)).weight f 0 = -(f * (1 - f) ^ 2 / 2) ∧ (keys (Real.sqrt 7)).weight f 1 = (1 - f) * (1 + f - 3 / 2 * f ^ 2) ∧
    (keys (Real.sqrt 7)).weight f 2 = f * (1 / 2 + 2 * f - 3 / 2 * f ^ 2) ∧ (keys (Real.sqrt 7)).weight f 3 = -(f ^ 2 * (1 - f) / 2) := by
  obtain ⟨w0, w1, w2, w3⟩ := keys_weight (Real.sqrt 7) f h0 h1
  have s7 := sqrt7
  refine ⟨by rw [w0]; ring, ?_, ?_, by rw [w3]; ring⟩
  · rw [w1]
    linear_combination (-(1 / 6) * (f - 1)) * s7
  · rw [w2]
    linear_combination (1 / 6 * f) * s7

theorem keys_abs (f : ℝ) (h0 : 0 ≤ f) (h1 : f < 1) :
    |(keys (Real.sqrt 7)).weight f 0| = f * (1 - f) ^ 2 / 2 ∧ |(keys (Real.sqrt 7)).weight f 1| = (1 - f) * (1 + f - 3 / 2 * f ^ 2) ∧
    |(keys (Real.sqrt 7)).weight f 2| = f * (1 / 2 + 2 * f - 3 / 2 * f ^ 2) ∧ |(keys (Real.sqrt 7)).weight f 3| = f ^ 2 * (1 - f) / 2 := by
  obtain ⟨w0, w1, w2, w3⟩ := keys_weights f h0 h1
  have g : 0 ≤ 1 - f := by linarith
  rw [w0, w1, w2, w3, abs_neg, abs_neg]
  refine ⟨abs_of_nonneg (by positivity), abs_of_nonneg (mul_nonneg g (by nlinarith)), abs_of_nonneg (mul_nonneg h0 (by nlinarith)), abs_of_nonneg (by positivity)⟩

variable {kn : Kern ℝ} {d : Nat} {E N : ℝ}

theorem Accuracy.norm (h : Accuracy kn d E N) (f : ℝ) (h0 : 0 ≤ f) (h1 : f < 1) : absSum kn f ≤ N := by
  cases h with
  | linear1 | linear2 => exact (absSum_linear f h0 h1).le
  | keys1 | keys2 | keys3 => exact absSum_keys f h0 h1

theorem Accuracy.pos (h : Accuracy kn d E N) : 0 ≤ E ∧ 1 ≤ N ∧ 0 < d := by
  cases h <;> norm_num

/-- The moments of the weights. -/
theorem Accuracy.moment (h : Accuracy kn d E N) (f : ℝ) (h0 : 0 ≤ f) (h1 : f < 1) (e : Nat) (he : e < d) :
    ∑ a ∈ Finset.range (2 * kn.support), kn.weight f a * ((a : ℝ) - ((kn.support : ℝ) - 1) - f) ^ e = if e = 0 then 1 else 0 := by
  have hl := linear_weight f h0 h1
  have hk := keys_weights f h0 h1
  cases h with
  | linear1 =>
    obtain ⟨w0, w1⟩ := hl
    have : e = 0 := by omega
    subst this
    simp only [show (linear : Kern ℝ).support = 1 from rfl, Nat.mul_one, Finset.sum_range_succ, Finset.sum_range_zero, w0, w1, if_true]
    push_cast
    ring
  | linear2 =>
    obtain ⟨w0, w1⟩ := hl
    have : e = 0 ∨ e = 1 := by omega
    rcases this with rfl | rfl <;>
    · simp only [show (linear : Kern ℝ).support = 1 from rfl, Nat.mul_one, Finset.sum_range_succ, Finset.sum_range_zero, w0, w1, if_true, one_ne_zero, if_false]
      push_cast
      ring
  | keys1 =>
    obtain ⟨w0, w1, w2, w3⟩ := hk
    have : e = 0 := by omega
    subst this
    simp only [show (keys (Real.sqrt 7)).support = 2 from rfl, show 2 * 2 = 4 from rfl, Finset.sum_range_succ, Finset.sum_range_zero, w0, w1, w2, w3, if_true]
    push_cast
    ring
  | keys2 =>
    obtain ⟨w0, w1, w2, w3⟩ := hk
    have : e = 0 ∨ e = 1 := by omega
    rcases this with rfl | rfl <;>
    · simp only [show (keys (Real.sqrt 7)).support = 2 from rfl, show 2 * 2 = 4 from rfl, Finset.sum_range_succ, Finset.sum_range_zero, w0, w1, w2, w3, if_true, one_ne_zero, if_false]
      push_cast
      ring
  | keys3 =>
    obtain ⟨w0, w1, w2, w3⟩ := hk
    have : e = 0 ∨ e = 1 ∨ e = 2 := by omega
    rcases this with rfl | rfl | rfl <;>
    · simp only [show (keys (Real.sqrt 7)).support = 2 from rfl, show 2 * 2 = 4 from rfl, Finset.sum_range_succ, Finset.sum_range_zero, w0, w1, w2, w3, if_true, one_ne_zero, OfNat.ofNat_ne_zero, if_false]
      push_cast
      ring

/-- The absolute moment of order `d`. -/
theorem Accuracy.abs (h : Accuracy kn d E N) (f : ℝ) (h0 : 0 ≤ f) (h1 : f < 1) :
    ∑ a ∈ Finset.range (2 * kn.support), |kn.weight f a| * |(a : ℝ) - ((kn.support : ℝ) - 1) - f| ^ d ≤ E * (d.factorial : ℝ) := by
  have hl := linear_weight f h0 h1
  have hk := keys_abs f h0 h1
  have g : 0 ≤ 1 - f := by linarith
  have q : f * (1 - f) ≤ 1 / 4 := by nlinarith [sq_nonneg (f - 1 / 2)]
  have q0 : 0 ≤ f * (1 - f) := mul_nonneg h0 g
  have u0 : |(((0 : ℕ) : ℝ) - (((2 : ℕ) : ℝ) - 1) - f)| = 1 + f := by push_cast; rw [abs_of_nonpos (by linarith)]; ring
  have u1 : |(((1 : ℕ) : ℝ) - (((2 : ℕ) : ℝ) - 1) - f)| = f := by push_cast; rw [abs_of_nonpos (by linarith)]; ring
  have u2 : |(((2 : ℕ) : ℝ) - (((2 : ℕ) : ℝ) - 1) - f)| = 1 - f := by push_cast; rw [abs_of_nonneg (by linarith)]; ring
  have u3 : |(((3 : ℕ) : ℝ) - (((2 : ℕ) : ℝ) - 1) - f)| = 2 - f := by push_cast; rw [abs_of_nonneg (by linarith)]; ring
  have v0 : |(((0 : ℕ) : ℝ) - (((1 : ℕ) : ℝ) - 1) - f)| = f := by push_cast; rw [abs_of_nonpos (by linarith)]; ring
  have v1 : |(((1 : ℕ) : ℝ) - (((1 : ℕ) : ℝ) - 1) - f)| = 1 - f := by push_cast; rw [abs_of_nonneg (by linarith)]; ring
  cases h with
  | linear1 =>
    obtain ⟨w0, w1⟩ := hl
    simp only [show (linear : Kern ℝ).support = 1 from rfl, Nat.mul_one, Finset.sum_range_succ, Finset.sum_range_zero]
    rw [v0, v1, w0, w1, abs_of_nonneg g, abs_of_nonneg h0]
    norm_num
    linarith
  | linear2 =>
    obtain ⟨w0, w1⟩ := hl
    simp only [show (linear : Kern ℝ).support = 1 from rfl, Nat.mul_one, Finset.sum_range_succ, Finset.sum_range_zero]
    rw [v0, v1, w0, w1, abs_of_nonneg g, abs_of_nonneg h0]
    norm_num [Nat.factorial]
    linarith
  | keys1 =>
    obtain ⟨w0, w1, w2, w3⟩ := hk
    simp only [show (keys (Real.sqrt 7)).support = 2 from rfl, show 2 * 2 = 4 from rfl, Finset.sum_range_succ, Finset.sum_range_zero]
    rw [u0, u1, u2, u3, w0, w1, w2, w3]
    have e : f * (1 - f) ^ 2 / 2 * (1 + f) ^ 1 + (1 - f) * (1 + f - 3 / 2 * f ^ 2) * f ^ 1 + f * (1 / 2 + 2 * f - 3 / 2 * f ^ 2) * (1 - f) ^ 1 + f ^ 2 * (1 - f) / 2 * (2 - f) ^ 1 =
        (f * (1 - f)) * (2 + 4 * (f * (1 - f))) := by ring
    rw [zero_add, e]
    norm_num
    generalize f * (1 - f) = s at *
    nlinarith
  | keys2 =>
    obtain ⟨w0, w1, w2, w3⟩ := hk
    simp only [show (keys (Real.sqrt 7)).support = 2 from rfl, show 2 * 2 = 4 from rfl, Finset.sum_range_succ, Finset.sum_range_zero]
    rw [u0, u1, u2, u3, w0, w1, w2, w3]
    have e : f * (1 - f) ^ 2 / 2 * (1 + f) ^ 2 + (1 - f) * (1 + f - 3 / 2 * f ^ 2) * f ^ 2 + f * (1 / 2 + 2 * f - 3 / 2 * f ^ 2) * (1 - f) ^ 2 + f ^ 2 * (1 - f) / 2 * (2 - f) ^ 2 =
        (f * (1 - f)) * (1 + 5 * (f * (1 - f))) := by ring
    rw [zero_add, e]
    norm_num [Nat.factorial]
    generalize f * (1 - f) = s at *
    nlinarith
  | keys3 =>
    obtain ⟨w0, w1, w2, w3⟩ := hk
    simp only [show (keys (Real.sqrt 7)).support = 2 from rfl, show 2 * 2 = 4 from rfl, Finset.sum_range_succ, Finset.sum_range_zero]
    rw [u0, u1, u2, u3, w0, w1, w2, w3]
    have e : f * (1 - f) ^ 2 / 2 * (1 + f) ^ 3 + (1 - f) * (1 + f - 3 / 2 * f ^ 2) * f ^ 3 + f * (1 / 2 + 2 * f - 3 / 2 * f ^ 2) * (1 - f) ^ 3 + f ^ 2 * (1 - f) / 2 * (2 - f) ^ 3 =
        (f * (1 - f)) * (1 + 6 * (f * (1 - f)) - 4 * (f * (1 - f)) ^ 2) := by ring
    rw [zero_add, e]
    norm_num [Nat.factorial]
    generalize f * (1 - f) = s at *
    nlinarith [mul_nonneg q0 (sub_nonneg.2 q), mul_nonneg (mul_nonneg q0 q0) (sub_nonneg.2 q), mul_nonneg (mul_nonneg q0 q0) q0]

/-- The grid points that the kernel uses. -/
theorem stencil_range (s : Nat) (x : ℝ) {a : Nat} (ha : a < 2 * s) : (⌊x⌋ : ℝ) - ((s : ℝ) - 1) ≤ ((⌊x⌋ - (s - 1 : Int) + a : Int) : ℝ) ∧ ((⌊x⌋ - (s - 1 : Int) + a : Int) : ℝ) ≤ ⌊x⌋ + s := by
  have h3 : (a : ℝ) + 1 ≤ 2 * s := by exact_mod_cast ha
  have h4 : (0 : ℝ) ≤ a := Nat.cast_nonneg a
  push_cast
  constructor <;> linarith

/-- It is sufficient that the box reaches `s` steps around the position. -/
theorem axisIn_of_margin {o st : ℝ} (hst : 0 < st) {s : Nat} {a b p : ℝ} (h : a ≤ p - s * st ∧ p + s * st ≤ b) : AxisIn o st s a b p := by
  have h1 := Int.floor_le ((p - o) / st)
  have h2 := Int.lt_floor_add_one ((p - o) / st)
  rw [le_div_iff₀ hst] at h1
  rw [div_lt_iff₀ hst] at h2
  constructor <;> nlinarith [h.1, h.2]

theorem Accuracy.support (h : Accuracy kn d E N) : 0 < kn.support := by cases h <;> decide

/-- Interpolation along one axis of samples of `f`. -/
theorem interp1_err (h : Accuracy kn d E N) {f : ℝ → ℝ} {a b M : ℝ} (hf : BoundedDeriv d f a b M) {o st x : ℝ} (hst : 0 < st) (ha : a ≤ o + ((⌊x⌋ : ℝ) - ((kn.support : ℝ) - 1)) * st) (hb : o + ((⌊x⌋ : ℝ) + kn.support) * st ≤ b) :
    |interp1 kn (fun i => f (o + i * st)) x - f (o + x * st)| ≤ E * (M * st ^ d) := by
  have hs : (1 : ℝ) ≤ kn.support := by exact_mod_cast h.support
  have h0 := Int.fract_nonneg x
  have h1 := Int.fract_lt_one x
  have hab : a < b := by nlinarith
  have f1 := mul_le_mul_of_nonneg_right (show (⌊x⌋ : ℝ) - ((kn.support : ℝ) - 1) ≤ x by linarith [Int.floor_le x]) hst.le
  have f2 := mul_le_mul_of_nonneg_right (show x ≤ (⌊x⌋ : ℝ) + kn.support by linarith [Int.lt_floor_add_one x]) hst.le
  have hx : o + x * st ∈ Icc a b := ⟨by linarith, by linarith⟩
  set X := o + x * st with hX
  set D := fun i => iteratedDerivWithin i f (Icc a b) X with hD
  have hpt : ∀ c ∈ Finset.range (2 * kn.support), ((⌊x⌋ - (kn.support - 1 : Int) + c : Int) : ℝ) = x + ((c : ℝ) - ((kn.support : ℝ) - 1) - Int.fract x) := by
    intro c _
    have := Int.floor_add_fract x
    push_cast
    linarith
  have M0 : 0 ≤ M := (abs_nonneg _).trans (hf.2 X hx)
  have herr : ∀ c ∈ Finset.range (2 * kn.support), |f (o + ((⌊x⌋ - (kn.support - 1 : Int) + c : Int) : ℝ) * st) -
      ∑ i ∈ Finset.range d, D i * (((c : ℝ) - ((kn.support : ℝ) - 1) - Int.fract x) * st) ^ i / (i.factorial : ℝ)| ≤ M * (|(c : ℝ) - ((kn.support : ℝ) - 1) - Int.fract x| * st) ^ d / (d.factorial : ℝ) := by
    intro c hc
    obtain ⟨r1, r2⟩ := stencil_range kn.support x (Finset.mem_range.1 hc)
    have g1 := mul_le_mul_of_nonneg_right r1 hst.le
    have g2 := mul_le_mul_of_nonneg_right r2 hst.le
    have hy : o + ((⌊x⌋ - (kn.support - 1 : Int) + c : Int) : ℝ) * st ∈ Icc a b := ⟨by linarith, by linarith⟩
    have := taylor_bound hab hf.1 hf.2 hx hy
    have e : o + ((⌊x⌋ - (kn.support - 1 : Int) + c : Int) : ℝ) * st - X = ((c : ℝ) - ((kn.support : ℝ) - 1) - Int.fract x) * st := by
      rw [hpt c hc, hX]; ring
    rw [e, abs_mul, abs_of_pos hst] at this
    exact this
  have hpoly : ∑ c ∈ Finset.range (2 * kn.support), kn.weight (Int.fract x) c * ∑ i ∈ Finset.range d, D i * (((c : ℝ) - ((kn.support : ℝ) - 1) - Int.fract x) * st) ^ i / (i.factorial : ℝ) = f X := by
    simp only [Finset.mul_sum]
    rw [Finset.sum_comm]
    have : ∀ i ∈ Finset.range d, ∑ c ∈ Finset.range (2 * kn.support), kn.weight (Int.fract x) c * (D i * (((c : ℝ) - ((kn.support : ℝ) - 1) - Int.fract x) * st) ^ i / (i.factorial : ℝ)) = if i = 0 then f X else 0 := by
      intro i hi
      have hm := h.moment (Int.fract x) h0 h1 i (Finset.mem_range.1 hi)
      have : ∀ c ∈ Finset.range (2 * kn.support), kn.weight (Int.fract x) c * (D i * (((c : ℝ) - ((kn.support : ℝ) - 1) - Int.fract x) * st) ^ i / (i.factorial : ℝ)) =
          (kn.weight (Int.fract x) c * ((c : ℝ) - ((kn.support : ℝ) - 1) - Int.fract x) ^ i) * (D i * st ^ i / (i.factorial : ℝ)) := by
        intro c _
        rw [mul_pow]; ring
      rw [Finset.sum_congr rfl this, ← Finset.sum_mul, hm]
      by_cases hi0 : i = 0
      · subst hi0
        simp [hD]
      · rw [if_neg hi0, if_neg hi0, zero_mul]
    rw [Finset.sum_congr rfl this, Finset.sum_ite_eq' (Finset.range d) 0, if_pos (Finset.mem_range.2 h.pos.2.2)]
  rw [← hpoly]
  unfold interp1
  rw [← Finset.sum_sub_distrib]
  refine (Finset.abs_sum_le_sum_abs _ _).trans ?_
  have hterm : ∀ c ∈ Finset.range (2 * kn.support), |kn.weight (Int.fract x) c * f (o + ((⌊x⌋ - (kn.support - 1 : Int) + c : Int) : ℝ) * st) -
      kn.weight (Int.fract x) c * ∑ i ∈ Finset.range d, D i * (((c : ℝ) - ((kn.support : ℝ) - 1) - Int.fract x) * st) ^ i / (i.factorial : ℝ)| ≤
      (|kn.weight (Int.fract x) c| * |(c : ℝ) - ((kn.support : ℝ) - 1) - Int.fract x| ^ d) * (M * st ^ d / (d.factorial : ℝ)) := by
    intro c hc
    rw [← mul_sub, abs_mul]
    refine (mul_le_mul_of_nonneg_left (herr c hc) (abs_nonneg _)).trans (le_of_eq ?_)
    rw [mul_pow]; ring
  refine (Finset.sum_le_sum hterm).trans ?_
  rw [← Finset.sum_mul]
  have hd : (0 : ℝ) < (d.factorial : ℝ) := by exact_mod_cast d.factorial_pos
  refine (mul_le_mul_of_nonneg_right (h.abs (Int.fract x) h0 h1) (by positivity)).trans (le_of_eq ?_)
  field_simp

/-- Changes of the samples at the points in use. -/
theorem interp1_near (h : Accuracy kn d E N) {g g' : Int → ℝ} {ε : ℝ} (x : ℝ)
    (hg : ∀ c < 2 * kn.support, |g (⌊x⌋ - (kn.support - 1 : Int) + c) - g' (⌊x⌋ - (kn.support - 1 : Int) + c)| ≤ ε) : |interp1 kn g x - interp1 kn g' x| ≤ N * ε := by
  unfold interp1
  rw [← Finset.sum_sub_distrib]
  refine (Finset.abs_sum_le_sum_abs _ _).trans ?_
  have e0 : 0 ≤ ε := (abs_nonneg _).trans (hg 0 (by have := h.support; omega))
  have : ∀ c ∈ Finset.range (2 * kn.support), |kn.weight (Int.fract x) c * g (⌊x⌋ - (kn.support - 1 : Int) + c) - kn.weight (Int.fract x) c * g' (⌊x⌋ - (kn.support - 1 : Int) + c)| ≤ |kn.weight (Int.fract x) c| * ε := by
    intro c hc
    rw [← mul_sub, abs_mul]
    exact mul_le_mul_of_nonneg_left (hg c (Finset.mem_range.1 hc)) (abs_nonneg _)
  refine (Finset.sum_le_sum this).trans ?_
  rw [← Finset.sum_mul]
  exact mul_le_mul_of_nonneg_right (h.norm _ (Int.fract_nonneg x) (Int.fract_lt_one x)) e0

theorem abs_sub_le3 {a b c e1 e2 : ℝ} (h1 : |a - b| ≤ e1) (h2 : |b - c| ≤ e2) : |a - c| ≤ e1 + e2 := (abs_sub_le a b c).trans (add_le_add h1 h2)

/-- **C87.** The interpolated Green's function differs from the field `F` of which it holds samples (with errors up to `δ`, such as the rounding to the stored format) by at most
    `E (Mr dr^d + N Mz dz^d + N² Mt dt^d) + N³ δ`, if the derivatives of order `d` of the field along the axes are at most `Mr`, `Mz`, `Mt` around the point. With the linear kernel this is of second order in the
    steps of the grid, with the cubic kernel of third order. -/
theorem C87_interpolation (h : Accuracy kn d E N) (G : GMeta ℝ) (hG : 0 < G.dr ∧ 0 < G.dz ∧ 0 < G.dt) (F : ℝ → ℝ → ℝ → ℝ) (A : Nat → Int → Int → Int → ℝ) (c : Nat) (B : Region) {δ Mr Mz Mt : ℝ}
    (hA : Sampled G F (A c) B δ) (hF : SmoothField d F B Mr Mz Mt) (r z t : ℝ) (hB : Around G kn.support B r z t) : |greenAt G kn A c r z t - F r z t| ≤ interpErr G d E N Mr Mz Mt δ := by
  obtain ⟨hr, hz, ht⟩ := hG
  have hs : (1 : ℝ) ≤ kn.support := by exact_mod_cast h.support
  have key : ∀ {o st p a b : ℝ}, 0 < st → AxisIn o st kn.support a b p → (o + (p - o) / st * st = p) ∧ p ∈ Icc a b ∧ ∀ e < 2 * kn.support, o + ((⌊(p - o) / st⌋ - (kn.support - 1 : Int) + e : Int) : ℝ) * st ∈ Icc a b := by
    intro o st p a b hst ⟨h1, h2⟩
    have e1 : (p - o) / st * st = p - o := by field_simp
    have f1 := mul_le_mul_of_nonneg_right (show (⌊(p - o) / st⌋ : ℝ) - ((kn.support : ℝ) - 1) ≤ (p - o) / st by linarith [Int.floor_le ((p - o) / st)]) hst.le
    have f2 := mul_le_mul_of_nonneg_right (show (p - o) / st ≤ (⌊(p - o) / st⌋ : ℝ) + kn.support by linarith [Int.lt_floor_add_one ((p - o) / st)]) hst.le
    refine ⟨by linarith, ⟨by linarith, by linarith⟩, fun e he => ?_⟩
    obtain ⟨r1, r2⟩ := stencil_range kn.support ((p - o) / st) he
    have m1 := mul_le_mul_of_nonneg_right r1 hst.le
    have m2 := mul_le_mul_of_nonneg_right r2 hst.le
    exact ⟨by linarith, by linarith⟩
  obtain ⟨r1, -, r3⟩ := key (o := G.r0) hr hB.r
  obtain ⟨z1, hz', z3⟩ := key (o := G.z0) hz hB.z
  obtain ⟨t1, ht', t3⟩ := key (o := G.t0) ht hB.t
  unfold greenAt
  rw [interpAt_eq]
  unfold GMeta.x GMeta.y GMeta.t interpErr
  set x := (r - G.r0) / G.dr
  set y := (z - G.z0) / G.dz
  set w := (t - G.t0) / G.dt
  -- along time
  have et : ∀ a < 2 * kn.support, ∀ b < 2 * kn.support, |interp1 kn (fun k => A c (⌊x⌋ - (kn.support - 1 : Int) + a) (⌊y⌋ - (kn.support - 1 : Int) + b) k) w -
      F (G.r0 + ((⌊x⌋ - (kn.support - 1 : Int) + a : Int) : ℝ) * G.dr) (G.z0 + ((⌊y⌋ - (kn.support - 1 : Int) + b : Int) : ℝ) * G.dz) t| ≤ N * δ + E * (Mt * G.dt ^ d) := by
    intro a ha b hb
    have f1 := interp1_near h w (g := fun k => A c (⌊x⌋ - (kn.support - 1 : Int) + a) (⌊y⌋ - (kn.support - 1 : Int) + b) k)
      (g' := fun k => F (G.r0 + ((⌊x⌋ - (kn.support - 1 : Int) + a : Int) : ℝ) * G.dr) (G.z0 + ((⌊y⌋ - (kn.support - 1 : Int) + b : Int) : ℝ) * G.dz) (G.t0 + k * G.dt)) (ε := δ)
      (fun e he => hA _ _ _ (r3 a ha) (z3 b hb) (t3 e he))
    have f2 := interp1_err h (hF.t _ (r3 a ha) _ (z3 b hb)) ht hB.t.1 hB.t.2
    rw [t1] at f2
    exact abs_sub_le3 f1 f2
  -- along the height
  have ez : ∀ a < 2 * kn.support, |interp1 kn (fun j => interp1 kn (fun k => A c (⌊x⌋ - (kn.support - 1 : Int) + a) j k) w) y -
      F (G.r0 + ((⌊x⌋ - (kn.support - 1 : Int) + a : Int) : ℝ) * G.dr) z t| ≤ N * (N * δ + E * (Mt * G.dt ^ d)) + E * (Mz * G.dz ^ d) := by
    intro a ha
    have f1 := interp1_near h y (g := fun j => interp1 kn (fun k => A c (⌊x⌋ - (kn.support - 1 : Int) + a) j k) w)
      (g' := fun j => F (G.r0 + ((⌊x⌋ - (kn.support - 1 : Int) + a : Int) : ℝ) * G.dr) (G.z0 + j * G.dz) t) (fun b hb => et a ha b hb)
    have f2 := interp1_err h (hF.z _ (r3 a ha) _ ht') hz hB.z.1 hB.z.2
    rw [z1] at f2
    exact abs_sub_le3 f1 f2
  -- along the radius
  have f1 := interp1_near h x (g := fun i => interp1 kn (fun j => interp1 kn (fun k => A c i j k) w) y) (g' := fun i => F (G.r0 + i * G.dr) z t) (fun a ha => ez a ha)
  have f2 := interp1_err h (hF.r _ hz' _ ht') hr hB.r.1 hB.r.2
  rw [r1] at f2
  refine (abs_sub_le3 f1 f2).trans (le_of_eq ?_)
  ring

end Verif.Green
