import Verif.Green.TrackFSpec
/-
C85: the loops of `apply_accumulate` in floating-point arithmetic.
-/
namespace Verif.Green
open Verif Verif.ND Verif.Dist

set_option linter.unusedSectionVars false

variable {σ : Type}

/-! ### Rounded operations -/

variable {A : Arith} {u : ℝ}

theorem eps_nonneg (hu : 0 ≤ u) (k : Nat) : 0 ≤ eps u k := by unfold eps; linarith [one_le_pow hu k]

theorem Near.minus {k : Nat} {a' a X b' b Y : ℝ} (ha : Near u k a' a X) (hb : Near u k b' b Y) : Near u k (a' - b') (a - b) (X + Y) := by
  have hb' : Near u k (-b') (-b) Y := ⟨by rw [show -b' - -b = -(b' - b) by ring, abs_neg]; exact hb.1, by rw [abs_neg]; exact hb.2⟩
  have := ha.plus hb'
  rwa [← sub_eq_add_neg, ← sub_eq_add_neg] at this

theorem Near.subF (hA : A.Rounds u) {k : Nat} {a' a X b' b Y : ℝ} (ha : Near u k a' a X) (hb : Near u k b' b Y) : Near u (k + 1) (A.sub a' b') (a - b) (X + Y) :=
  (ha.minus hb).round hA.nonneg (hA.sub _ _)

theorem Near.over {k : Nat} {a' a X d : ℝ} (hd : 0 < d) (ha : Near u k a' a X) : Near u k (a' / d) (a / d) (X / d) := by
  refine ⟨?_, ?_⟩
  · rw [← sub_div, abs_div, abs_of_pos hd, ← mul_div_assoc]
    exact div_le_div_of_nonneg_right ha.1 hd.le
  · rw [abs_div, abs_of_pos hd]
    exact div_le_div_of_nonneg_right ha.2 hd.le

theorem Near.divF (hA : A.Rounds u) {k : Nat} {a' a X d : ℝ} (hd : 0 < d) (ha : Near u k a' a X) : Near u (k + 1) (A.div a' d) (a / d) (X / d) :=
  (ha.over hd).round hA.nonneg (hA.div _ _)

/-- The inverse of a number that is known up to `k` roundings. -/
theorem Near.inv (hu : 0 ≤ u) {k : Nat} (hk : (1 + u) ^ k ≤ 3 / 2) {d' d : ℝ} (hd : 0 < d) (h : Near u k d' d d) : 0 < d' ∧ Near u (2 * k) d'⁻¹ d⁻¹ d⁻¹ := by
  have h1 := h.1
  set s := (1 + u) ^ k with hs
  have s1 : 1 ≤ s := one_le_pow hu k
  rw [abs_le] at h1
  have lo : (2 - s) * d ≤ d' := by linarith [h1.1]
  have hi : d' ≤ s * d := by linarith [h1.2]
  have p2 : 0 < 2 - s := by linarith
  have d0 : 0 < d' := lt_of_lt_of_le (mul_pos p2 hd) lo
  refine ⟨d0, ?_, by rw [abs_of_pos (inv_pos.2 hd)]⟩
  rw [show (1 + u) ^ (2 * k) = s ^ 2 by rw [hs, ← pow_mul, mul_comm]]
  rw [abs_le]
  have key : ∀ {a : ℝ}, 0 < d → d⁻¹ * d = 1 := fun hd => inv_mul_cancel₀ hd.ne'
  constructor
  · have : (2 - s ^ 2) * d⁻¹ ≤ d'⁻¹ := by
      rw [← div_eq_mul_inv, div_le_iff₀ hd, ← div_eq_inv_mul, le_div_iff₀ d0]
      by_cases h2 : 0 ≤ 2 - s ^ 2
      · have : (2 - s ^ 2) * d' ≤ (2 - s ^ 2) * (s * d) := mul_le_mul_of_nonneg_left hi h2
        have : (2 - s ^ 2) * s ≤ 1 := by nlinarith [sq_nonneg (s - 1)]
        nlinarith
      · nlinarith
    linarith
  · have : d'⁻¹ ≤ s ^ 2 * d⁻¹ := by
      rw [← div_eq_mul_inv, le_div_iff₀ hd, ← div_eq_inv_mul, div_le_iff₀ d0]
      have : s ^ 2 * ((2 - s) * d) ≤ s ^ 2 * d' := mul_le_mul_of_nonneg_left lo (by positivity)
      have : 1 ≤ s ^ 2 * (2 - s) := by nlinarith [mul_nonneg (sub_nonneg.2 s1) (by nlinarith : 0 ≤ 1 + s - s ^ 2)]
      nlinarith
    linarith

theorem Near.quotF (hA : A.Rounds u) {k l : Nat} (hl : (1 + u) ^ l ≤ 3 / 2) {a' a X d' d : ℝ} (hd : 0 < d) (ha : Near u k a' a X) (h : Near u l d' d d) :
    Near u (k + 2 * l + 1) (A.div a' d') (a / d) (X / d) := by
  have := (ha.prod (h.inv hA.nonneg hl hd).2).round hA.nonneg (r := A.div a' d') (by rw [← div_eq_mul_inv]; exact hA.div _ _)
  rwa [← div_eq_mul_inv, ← div_eq_mul_inv] at this

theorem Near.neg {k : Nat} {a' a X : ℝ} (h : Near u k a' a X) : Near u k (-a') (-a) X :=
  ⟨by rw [show -a' - -a = -(a' - a) by ring, abs_neg]; exact h.1, by rw [abs_neg]; exact h.2⟩

/-- The square root of a number that is known up to `k` roundings. -/
theorem Near.root {k : Nat} {a' a : ℝ} (ha : 0 ≤ a) (ha' : 0 ≤ a') (h : Near u k a' a a) : Near u k (Real.sqrt a') (Real.sqrt a) (Real.sqrt a) := by
  refine ⟨?_, by rw [abs_of_nonneg (Real.sqrt_nonneg a)]⟩
  rcases ha.eq_or_lt with h0 | h0
  · have h1 := h.1
    rw [← h0, mul_zero, sub_zero] at h1
    have : a' = 0 := abs_eq_zero.1 (le_antisymm h1 (abs_nonneg _))
    rw [this, ← h0]; simp
  · have p := Real.sqrt_pos.2 h0
    have p' := Real.sqrt_nonneg a'
    have e : (Real.sqrt a' - Real.sqrt a) * (Real.sqrt a' + Real.sqrt a) = a' - a := by
      have := Real.mul_self_sqrt ha
      have := Real.mul_self_sqrt ha'
      nlinarith
    have h1 := h.1
    rw [← e, abs_mul, abs_of_pos (by linarith : 0 < Real.sqrt a' + Real.sqrt a)] at h1
    have m := Real.mul_self_sqrt ha
    have h2 : |Real.sqrt a' - Real.sqrt a| * Real.sqrt a ≤ ((1 + u) ^ k - 1) * Real.sqrt a * Real.sqrt a := by
      calc |Real.sqrt a' - Real.sqrt a| * Real.sqrt a ≤ |Real.sqrt a' - Real.sqrt a| * (Real.sqrt a' + Real.sqrt a) := mul_le_mul_of_nonneg_left (by linarith) (abs_nonneg _)
        _ ≤ _ := by rw [mul_assoc, m]; exact h1
    exact le_of_mul_le_mul_right h2 p

/-! ### What is computed once -/

/-- The number of intervals the program uses. -/
noncomputable def intervalsF (A : Arith) (seg : Segment ℝ) : Nat := ⌈A.div (A.sub seg.t1 seg.t0) 1⌉.toNat

/-- The track the program computes. -/
structure TrackNear (A : Arith) (u : ℝ) (seg : Segment ℝ) (N : Nat) (T : Track ℝ) : Prop where
  pos : 0 < N
  num : T.num = N + 1
  same : T.seg = seg
  step : Near u 2 T.step ((seg.t1 - seg.t0) / N) ((seg.t1 - seg.t0) / N)
  dx : Near u 7 T.dpos.x ((seg.p1.x - seg.p0.x) / N) (|seg.p1.x - seg.p0.x| / N)
  dy : Near u 7 T.dpos.y ((seg.p1.y - seg.p0.y) / N) (|seg.p1.y - seg.p0.y| / N)
  dz : Near u 7 T.dpos.z ((seg.p1.z - seg.p0.z) / N) (|seg.p1.z - seg.p0.z| / N)
  sx : Near u 5 T.src.x seg.current.x |seg.current.x|
  sy : Near u 5 T.src.y seg.current.y |seg.current.y|
  sz : Near u 5 T.src.z seg.current.z |seg.current.z|

theorem Near.abs_self {k : Nat} {a' a X : ℝ} (h : Near u k a' a X) (e : X = |a|) : Near u k a' a |a| := e ▸ h

theorem intervals_bounds (hA : A.Rounds u) (hu : u ≤ 1 / 8) {seg : Segment ℝ} (hl : seg.t0 < seg.t1) :
    0 < intervalsF A seg ∧ (intervalsF A seg : Int) = ⌈A.div (A.sub seg.t1 seg.t0) 1⌉ ∧ |A.div (A.sub seg.t1 seg.t0) 1 - (seg.t1 - seg.t0)| ≤ eps u 2 * (seg.t1 - seg.t0) := by
  have hu0 := hA.nonneg
  have hD : 0 < seg.t1 - seg.t0 := by linarith
  have h1 := (round_exact hu0 (hA.sub seg.t1 seg.t0)).divF hA one_pos
  rw [div_one, div_one, abs_of_pos hD] at h1
  have h2 := h1.1
  have hs : (1 + u) ^ (1 + 1) ≤ (1 + 1 / 8) ^ (1 + 1) := pow_le_pow_left₀ (by linarith) (by linarith) _
  norm_num at hs
  have hpos : 0 < A.div (A.sub seg.t1 seg.t0) 1 := by
    rw [abs_le] at h2
    have := h2.1
    norm_num at this
    nlinarith [mul_le_mul_of_nonneg_right hs hD.le]
  have hc : 0 < ⌈A.div (A.sub seg.t1 seg.t0) 1⌉ := Int.ceil_pos.2 hpos
  unfold intervalsF
  exact ⟨by omega, by omega, h2⟩

theorem trackOfF_ok (hA : A.Rounds u) (hu : u ≤ 1 / 8) {B : Nat} (hB : A.Counts B) (hBb : B < 2 ^ 61) {seg : Segment ℝ} (hl : seg.t0 < seg.t1) (hn : (1 + u) ^ 2 * (seg.t1 - seg.t0) ≤ B) :
    intervalsF A seg ≤ B ∧ ∃ T, trackOfF A seg = .ok (some T) ∧ TrackNear A u seg (intervalsF A seg) T := by
  have hU : U64 = 2 ^ 64 := rfl
  have hu0 := hA.nonneg
  have hD : 0 < seg.t1 - seg.t0 := by linarith
  obtain ⟨n0, n1, n2⟩ := intervals_bounds hA hu hl
  have nB : intervalsF A seg ≤ B := by
    have : ⌈A.div (A.sub seg.t1 seg.t0) 1⌉ ≤ (B : Int) := Int.ceil_le.2 (by
      have := (abs_le.1 n2).2
      unfold eps at this
      push_cast
      nlinarith)
    omega
  refine ⟨nB, ?_⟩
  set N := intervalsF A seg with hN
  have hNr : (0 : ℝ) < N := by exact_mod_cast n0
  have d1 : Near u 1 (A.sub seg.t1 seg.t0) (seg.t1 - seg.t0) (seg.t1 - seg.t0) := by
    have := round_exact hu0 (hA.sub seg.t1 seg.t0)
    rwa [abs_of_pos hD] at this
  have h32 : (1 + u) ^ 1 ≤ 3 / 2 := by rw [pow_one]; linarith
  have vel : ∀ a b : ℝ, Near u 4 (A.div (A.sub a b) (A.sub seg.t1 seg.t0)) ((a - b) / (seg.t1 - seg.t0)) (|a - b| / (seg.t1 - seg.t0)) := fun a b =>
    (round_exact hu0 (hA.sub a b)).quotF hA h32 hD d1
  have step : Near u 2 (A.div (A.sub seg.t1 seg.t0) N) ((seg.t1 - seg.t0) / N) ((seg.t1 - seg.t0) / N) := d1.divF hA hNr
  have dp : ∀ a b : ℝ, Near u 7 (A.mul (A.div (A.sub a b) (A.sub seg.t1 seg.t0)) (A.div (A.sub seg.t1 seg.t0) N)) ((a - b) / N) (|a - b| / N) := by
    intro a b
    have := (vel a b).mul hA step
    have e : ∀ c : ℝ, c / (seg.t1 - seg.t0) * ((seg.t1 - seg.t0) / N) = c / N := fun c => by field_simp
    rwa [e, e] at this
  have sr : ∀ a b : ℝ, Near u 5 (A.mul (A.div (A.sub a b) (A.sub seg.t1 seg.t0)) seg.charge) ((a - b) / (seg.t1 - seg.t0) * seg.charge) |(a - b) / (seg.t1 - seg.t0) * seg.charge| := by
    intro a b
    have := (vel a b).mul hA (Near.refl hu0 0 seg.charge)
    rwa [abs_mul, abs_div, abs_of_pos hD]
  refine ⟨⟨N + 1, A.div (A.sub seg.t1 seg.t0) N, ⟨A.mul (A.div (A.sub seg.p1.x seg.p0.x) (A.sub seg.t1 seg.t0)) (A.div (A.sub seg.t1 seg.t0) N),
      A.mul (A.div (A.sub seg.p1.y seg.p0.y) (A.sub seg.t1 seg.t0)) (A.div (A.sub seg.t1 seg.t0) N), A.mul (A.div (A.sub seg.p1.z seg.p0.z) (A.sub seg.t1 seg.t0)) (A.div (A.sub seg.t1 seg.t0) N)⟩,
    ⟨A.mul (A.div (A.sub seg.p1.x seg.p0.x) (A.sub seg.t1 seg.t0)) seg.charge, A.mul (A.div (A.sub seg.p1.y seg.p0.y) (A.sub seg.t1 seg.t0)) seg.charge,
      A.mul (A.div (A.sub seg.p1.z seg.p0.z) (A.sub seg.t1 seg.t0)) seg.charge⟩, seg⟩, ?_, ?_⟩
  · unfold trackOfF
    simp only
    rw [toSize_ok (by omega) (by omega)]
    simp only [Res.ok_bind]
    rw [show ⌈A.div (A.sub seg.t1 seg.t0) 1⌉.toNat = N from rfl, if_neg (by omega), wadd_eq (by omega), hB _ nB]
  · exact ⟨n0, rfl, rfl, step, dp _ _, dp _ _, dp _ _, sr _ _, sr _ _, sr _ _⟩


/-! ### One integration point -/

theorem place_near (hA : A.Rounds u) {B : Nat} (hB : A.Counts B) {N p : Nat} (hN : 0 < N) (hp : p ≤ N) (hpB : p ≤ B) {a b d : ℝ} (h : Near u 7 d ((b - a) / N) (|b - a| / N)) :
    |A.mulAdd (A.ofNat p) d a - (a + p / N * (b - a))| ≤ eps u 9 * (|a| + |b - a|) := by
  have hNr : (0 : ℝ) < N := by exact_mod_cast hN
  have hpr : (p : ℝ) ≤ N := by exact_mod_cast hp
  have h1 := (Near.refl hA.nonneg 0 (p : ℝ)).mulAdd hA h (Near.refl hA.nonneg 8 a) (by norm_num)
  rw [hB p hpB, show a + (p : ℝ) / N * (b - a) = a + p * ((b - a) / N) by ring]
  refine h1.1.trans (mul_le_mul_of_nonneg_left ?_ (eps_nonneg hA.nonneg 9))
  have : |(p : ℝ)| * (|b - a| / N) ≤ |b - a| := by
    rw [abs_of_nonneg (Nat.cast_nonneg p), mul_div_assoc', div_le_iff₀ hNr, mul_comm]
    exact mul_le_mul_of_nonneg_left hpr (abs_nonneg _)
  linarith

theorem moment_near (hA : A.Rounds u) {B : Nat} (hB : A.Counts B) {seg : Segment ℝ} (hl : seg.t0 < seg.t1) {N p : Nat} {T : Track ℝ} (hT : TrackNear A u seg N T) (hp : p ≤ N) (hpB : p ≤ B) :
    Near u 4 (timeF A T p) (seg.moment (p / N)) (|seg.t0| + (seg.t1 - seg.t0)) := by
  have hNr : (0 : ℝ) < N := by exact_mod_cast hT.pos
  have hpr : (p : ℝ) ≤ N := by exact_mod_cast hp
  have h1 := (Near.refl hA.nonneg 0 (p : ℝ)).mulAdd hA hT.step (Near.refl hA.nonneg 3 seg.t0) (by norm_num)
  unfold timeF Segment.moment
  rw [hB p hpB, hT.same, show seg.t0 + (p : ℝ) / N * (seg.t1 - seg.t0) = seg.t0 + p * ((seg.t1 - seg.t0) / N) by ring]
  refine h1.mono hA.nonneg le_rfl ?_
  have : |(p : ℝ)| * ((seg.t1 - seg.t0) / N) ≤ seg.t1 - seg.t0 := by
    rw [abs_of_nonneg (Nat.cast_nonneg p), mul_div_assoc', div_le_iff₀ hNr, mul_comm]
    exact mul_le_mul_of_nonneg_left hpr (by linarith)
  linarith

/-- The distance from the axis. -/
theorem rho_near (hA : A.Rounds u) (hu : u ≤ 1 / 8) {sq : ℝ → ℝ} (hsq : ∀ a, 0 ≤ a → |sq a - Real.sqrt a| ≤ u * Real.sqrt a) (q : XYZ ℝ) :
    Near u 3 (sq (A.mulAdd q.y q.y (A.mul q.x q.x))) (rho q) (rho q) := by
  have hu0 := hA.nonneg
  have h1 := (Near.refl hu0 0 q.y).mulAdd hA (Near.refl hu0 0 q.y) ((Near.refl hu0 0 q.x).mul hA (Near.refl hu0 0 q.x)) (by norm_num)
  have e : ∀ a : ℝ, |a| * |a| = a * a := fun a => abs_mul_abs_self a
  rw [e, e, show q.x * q.x + q.y * q.y = q.x ^ 2 + q.y ^ 2 by ring] at h1
  have a0 : 0 ≤ q.x ^ 2 + q.y ^ 2 := by positivity
  have a1 : 0 ≤ A.mulAdd q.y q.y (A.mul q.x q.x) := by
    have h2 := (abs_le.1 h1.1).1
    have hs : (1 + u) ^ 2 ≤ (1 + 1 / 8) ^ 2 := pow_le_pow_left₀ (by linarith) (by linarith) _
    norm_num at hs h2
    nlinarith [mul_le_mul_of_nonneg_right hs a0]
  have h3 := (Near.root a0 a1 h1).round hu0 (r := sq (A.mulAdd q.y q.y (A.mul q.x q.x))) (by
    rw [abs_of_nonneg (Real.sqrt_nonneg _)]
    exact hsq _ a1)
  exact h3

theorem pow_three_le (hu0 : 0 ≤ u) (hu : u ≤ 1 / 8) : (1 + u) ^ 3 ≤ 3 / 2 := by
  have hs : (1 + u) ^ 3 ≤ (1 + 1 / 8) ^ 3 := pow_le_pow_left₀ (by linarith) (by linarith) _
  norm_num at hs
  linarith

/-- The radial component of the source. -/
theorem radial_near (hA : A.Rounds u) (hu : u ≤ 1 / 8) {sq : ℝ → ℝ} (hsq : ∀ a, 0 ≤ a → |sq a - Real.sqrt a| ≤ u * Real.sqrt a) (q : XYZ ℝ) {f f' : XYZ ℝ}
    (hx : Near u 5 f'.x f.x |f.x|) (hy : Near u 5 f'.y f.y |f.y|) : Near u 14 ((fieldCylF A sq f' q).getD 0 0) (radial f q) (radialMag f q) := by
  have hu0 := hA.nonneg
  have hr := rho_near hA hu hsq q
  have hr0 : 0 ≤ rho q := Real.sqrt_nonneg _
  set r := sq (A.mulAdd q.y q.y (A.mul q.x q.x)) with hrdef
  have dir : ∀ a : ℝ, Near u 7 (if 0 < r then A.div a r else 0) (a / rho q) |a / rho q| := by
    intro a
    rcases hr0.eq_or_lt with h0 | h0
    · have : r = 0 := by
        have := hr.1
        rw [← h0, mul_zero, sub_zero] at this
        exact abs_eq_zero.1 (le_antisymm this (abs_nonneg _))
      rw [this, if_neg (lt_irrefl _), ← h0, div_zero, abs_zero]
      have := Near.refl hu0 7 (0 : ℝ)
      rwa [abs_zero] at this
    · rw [if_pos (hr.inv hu0 (pow_three_le hu0 hu) h0).1, abs_div, abs_of_pos h0]
      exact (Near.refl hu0 0 a).quotF hA (pow_three_le hu0 hu) h0 hr
  have h1 := hy.mulAdd hA (dir q.y) (hx.mul hA (dir q.x)) (by norm_num)
  rw [← abs_mul, ← abs_mul] at h1
  exact h1

/-- From a coordinate to an index. -/
theorem index_near (hA : A.Rounds u) {k : Nat} {c' c X c0 d : ℝ} (hd : 0 < d) (h : Near u k c' c X) : Near u (k + 2) (indexF A c' c0 d) ((c - c0) / d) ((X + |c0|) / d) :=
  (h.subF hA (Near.refl hA.nonneg k c0)).divF hA hd

/-- The first sample after integration point `p`, up to roundings. -/
theorem causalF_ok (hA : A.Rounds u) {S : Setup σ ℝ} {seg : Segment ℝ} {lam tp : ℝ} (hs : 0 < S.tsamp) (ht : Near u 4 tp (seg.moment lam) (|seg.t0| + (seg.t1 - seg.t0)))
    (hint : (1 + u) ^ 6 * (|seg.t0| + (seg.t1 - seg.t0) + |S.tsig|) ≤ (2 ^ 31 - 1) * S.tsamp) :
    ∃ c, causalIndF A tp S.tsig S.tsamp = .ok c ∧ (∀ k, c ≤ k → -slack u S seg ≤ lag S seg lam k) ∧ ∀ k, k < c → lag S seg lam k ≤ slack u S seg := by
  have h := index_near (c0 := S.tsig) hA hs ht
  unfold indexF at h
  set g := A.div (A.sub tp S.tsig) S.tsamp with hg
  have hm := h.mag
  rw [← mul_div_assoc] at hm
  have hm' : |g| ≤ 2 ^ 31 - 1 := hm.trans ((div_le_iff₀ hs).2 hint)
  rw [abs_le] at hm'
  have i1 : -2 ^ 31 ≤ ⌈g⌉ := by
    have : ((-(2 ^ 31 : Int) + 1 : Int) : ℝ) ≤ ⌈g⌉ := le_trans (by push_cast; linarith [hm'.1]) (Int.le_ceil g)
    have := Int.cast_le.1 this
    omega
  have i2 : ⌈g⌉ < 2 ^ 31 := by
    have : ⌈g⌉ ≤ (2 ^ 31 - 1 : Int) := Int.ceil_le.2 (by push_cast; linarith [hm'.2])
    omega
  have h1 : |g * S.tsamp - (seg.moment lam - S.tsig)| ≤ slack u S seg := by
    have := mul_le_mul_of_nonneg_right h.1 hs.le
    rw [← abs_of_pos hs, ← abs_mul, abs_of_pos hs, sub_mul, div_mul_cancel₀ _ hs.ne', mul_assoc, div_mul_cancel₀ _ hs.ne'] at this
    exact this
  rw [abs_le] at h1
  refine ⟨(max 0 ⌈g⌉).toNat, ?_, fun k hk => ?_, fun k hk => ?_⟩
  · unfold causalIndF toInt32
    rw [if_neg hs.ne', if_pos ⟨i1, i2⟩]; rfl
  · have : g ≤ k := by
      have h2 : ⌈g⌉ ≤ (k : Int) := by omega
      have := Int.ceil_le.1 h2
      exact_mod_cast this
    have := mul_le_mul_of_nonneg_right this hs.le
    unfold lag
    linarith [h1.2]
  · have : (k : ℝ) < g := by
      have h2 : (k : Int) < ⌈g⌉ := by omega
      have := Int.lt_ceil.1 h2
      exact_mod_cast this
    have := mul_lt_mul_of_pos_right this hs
    unfold lag
    linarith [h1.1]

/-- From the computed source and weight to the exact ones. -/
theorem Contribution.exact (hu : 0 ≤ u) {kn : Kern ℝ} {F : Nat → Int → Int → Int → ℝ} {source : List ℝ} {w' w ex et : ℝ} {k : Nat} {x y t o o' s0 s1 S0 S1 : ℝ}
    (h : Contribution kn F source w' ex et ((1 + u) ^ k - 1) x y t o o') (h0 : Near u 14 (source.getD 0 0) s0 S0) (h1 : Near u 14 (source.getD 1 0) s1 S1) (hw : Near u 4 w' w |w|) :
    ∃ x' y' t', |x' - x| ≤ ex ∧ |y' - y| ≤ ex ∧ |t' - t| ≤ et ∧
      Near u (k + 18) o' (o + (interpAt kn (F 0) x' y' t' * s0 + interpAt kn (F 1) x' y' t' * s1) * w) (|o| + (interpMag kn (F 0) x' y' t' * S0 + interpMag kn (F 1) x' y' t' * S1) * |w|) := by
  obtain ⟨x', y', t', e1, e2, e3, e4⟩ := h
  refine ⟨x', y', t', e1, e2, e3, ?_⟩
  have n : ∀ c, Near u 0 (interpAt kn (F c) x' y' t') (interpAt kn (F c) x' y' t') (interpMag kn (F c) x' y' t') := fun c => ⟨by simp, interpAt_le_mag _ _ _ _ _⟩
  have m0 : ∀ c, 0 ≤ interpMag kn (F c) x' y' t' := fun c => (n c).pos
  have hv := (((n 0).prod h0).plus ((n 1).prod h1)).prod hw
  set I0 := interpAt kn (F 0) x' y' t'
  set I1 := interpAt kn (F 1) x' y' t'
  set M0 := interpMag kn (F 0) x' y' t'
  set M1 := interpMag kn (F 1) x' y' t'
  set X := (M0 * S0 + M1 * S1) * |w| with hX
  have hmag : (M0 * |source.getD 0 0| + M1 * |source.getD 1 0|) * |w'| ≤ (1 + u) ^ 18 * X := by
    have a : M0 * |source.getD 0 0| ≤ M0 * ((1 + u) ^ 14 * S0) := mul_le_mul_of_nonneg_left h0.mag (m0 0)
    have b : M1 * |source.getD 1 0| ≤ M1 * ((1 + u) ^ 14 * S1) := mul_le_mul_of_nonneg_left h1.mag (m0 1)
    calc (M0 * |source.getD 0 0| + M1 * |source.getD 1 0|) * |w'| ≤ (M0 * ((1 + u) ^ 14 * S0) + M1 * ((1 + u) ^ 14 * S1)) * ((1 + u) ^ 4 * |w|) :=
          mul_le_mul (add_le_add a b) hw.mag (abs_nonneg _) (by have := h0.pos; have := h1.pos; have := m0 0; have := m0 1; positivity)
      _ = (1 + u) ^ 18 * X := by rw [hX]; ring
  have X0 : 0 ≤ X := hv.pos
  have p1 := one_le_pow hu k
  have p2 := one_le_pow hu 18
  have hv1 : |(I0 * source.getD 0 0 + I1 * source.getD 1 0) * w' - (I0 * s0 + I1 * s1) * w| ≤ ((1 + u) ^ 18 - 1) * X := hv.1
  refine ⟨?_, (abs_add_le _ _).trans (add_le_add le_rfl hv.2)⟩
  have t1 := abs_sub_le o' (o + (I0 * source.getD 0 0 + I1 * source.getD 1 0) * w') (o + (I0 * s0 + I1 * s1) * w)
  rw [add_sub_add_left_eq_sub] at t1
  have a1 : ((1 + u) ^ k - 1) * (|o| + (M0 * |source.getD 0 0| + M1 * |source.getD 1 0|) * |w'|) ≤ ((1 + u) ^ k - 1) * (|o| + (1 + u) ^ 18 * X) :=
    mul_le_mul_of_nonneg_left (add_le_add le_rfl hmag) (by linarith)
  have a2 : ((1 + u) ^ k - 1) * |o| ≤ ((1 + u) ^ k * (1 + u) ^ 18 - 1) * |o| := mul_le_mul_of_nonneg_right (by nlinarith) (abs_nonneg _)
  rw [pow_add]
  nlinarith

section
variable {S : Setup σ ℝ} {I : σ → Prop} {ms : List Meta} {F : Nat → Int → Int → Int → ℝ} {kn : Kern ℝ} {kk B W : Nat} {seg : Segment ℝ} {N : Nat} {T : Track ℝ}

/-- The time index, as computed. -/
theorem time_index (hA : A.Rounds u) (hB : A.Counts B) (h : TrackSafe u W B kn.support S seg ms) {lam tp : ℝ} (ht : Near u 4 tp (seg.moment lam) (|seg.t0| + (seg.t1 - seg.t0))) {b : Nat} (hb : b ≤ B)
    (i : Nat) (hi : i ≤ B) :
    Near u 8 (sampleInd A (indexF A (A.sub (A.mulAdd (A.ofNat b) S.tsamp S.tsig) tp) S.G.t0 S.G.dt) (A.div S.tsamp S.G.dt) i) ((lag S seg lam (b + i) - S.G.t0) / S.G.dt)
      ((|S.tsig| + (b + i : Nat) * S.tsamp + (|seg.t0| + (seg.t1 - seg.t0)) + |S.G.t0|) / S.G.dt) ∧
    Near u 7 (indexF A (A.sub (A.mulAdd (A.ofNat b) S.tsamp S.tsig) tp) S.G.t0 S.G.dt + i * A.div S.tsamp S.G.dt) ((lag S seg lam (b + i) - S.G.t0) / S.G.dt)
      ((|S.tsig| + (b + i : Nat) * S.tsamp + (|seg.t0| + (seg.t1 - seg.t0)) + |S.G.t0|) / S.G.dt) := by
  have hu0 := hA.nonneg
  have hdt := h.grid.2.2
  have hs := h.samp
  have h1 := (Near.refl hu0 0 (b : ℝ)).mulAdd hA (Near.refl hu0 0 S.tsamp) (Near.refl hu0 1 S.tsig) (by norm_num)
  rw [abs_of_pos hs, abs_of_nonneg (Nat.cast_nonneg b : (0 : ℝ) ≤ b)] at h1
  have h2 := index_near (c0 := S.G.t0) hA hdt ((h1.mono hu0 (by norm_num : 2 ≤ 4) le_rfl).subF hA ht)
  have h3 := (Near.refl hu0 0 S.tsamp).divF hA hdt
  rw [abs_of_pos hs] at h3
  have i0 : (0 : ℝ) ≤ i := Nat.cast_nonneg i
  have e1 : (S.tsig + b * S.tsamp - seg.moment lam - S.G.t0) / S.G.dt + i * (S.tsamp / S.G.dt) = (lag S seg lam (b + i) - S.G.t0) / S.G.dt := by
    unfold lag; push_cast; field_simp; ring
  have e2 : (|S.tsig| + b * S.tsamp + (|seg.t0| + (seg.t1 - seg.t0)) + |S.G.t0|) / S.G.dt + |(i : ℝ)| * (S.tsamp / S.G.dt) =
      (|S.tsig| + (b + i : Nat) * S.tsamp + (|seg.t0| + (seg.t1 - seg.t0)) + |S.G.t0|) / S.G.dt := by
    rw [abs_of_nonneg i0]; push_cast; field_simp; ring
  rw [hB b hb]
  constructor
  · have h4 := (Near.refl hu0 0 (i : ℝ)).mulAdd hA h3 h2 (by norm_num)
    rw [e1, e2] at h4
    unfold sampleInd
    rw [hB i hi]
    exact h4
  · have h4 := h2.plus (((Near.refl hu0 0 (i : ℝ)).prod h3).mono hu0 (by norm_num : 0 + (0 + 1) ≤ 5 + 2) le_rfl)
    rw [e1, e2] at h4
    exact h4

set_option maxHeartbeats 1000000 in
/-- One call of `accumulate_inner_product`. -/
theorem callF_ok (E : Env A u S I ms F kn kk B) (h : TrackSafe u W B kn.support S seg ms) (hT : TrackNear A u seg N T) {p b b1 : Nat} (hp : p ≤ N) (hpB : p ≤ B) (hb : b < b1) (hb1 : b1 ≤ S.n)
    (hdel : -slack u S seg ≤ lag S seg (p / N) b) (hts : 0 ≤ A.sub (A.mulAdd (A.ofNat b) S.tsamp S.tsig) (timeF A T p)) (junk : Nat → ℝ) {s : σ} {out : List ℝ} (hs : I s) (hout : S.n ≤ out.length) :
    innerF A S junk (coordCylF A S.sqrt (posF A T p)).1 (coordCylF A S.sqrt (posF A T p)).2 (A.sub (A.mulAdd (A.ofNat b) S.tsamp S.tsig) (timeF A T p)) (b1 - b)
        (fieldCylF A S.sqrt T.src (posF A T p)) out b (-(A.mul (A.mul (trapezoid (N + 1) p) T.step) S.weight)) s = .abort ∨
    ∃ s' out', innerF A S junk (coordCylF A S.sqrt (posF A T p)).1 (coordCylF A S.sqrt (posF A T p)).2 (A.sub (A.mulAdd (A.ofNat b) S.tsamp S.tsig) (timeF A T p)) (b1 - b)
        (fieldCylF A S.sqrt T.src (posF A T p)) out b (-(A.mul (A.mul (trapezoid (N + 1) p) T.step) S.weight)) s = .ok (s', out') ∧ I s' ∧ out'.length = out.length ∧
      (∀ q, ¬ (b ≤ q ∧ q < b1) → out'.getD q 0 = out.getD q 0) ∧
      ∀ q, b ≤ q → q < b1 → ∃ v m, Share kn F ms u W S seg N p q v m ∧ Near u (perPoint kn kk) (out'.getD q 0) (out.getD q 0 + v) (|out.getD q 0| + m) := by
  have hU : U64 = 2 ^ 64 := rfl
  have hA := E.rounds
  have hu := E.small
  have hu0 := hA.nonneg
  have hB := E.counts
  have hn := h.many
  have hbig := h.big
  obtain ⟨hdr, hdz, hdt⟩ := h.grid
  have hsm := h.samp
  have W0 : (0 : ℝ) ≤ W := Nat.cast_nonneg W
  have hNr : (0 : ℝ) < N := by exact_mod_cast hT.pos
  have hlam0 : (0 : ℝ) ≤ (p : ℝ) / N := by positivity
  have hlam1 : (p : ℝ) / N ≤ 1 := (div_le_one hNr).2 (by exact_mod_cast hp)
  have hD : 0 < seg.t1 - seg.t0 := by linarith [h.late]
  set q := posF A T p with hq
  set tp := timeF A T p with htp
  set r := (coordCylF A S.sqrt q).1 with hr
  set x := indexF A r S.G.r0 S.G.dr with hx
  set y := indexF A (coordCylF A S.sqrt q).2 S.G.z0 S.G.dz with hy
  set t := indexF A (A.sub (A.mulAdd (A.ofNat b) S.tsamp S.tsig) tp) S.G.t0 S.G.dt with ht
  set dt := A.div S.tsamp S.G.dt with hdtd
  -- the place
  have qx : |q.x - (seg.place (p / N)).x| ≤ eps u 9 * (|seg.p0.x| + |seg.p1.x - seg.p0.x|) := by
    have := place_near hA hB hT.pos hp hpB hT.dx
    rw [← hT.same] at this ⊢; exact this
  have qy : |q.y - (seg.place (p / N)).y| ≤ eps u 9 * (|seg.p0.y| + |seg.p1.y - seg.p0.y|) := by
    have := place_near hA hB hT.pos hp hpB hT.dy
    rw [← hT.same] at this ⊢; exact this
  have qz : |q.z - (seg.place (p / N)).z| ≤ eps u 9 * (|seg.p0.z| + |seg.p1.z - seg.p0.z|) := by
    have := place_near hA hB hT.pos hp hpB hT.dz
    rw [← hT.same] at this ⊢; exact this
  have rn := rho_near hA hu E.sqrt q
  have xn : Near u 5 x ((rho q - S.G.r0) / S.G.dr) ((rho q + |S.G.r0|) / S.G.dr) := index_near hA hdr rn
  have yn : Near u 2 y ((q.z - S.G.z0) / S.G.dz) ((|q.z| + |S.G.z0|) / S.G.dz) := index_near hA hdz (Near.refl hu0 0 q.z)
  have tn := fun i hi => time_index hA hB h (moment_near hA hB h.late hT hp hpB) (b := b) (by omega) i hi
  have uW : 0 ≤ u * W := mul_nonneg hu0 W0
  have eW : 0 ≤ eps u 5 * W := mul_nonneg (eps_nonneg hu0 5) W0
  -- positions
  have disp : ∀ i, b + i < b1 → Displaced u W S seg (p / N) (b + i) q x y (sampleInd A t dt i) := by
    intro i hi
    have h1 := (tn i (by omega)).1
    refine ⟨qx, qy, qz, xn.1.trans (le_add_of_nonneg_right uW), yn.1.trans (le_add_of_nonneg_right uW), ?_⟩
    exact (h1.mono hu0 (by norm_num : 8 ≤ 10) le_rfl).1.trans (le_add_of_nonneg_right eW)
  have later : ∀ i, -slack u S seg ≤ lag S seg (p / N) (b + i) := by
    intro i
    have : (0 : ℝ) ≤ i * S.tsamp := by positivity
    unfold lag at hdel ⊢
    push_cast
    linarith
  have x0 : 0 ≤ x := by
    have h1 : 0 ≤ r := by
      have h2 := (abs_le.1 rn.1).1
      have h3 := pow_three_le hu0 hu
      have h4 : 0 ≤ rho q := Real.sqrt_nonneg _
      show 0 ≤ S.sqrt _
      nlinarith [mul_le_mul_of_nonneg_right h3 h4]
    exact (nonneg_round (by linarith) (hA.div _ _) (div_nonneg (nonneg_round (by linarith) (hA.sub _ _) (by linarith [h.origin.1])).1 hdr.le)).1
  have t0 : 0 ≤ t := (nonneg_round (by linarith) (hA.div _ _) (div_nonneg (nonneg_round (by linarith) (hA.sub _ _) (by linarith [h.origin.2])).1 hdt.le)).1
  have dpos : 0 < S.tsamp / S.G.dt := div_pos hsm hdt
  have dlo : (1 - u) * (S.tsamp / S.G.dt) ≤ dt := (nonneg_round (by linarith) (hA.div _ _) dpos.le).2.2
  have dt0 : 0 < dt := lt_of_lt_of_le (mul_pos (by linarith) dpos) dlo
  have s0 : ∀ i, i ≤ B → 0 ≤ sampleInd A t dt i := by
    intro i hi
    unfold sampleInd
    rw [hB i hi]
    obtain ⟨m, m1, m2⟩ := hA.mulAdd (i : ℝ) dt t
    have := (nonneg_round (by linarith) m1 (by positivity)).1
    exact (nonneg_round (by linarith) m2 (by linarith)).1
  have rg := fun i (hi : b + i < b1) => h.range _ _ hlam0 hlam1 (by omega) (later i) _ _ _ _ (disp i hi)
  have r0 := rg 0 (by omega)
  -- C81
  have hC := C81_signal_accuracy_partial E.serves hA (by linarith) hB E.kernel E.last E.grow junk S.oob (x := x) (y := y) (ts := t) (dt := dt) ⟨x0, r0.1⟩ ⟨r0.2.1, r0.2.2.1⟩ t0 dt0 (n := b1 - b)
    (by omega) (fun i hi => (rg i (by omega)).2.2.2.1)
    ⟨h.chunks.padded, h.chunks.small, h.chunks.size, fun m hm => (h.chunks.rate m hm).trans_le (mul_le_mul_of_nonneg_left dlo (by positivity))⟩ h.width
    (by
      intro j k m m' hjk hk hm hm' h1 h2 h3
      exact h.nulls _ _ _ hlam0 hlam1 (by omega : b + j < b + k) (by omega) (later j) _ _ _ _ _ (disp j (by omega)) (disp k (by omega)) m hm m' hm' h1 h2 h3)
    (by
      cases ho : S.oob
      · exact Or.inl rfl
      · exact Or.inr fun i hi => (rg i (by omega)).2.2.2.2 ho x0 (s0 i (by omega)))
    (fieldCylF A S.sqrt T.src q) (-(A.mul (A.mul (trapezoid (N + 1) p) T.step) S.weight)) out b (by omega) s hs
  unfold innerF
  rcases hC with hC | ⟨s', out', e, c1, c2, c3, c4, c5, c6, c7⟩
  · exact Or.inl hC
  · refine Or.inr ⟨s', out', c1, c2, c3, fun k hk => c6 k (by omega), fun k hk1 hk2 => ?_⟩
    have hk : b + (k - b) = k := by omega
    by_cases hke : k - b < e
    · have hcon := c7 (k - b) hke
      rw [hk] at hcon
      have w4 : Near u 4 (-(A.mul (A.mul (trapezoid (N + 1) p) T.step) S.weight)) (-(trapezoid (N + 1) p * ((seg.t1 - seg.t0) / N) * S.weight))
          |-(trapezoid (N + 1) p * ((seg.t1 - seg.t0) / N) * S.weight)| := by
        have := (((Near.refl hu0 0 (trapezoid (N + 1) p : ℝ)).mul hA hT.step).mul hA (Near.refl hu0 0 S.weight)).neg
        rwa [abs_neg, abs_mul, abs_mul, abs_of_pos (div_pos hD hNr)]
      obtain ⟨x', y', t', f1, f2, f3, f4⟩ := hcon.exact hu0 (radial_near hA hu E.sqrt q hT.sx hT.sy) (hT.sz.mono hu0 (by norm_num : 5 ≤ 14) le_rfl) w4
      refine ⟨_, _, Or.inr (Or.inr ⟨hk ▸ later (k - b), q, x', y', t', ⟨qx, qy, qz, ?_, ?_, ?_⟩, rfl, rfl⟩), ?_⟩
      · have := abs_sub_le x' x ((rho q - S.G.r0) / S.G.dr)
        have := xn.1
        unfold eps; linarith
      · have := abs_sub_le y' y ((q.z - S.G.z0) / S.G.dz)
        have := yn.1
        unfold eps; linarith
      · have h7 := (tn (k - b) (by omega)).2
        rw [hk] at h7
        have a1 := abs_sub_le t' (t + ((k - b : Nat) : ℝ) * dt) ((lag S seg (p / N) k - S.G.t0) / S.G.dt)
        have a2 := h7.1
        have a3 := h7.mag
        rw [abs_of_nonneg (by positivity)] at a3
        set X := (|S.tsig| + (k : ℝ) * S.tsamp + (|seg.t0| + (seg.t1 - seg.t0)) + |S.G.t0|) / S.G.dt
        have a4 : ((1 + u) ^ 3 - 1) * (t + ((k - b : Nat) : ℝ) * dt) ≤ ((1 + u) ^ 3 - 1) * ((1 + u) ^ 7 * X) := mul_le_mul_of_nonneg_left a3 (eps_nonneg hu0 3)
        have e10 : eps u 10 * X = ((1 + u) ^ 3 - 1) * ((1 + u) ^ 7 * X) + ((1 + u) ^ 7 - 1) * X := by unfold eps; ring
        rw [e10]
        unfold eps
        linarith
      · rw [abs_neg] at f4
        exact f4
    · refine ⟨0, 0, ?_, ?_⟩
      · right; left
        have he : e < b1 - b := by omega
        refine ⟨?_, ⟨b + e, by omega, later e, q, x, y, _, disp e (by omega), c5 he⟩, rfl, rfl⟩
        cases ho : S.oob
        · rfl
        · exfalso
          obtain ⟨m, hm, hin⟩ := (rg e (by omega)).2.2.2.2 ho x0 (s0 e (by omega))
          exact c5 he m hm hin
      · rw [c6 k (by omega), add_zero, add_zero]
        exact Near.refl hu0 _ _

/-! ### The loops -/

/-- The contributions of the points `ps`, one after the other. -/
def Gathered (kn : Kern ℝ) (F : Nat → Int → Int → Int → ℝ) (ms : List Meta) (u W : ℝ) (S : Setup σ ℝ) (seg : Segment ℝ) (N R k : Nat) (ps : List Nat) (o o' : ℝ) : Prop :=
  ∃ vs : List (ℝ × ℝ), List.Forall₂ (fun p v => Share kn F ms u W S seg N p k v.1 v.2) ps vs ∧
    Near u (R * ps.length) o' (o + (vs.map Prod.fst).sum) (|o| + (vs.map Prod.snd).sum)

theorem Gathered.nil (hu : 0 ≤ u) {R k : Nat} {o : ℝ} : Gathered kn F ms u W S seg N R k [] o o :=
  ⟨[], .nil, by simpa using Near.refl hu 0 o⟩

theorem near_trans (hu : 0 ≤ u) {a b : Nat} {o o1 o2 v1 m1 v2 m2 : ℝ} (h1 : Near u a o1 (o + v1) (|o| + m1)) (h2 : Near u b o2 (o1 + v2) (|o1| + m2)) (hv : |v2| ≤ m2) :
    Near u (a + b) o2 (o + (v1 + v2)) (|o| + (m1 + m2)) := by
  have hm2 : 0 ≤ m2 := (abs_nonneg _).trans hv
  refine ⟨?_, ?_⟩
  · have t1 := abs_sub_le o2 (o1 + v2) (o + (v1 + v2))
    rw [show o1 + v2 - (o + (v1 + v2)) = o1 - (o + v1) by ring] at t1
    have a1 := h1.1
    have a2 := h2.1
    have a3 := h1.mag
    have pa := one_le_pow hu a
    have pb := one_le_pow hu b
    have a4 : ((1 + u) ^ b - 1) * (|o1| + m2) ≤ ((1 + u) ^ b - 1) * ((1 + u) ^ a * (|o| + m1) + m2) := mul_le_mul_of_nonneg_left (by linarith) (by linarith)
    have a5 : ((1 + u) ^ b - 1) * m2 ≤ ((1 + u) ^ a * (1 + u) ^ b - 1) * m2 := mul_le_mul_of_nonneg_right (by nlinarith) hm2
    rw [pow_add]
    nlinarith
  · rw [show o + (v1 + v2) = (o + v1) + v2 by ring]
    refine (abs_add_le _ _).trans ?_
    linarith [h1.2]

theorem Share.bound {p k : Nat} {v m : ℝ} (h : Share kn F ms u W S seg N p k v m) : |v| ≤ m := by
  rcases h with ⟨-, rfl, rfl⟩ | ⟨-, -, rfl, rfl⟩ | ⟨-, q, x, y, t, -, rfl, rfl⟩
  · simp
  · simp
  · rw [abs_mul, abs_neg]
    refine mul_le_mul_of_nonneg_right ?_ (abs_nonneg _)
    refine (abs_add_le _ _).trans (add_le_add ?_ ?_)
    · rw [abs_mul]
      refine mul_le_mul (interpAt_le_mag _ _ _ _ _) (abs_add_le _ _) (abs_nonneg _) ((abs_nonneg _).trans (interpAt_le_mag kn (F 0) x y t))
    · rw [abs_mul]
      exact mul_le_mul_of_nonneg_right (interpAt_le_mag _ _ _ _ _) (abs_nonneg _)

theorem shares_bound {k : Nat} {ps : List Nat} {vs : List (ℝ × ℝ)} (h : List.Forall₂ (fun p v => Share kn F ms u W S seg N p k v.1 v.2) ps vs) : |(vs.map Prod.fst).sum| ≤ (vs.map Prod.snd).sum := by
  induction h with
  | nil => simp
  | cons h1 _ ih =>
    rw [List.map_cons, List.map_cons, List.sum_cons, List.sum_cons]
    exact (abs_add_le _ _).trans (add_le_add h1.bound ih)

theorem Gathered.append (hu : 0 ≤ u) {R k : Nat} {ps qs : List Nat} {o o1 o2 : ℝ} (h1 : Gathered kn F ms u W S seg N R k ps o o1) (h2 : Gathered kn F ms u W S seg N R k qs o1 o2) :
    Gathered kn F ms u W S seg N R k (ps ++ qs) o o2 := by
  obtain ⟨vs, a1, a2⟩ := h1
  obtain ⟨ws, b1, b2⟩ := h2
  refine ⟨vs ++ ws, List.rel_append a1 b1, ?_⟩
  rw [List.length_append, Nat.mul_add, List.map_append, List.map_append, List.sum_append, List.sum_append]
  exact near_trans hu a2 b2 (shares_bound b1)

theorem Gathered.one {R k p : Nat} {o o' v m : ℝ} (h : Share kn F ms u W S seg N p k v m) (hn : Near u R o' (o + v) (|o| + m)) : Gathered kn F ms u W S seg N R k [p] o o' :=
  ⟨[(v, m)], .cons h .nil, by simpa using hn⟩

theorem Gathered.skip (hu : 0 ≤ u) {R k : Nat} {o : ℝ} : ∀ {ps : List Nat}, (∀ p ∈ ps, lag S seg (p / N) k ≤ slack u S seg) → Gathered kn F ms u W S seg N R k ps o o := by
  intro ps h
  induction ps with
  | nil => exact Gathered.nil hu
  | cons p ps ih =>
    have := Gathered.one (kn := kn) (F := F) (ms := ms) (W := W) (R := R) (o := o) (o' := o) (Or.inl ⟨h p List.mem_cons_self, rfl, rfl⟩ : Share kn F ms u W S seg N p k 0 0)
      (by rw [add_zero, add_zero]; exact Near.refl hu _ _)
    exact this.append hu (ih fun q hq => h q (List.mem_cons_of_mem _ hq))

theorem ptLoopF_ok (E : Env A u S I ms F kn kk B) (h : TrackSafe u W B kn.support S seg ms) (hT : TrackNear A u seg N T) (hNB : N ≤ B) (w : List ℝ) {start b0 b1 : Nat} (hb0 : b0 < b1) (hb1 : b1 ≤ S.n) :
    ∀ (is : List Nat) (s : σ) (out : List ℝ), is.Pairwise (· < ·) → (∀ i ∈ is, i + start ≤ N) → (∀ i ∈ is, w.getD i 0 = trapezoid (N + 1) (i + start)) → I s → S.n ≤ out.length →
      ptLoopF A S T w start b0 b1 is (s, out) = .abort ∨ ∃ s' out', ptLoopF A S T w start b0 b1 is (s, out) = .ok (s', out') ∧ I s' ∧ out'.length = out.length ∧
        (∀ q, ¬ (b0 ≤ q ∧ q < b1) → out'.getD q 0 = out.getD q 0) ∧
        ∀ q, b0 ≤ q → q < b1 → Gathered kn F ms u W S seg N (perPoint kn kk) q (is.map (· + start)) (out.getD q 0) (out'.getD q 0) := by
  have hu0 := E.rounds.nonneg
  have hNr : (0 : ℝ) < N := by exact_mod_cast hT.pos
  intro is
  induction is with
  | nil =>
    intro s out _ _ _ hs hout
    exact Or.inr ⟨s, out, rfl, hs, rfl, fun _ _ => rfl, fun q _ _ => Gathered.nil hu0⟩
  | cons i is ih =>
    intro s out hpw hlt hw hs hout
    have hp := hlt i List.mem_cons_self
    obtain ⟨c, c1, c2, c3⟩ := causalF_ok E.rounds h.samp (moment_near E.rounds E.counts h.late hT hp (by omega)) h.int
    unfold ptLoopF
    simp only
    rw [c1]
    simp only [Res.ok_bind]
    by_cases hc : b1 ≤ c
    · have e1 : clampN c b0 b1 = b1 := by unfold clampN; split_ifs <;> omega
      rw [e1, Nat.sub_self, if_pos rfl]
      refine Or.inr ⟨s, out, rfl, hs, rfl, fun _ _ => rfl, fun q _ hq => Gathered.skip hu0 ?_⟩
      intro p hp'
      obtain ⟨j, hj, rfl⟩ := List.mem_map.1 hp'
      have hij : i ≤ j := by
        rcases List.mem_cons.1 hj with rfl | hj
        · exact Nat.le_refl _
        · exact Nat.le_of_lt ((List.pairwise_cons.1 hpw).1 j hj)
      have h1 := c3 q (by omega)
      refine le_trans ?_ h1
      have h2 : ((i + start : Nat) : ℝ) / N ≤ ((j + start : Nat) : ℝ) / N := div_le_div_of_nonneg_right (by exact_mod_cast (by omega)) hNr.le
      have h3 := mul_le_mul_of_nonneg_right h2 (by linarith [h.late] : 0 ≤ seg.t1 - seg.t0)
      unfold lag Segment.moment
      linarith
    · have e1 : clampN c b0 b1 = max c b0 := by unfold clampN; split_ifs <;> omega
      rw [e1]
      set b := max c b0 with hb
      have hbb : b < b1 := by omega
      rw [if_neg (by omega)]
      by_cases hts : 0 ≤ A.sub (A.mulAdd (A.ofNat b) S.tsamp S.tsig) (timeF A T (i + start))
      swap
      · left; rw [show decide (0 ≤ A.sub (A.mulAdd (A.ofNat b) S.tsamp S.tsig) (timeF A T (i + start))) = false from decide_eq_false hts]; rfl
      rw [show decide (0 ≤ A.sub (A.mulAdd (A.ofNat b) S.tsamp S.tsig) (timeF A T (i + start))) = true from decide_eq_true hts,
        show decide (b + (b1 - b) ≤ out.length) = true from decide_eq_true (by omega)]
      simp only [Res.assert_true, Res.ok_bind]
      rw [hw i List.mem_cons_self]
      rcases callF_ok E h hT hp (by omega) hbb hb1 (c2 b (by omega)) hts (S.junk (i + start) b0) hs hout with g | ⟨s1, out1, g1, g2, g3, g4, g5⟩
      · left; rw [g]; rfl
      rw [g1]
      simp only [Res.ok_bind]
      rcases ih s1 out1 (List.pairwise_cons.1 hpw).2 (fun j hj => hlt j (List.mem_cons_of_mem _ hj)) (fun j hj => hw j (List.mem_cons_of_mem _ hj)) g2 (by omega) with f | ⟨s2, out2, f1, f2, f3, f4, f5⟩
      · exact Or.inl f
      refine Or.inr ⟨s2, out2, f1, f2, by omega, fun q hq => (f4 q hq).trans (g4 q (by omega)), fun q h1 h2 => ?_⟩
      rw [List.map_cons, ← List.singleton_append]
      refine Gathered.append hu0 ?_ (f5 q h1 h2)
      by_cases hqb : b ≤ q
      · obtain ⟨v, m, k1, k2⟩ := g5 q hqb h2
        exact Gathered.one k1 k2
      · rw [g4 q (by omega)]
        refine Gathered.skip hu0 fun p hp' => ?_
        rw [List.mem_singleton.1 hp']
        exact c3 q (by omega)

theorem sampleLoopF_ok (E : Env A u S I ms F kn kk B) (h : TrackSafe u W B kn.support S seg ms) (hT : TrackNear A u seg N T) (hNB : N ≤ B) (w : List ℝ) {start size : Nat} (hsz : start + size ≤ N + 1)
    (hw : ∀ i < size, w.getD i 0 = trapezoid (N + 1) (i + start)) :
    ∀ (fuel b : Nat) (s : σ) (out : List ℝ), 0 < fuel → S.n < fuel + b → b < 2 ^ 63 → I s → S.n ≤ out.length →
      sampleLoopF A S T w start size fuel b (s, out) = .abort ∨ ∃ s' out', sampleLoopF A S T w start size fuel b (s, out) = .ok (s', out') ∧ I s' ∧ out'.length = out.length ∧
        (∀ q, ¬ (b ≤ q ∧ q < S.n) → out'.getD q 0 = out.getD q 0) ∧
        ∀ q, b ≤ q → q < S.n → Gathered kn F ms u W S seg N (perPoint kn kk) q ((List.range size).map (· + start)) (out.getD q 0) (out'.getD q 0) := by
  have hU : U64 = 2 ^ 64 := rfl
  obtain ⟨k1, k2, k3, k4⟩ := h.blocks
  have hn := h.many
  have hbig := h.big
  intro fuel
  induction fuel with
  | zero => intro b s out h0; omega
  | succ f ih =>
    intro b s out h0 hf hb hs hout
    unfold sampleLoopF
    by_cases hlt : b < S.n
    · rw [if_pos hlt, wadd_eq (by omega)]
      rcases ptLoopF_ok E h hT hNB w (start := start) (b0 := b) (b1 := min (b + S.maxS) S.n) (by omega) (by omega) (List.range size) s out List.pairwise_lt_range
        (fun i hi => by have := List.mem_range.1 hi; omega) (fun i hi => hw i (List.mem_range.1 hi)) hs hout with g | ⟨s1, out1, g1, g2, g3, g4, g5⟩
      · left; rw [g]; rfl
      rw [g1]
      simp only [Res.ok_bind]
      rcases ih (b + S.maxS) s1 out1 (by omega) (by omega) (by omega) g2 (by omega) with f0 | ⟨s2, out2, f1, f2, f3, f4, f5⟩
      · exact Or.inl f0
      refine Or.inr ⟨s2, out2, f1, f2, by omega, fun q hq => (f4 q (by omega)).trans (g4 q (by omega)), fun q h1 h2 => ?_⟩
      by_cases hq : q < b + S.maxS
      · rw [f4 q (by omega)]
        exact g5 q h1 (by omega)
      · rw [← g4 q (by omega)]
        exact f5 q (by omega) h2
    · rw [if_neg hlt]
      exact Or.inr ⟨s, out, rfl, hs, rfl, fun _ _ => rfl, fun q _ _ => by omega⟩

theorem itgrLoopF_ok (E : Env A u S I ms F kn kk B) (h : TrackSafe u W B kn.support S seg ms) (hT : TrackNear A u seg N T) (hNB : N ≤ B) :
    ∀ (fuel b : Nat) (s : σ) (out : List ℝ), 0 < fuel → N + 1 < fuel + b → b < 2 ^ 63 → I s → S.n ≤ out.length →
      itgrLoopF A S T fuel b (s, out) = .abort ∨ ∃ s' out', itgrLoopF A S T fuel b (s, out) = .ok (s', out') ∧ I s' ∧ out'.length = out.length ∧
        (∀ q, S.n ≤ q → out'.getD q 0 = out.getD q 0) ∧
        ∀ q, q < S.n → Gathered kn F ms u W S seg N (perPoint kn kk) q ((List.range (N + 1 - b)).map (· + b)) (out.getD q 0) (out'.getD q 0) := by
  have hU : U64 = 2 ^ 64 := rfl
  have hu0 := E.rounds.nonneg
  obtain ⟨k1, k2, k3, k4⟩ := h.blocks
  have hn := h.many
  have hbig := h.big
  intro fuel
  induction fuel with
  | zero => intro b s out h0; omega
  | succ f ih =>
    intro b s out h0 hf hb hs hout
    unfold itgrLoopF
    rw [hT.num]
    by_cases hlt : b < N + 1
    · rw [if_pos hlt]
      simp only
      set size := min S.maxI (N + 1 - b) with hsize
      have hw : blockWeights (N + 1) b size S.wjunk = .ok ((List.range size).map fun i => trapezoid (K := ℝ) (N + 1) (b + i)) := by
        unfold blockWeights
        rw [wadd_eq (by omega), fillWeights_eq _ _ _ _ (by omega) (by omega) (by omega) (by rw [List.length_map, List.length_range]; omega)]
        rw [show b + size - b = size by omega]
      rw [hw]
      simp only [Res.ok_bind]
      rcases sampleLoopF_ok E h hT hNB ((List.range size).map fun i => trapezoid (K := ℝ) (N + 1) (b + i)) (start := b) (size := size) (by omega)
        (fun i hi => by rw [List.getD_eq_getElem?_getD, List.getElem?_map, List.getElem?_range hi, Option.map_some, Option.getD_some, Nat.add_comm i b])
        (S.n + 1) 0 s out (by omega) (by omega) (by omega) hs hout with g | ⟨s1, out1, g1, g2, g3, g4, g5⟩
      · left; rw [g]; rfl
      rw [g1]
      simp only [Res.ok_bind]
      rw [wadd_eq (by omega)]
      rcases ih (b + S.maxI) s1 out1 (by omega) (by omega) (by omega) g2 (by omega) with f0 | ⟨s2, out2, f1, f2, f3, f4, f5⟩
      · exact Or.inl f0
      refine Or.inr ⟨s2, out2, f1, f2, by omega, fun q hq => (f4 q hq).trans (g4 q (by omega)), fun q hq => ?_⟩
      have e : (List.range (N + 1 - b)).map (· + b) = (List.range size).map (· + b) ++ (List.range (N + 1 - (b + S.maxI))).map (· + (b + S.maxI)) := by
        by_cases h2 : b + S.maxI ≤ N + 1
        · rw [show N + 1 - b = size + (N + 1 - (b + S.maxI)) by omega, List.range_add, List.map_append, List.map_map]
          congr 1
          apply List.map_congr_left
          intro i _
          show size + i + b = i + (b + S.maxI)
          omega
        · rw [show N + 1 - (b + S.maxI) = 0 by omega, show N + 1 - b = size by omega]; simp
      rw [e]
      exact (g5 q (Nat.zero_le _) hq).append hu0 (f5 q hq)
    · rw [if_neg hlt]
      refine Or.inr ⟨s, out, rfl, hs, rfl, fun _ _ => rfl, fun q _ => ?_⟩
      rw [show N + 1 - b = 0 by omega]
      exact Gathered.nil hu0

end

end Verif.Green
