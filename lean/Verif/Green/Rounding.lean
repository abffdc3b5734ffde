import Verif.Green.Interp
import Verif.Green.Props36
import Mathlib.Algebra.Order.BigOperators.Group.Finset
import Mathlib.Tactic.GCongr
import Mathlib.Tactic.Positivity
/-
Interpolation.hxx with floating-point arithmetic: the same program as in `Verif.Green.Interp`, but every operation on `scalar_t` may round its result.

`scalar_t` (`float`) is still represented by real numbers; an arithmetic operation returns some real number whose relative distance from the exact result is bounded
by the unit roundoff `u`. Not modelled: overflow, underflow, NaN, and the reordering of sums that `-ffast-math` (CMakeLists.txt 6) permits; the contraction of `c += a * b`
to one fused operation is covered.
-/
namespace Verif.Green
open Verif Verif.ND

set_option linter.unusedSectionVars false

/-! ### The program -/

/-- The operations on `scalar_t`: sum, difference, product, quotient, the statement `c += a * b` (as `mulAdd a b c`), the conversion of a `std::size_t`, and the value
    stored for a `constexpr` constant. -/
structure Arith where
  add : ℝ → ℝ → ℝ
  sub : ℝ → ℝ → ℝ
  mul : ℝ → ℝ → ℝ
  div : ℝ → ℝ → ℝ
  mulAdd : ℝ → ℝ → ℝ → ℝ
  ofNat : Nat → ℝ
  const : ℝ → ℝ

/-- Interpolation.hxx 5-11 `Kernel::Linear`. -/
noncomputable def linearF (A : Arith) : Kern ℝ where
  support := 1
  kern f := (Res.assert (decide (0 ≤ f) && decide (f < 1))).bind fun _ => .ok [A.sub 1 f, f]

/-- Interpolation.hxx 13-60 `Kernel::Keys`. Every assignment to a `scalar_t` rounds; the literals are exact. -/
noncomputable def keysF (A : Arith) : Kern ℝ where
  support := 2
  kern f :=
    (Res.assert (decide (0 ≤ f) && decide (f < 1))).bind fun _ =>
    let p1_1 := A.mul (-(1 / 2)) f
    let p1_2 := A.sub f 1
    let p1_3 := A.mul p1_1 p1_2
    let c2_1 := A.const ((1 - Real.sqrt 7) / 3)
    let p2_1 := A.sub f c2_1
    let c2_2 := A.const ((1 + Real.sqrt 7) / 3)
    let p2_2 := A.sub f c2_2
    let p2_3 := A.sub f 1
    let p2_4 := A.mul p2_2 p2_3
    let c2_5 := 3 / 2
    let p2_5 := A.mul c2_5 p2_1
    let c3_1 := A.const (1 / 3 * (2 - Real.sqrt 7))
    let p3_1 := A.sub f c3_1
    let c3_2 := A.const (1 / 3 * (2 + Real.sqrt 7))
    let p3_2 := A.sub f c3_2
    let p3_3 := A.mul p3_1 p3_2
    let c3_4 := -(3 / 2)
    let p3_4 := A.mul f c3_4
    let p4_1 := A.sub f 1
    let p4_2 := A.mul f f
    let c4_3 := 1 / 2
    let p4_3 := A.mul p4_1 c4_3
    .ok [A.mul p1_3 p1_2, A.mul p2_5 p2_4, A.mul p3_3 p3_4, A.mul p4_3 p4_2]

/-- Interpolation.hxx 65-80 `interpolate_1d`: the products are added one after the other to `accum[j]`, which starts at zero. -/
def interp1dF (A : Arith) (vd : Nat) (kernel : List ℝ) (buf : List ℝ) (pos : Nat) : Res (List ℝ) :=
  if pos + vd * kernel.length ≤ buf.length then
    .ok ((List.range vd).map fun j =>
      (List.range kernel.length).foldl (fun acc i => A.mulAdd (kernel.getD i 0) (buf.getD (pos + (vd * i + j)) 0) acc) 0)
  else .ub

/-- Interpolation.hxx 148: `inner_ind_start + cur_sample_ind * inner_ind_delta`. -/
def sampleInd (A : Arith) (start delta : ℝ) (k : Nat) : ℝ := A.mulAdd (A.ofNat k) delta start

/-- Interpolation.hxx 145-180: one turn of the loop over the samples (`std::modf` is exact). -/
noncomputable def sampleStepF (A : Arith) (kn : Kern ℝ) (vd : Nat) (buf : List ℝ) (col : Nat) (w : ℝ) (start delta : ℝ) (hr : Hdr) (k : Nat) (ret : List ℝ) :
    Res (List ℝ) :=
  let m := modf (sampleInd A start delta k)
  (toSize m.1).bind fun inner =>
  (kn.kern m.2).bind fun ker =>
  (interp1dF A vd ker buf (col + vd * wsub inner (kn.support - 1))).bind fun v =>
  (read1 vd hr ret k).bind fun old =>
  copyN (List.zipWith (fun o x => A.mulAdd x w o) old v) 0 vd ret (vd * k)

/-- Interpolation.hxx 82-183 `interpolate(arr, retval, outer_inds, inner_ind_start, inner_ind_delta, num_samples)`. -/
noncomputable def interpolateF (A : Arith) (kn : Kern ℝ) (vd : Nat) (h : Hdr) (buf : List ℝ) (hr : Hdr) (ret : List ℝ) (x y start delta : ℝ) (n : Nat)
    (junk : Nat → ℝ) : Res (Hdr × List ℝ) :=
  (resize vd hr ret [n] junk).bind fun r =>
  (toSize (modf x).1).bind fun o0 =>
  (toSize (modf y).1).bind fun o1 =>
  (kn.kern (modf x).2).bind fun k0 =>
  (kn.kern (modf y).2).bind fun k1 =>
  (runLoop (fun i1 ret => runLoop (fun i2 ret =>
      let col := flatInd h [i1, i2, 0]
      let w := A.mul (k0.getD (wsub i1 (wsub o0 (kn.support - 1))) 0) (k1.getD (wsub i2 (wsub o1 (kn.support - 1))) 0)
      runLoop (sampleStepF A kn vd buf col w start delta r.1) (List.range n) ret)
    (columns kn.support o1) ret) (columns kn.support o0) r.2).bind fun d => .ok (r.1, d)

/-! ### Specification -/

/-- Every operation of the arithmetic has relative error at most `u`. The statement `c += a * b` is computed as two rounded operations, or as a fused one. -/
structure Arith.Rounds (A : Arith) (u : ℝ) : Prop where
  nonneg : 0 ≤ u
  add : ∀ a b, |A.add a b - (a + b)| ≤ u * |a + b|
  sub : ∀ a b, |A.sub a b - (a - b)| ≤ u * |a - b|
  mul : ∀ a b, |A.mul a b - a * b| ≤ u * |a * b|
  div : ∀ a b, |A.div a b - a / b| ≤ u * |a / b|
  mulAdd : ∀ a b c, ∃ p, |p - a * b| ≤ u * |a * b| ∧ |A.mulAdd a b c - (c + p)| ≤ u * |c + p|
  ofNat : ∀ n, |A.ofNat n - n| ≤ u * n
  const : ∀ c, |A.const c - c| ≤ u * |c|

/-! ### Error propagation -/

/-- `x'` is an approximation of `x`, a quantity of magnitude at most `X`, with an error as after `k` rounded operations. -/
def Near (u : ℝ) (k : Nat) (x' x X : ℝ) : Prop := |x' - x| ≤ ((1 + u) ^ k - 1) * X ∧ |x| ≤ X

variable {u : ℝ}

theorem one_le_pow (hu : 0 ≤ u) (k : Nat) : 1 ≤ (1 + u) ^ k := one_le_pow₀ (by linarith)

theorem Near.mag {k : Nat} {x' x X : ℝ} (h : Near u k x' x X) : |x'| ≤ (1 + u) ^ k * X := by
  have h1 : |x'| ≤ |x' - x| + |x| := by
    have := abs_add_le (x' - x) x
    simpa using this
  have := h.1
  have := h.2
  nlinarith

theorem Near.pos {k : Nat} {x' x X : ℝ} (h : Near u k x' x X) : 0 ≤ X := (abs_nonneg x).trans h.2

theorem Near.refl (hu : 0 ≤ u) (k : Nat) (x : ℝ) : Near u k x x |x| := by
  refine ⟨?_, le_rfl⟩
  rw [sub_self, abs_zero]
  exact mul_nonneg (by linarith [one_le_pow hu k]) (abs_nonneg x)

theorem Near.mono (hu : 0 ≤ u) {k l : Nat} (hkl : k ≤ l) {x' x X Y : ℝ} (h : Near u k x' x X) (hXY : X ≤ Y) : Near u l x' x Y := by
  refine ⟨h.1.trans ?_, h.2.trans hXY⟩
  have h1 : (1 + u) ^ k ≤ (1 + u) ^ l := pow_le_pow_right₀ (by linarith) hkl
  have h2 := one_le_pow hu k
  have := h.pos
  exact mul_le_mul (by linarith) hXY this (by linarith)

/-- One more rounding. -/
theorem Near.round (hu : 0 ≤ u) {k : Nat} {x' x X r : ℝ} (h : Near u k x' x X) (hr : |r - x'| ≤ u * |x'|) : Near u (k + 1) r x X := by
  refine ⟨?_, h.2⟩
  have h1 : |r - x| ≤ |r - x'| + |x' - x| := abs_sub_le r x' x
  have h2 := h.mag
  have h3 := h.1
  have h4 : u * |x'| ≤ u * ((1 + u) ^ k * X) := mul_le_mul_of_nonneg_left h2 hu
  calc |r - x| ≤ u * ((1 + u) ^ k * X) + ((1 + u) ^ k - 1) * X := by linarith
    _ = ((1 + u) ^ (k + 1) - 1) * X := by ring

/-- An exact product of approximations. -/
theorem Near.prod {k l : Nat} {a' a A b' b B : ℝ} (ha : Near u k a' a A) (hb : Near u l b' b B) : Near u (k + l) (a' * b') (a * b) (A * B) := by
  have hA := ha.pos
  have hB := hb.pos
  refine ⟨?_, ?_⟩
  · have e : a' * b' - a * b = (a' - a) * b' + a * (b' - b) := by ring
    have h1 := abs_add_le ((a' - a) * b') (a * (b' - b))
    rw [abs_mul, abs_mul] at h1
    have h2 : |a' - a| * |b'| ≤ ((1 + u) ^ k - 1) * A * ((1 + u) ^ l * B) := mul_le_mul ha.1 hb.mag (abs_nonneg _) ((abs_nonneg _).trans ha.1)
    have h3 : |a| * |b' - b| ≤ A * (((1 + u) ^ l - 1) * B) := mul_le_mul ha.2 hb.1 (abs_nonneg _) hA
    rw [e]
    calc |(a' - a) * b' + a * (b' - b)| ≤ ((1 + u) ^ k - 1) * A * ((1 + u) ^ l * B) + A * (((1 + u) ^ l - 1) * B) := by linarith
      _ = ((1 + u) ^ (k + l) - 1) * (A * B) := by ring
  · rw [abs_mul]; exact mul_le_mul ha.2 hb.2 (abs_nonneg _) hA

/-- An exact sum of approximations. -/
theorem Near.plus {k : Nat} {a' a A b' b B : ℝ} (ha : Near u k a' a A) (hb : Near u k b' b B) : Near u k (a' + b') (a + b) (A + B) := by
  refine ⟨?_, (abs_add_le a b).trans (add_le_add ha.2 hb.2)⟩
  have e : a' + b' - (a + b) = (a' - a) + (b' - b) := by ring
  rw [e]
  have := abs_add_le (a' - a) (b' - b)
  have := ha.1
  have := hb.1
  nlinarith

variable {A : Arith}

theorem Near.mul (hA : A.Rounds u) {k l : Nat} {a' a X b' b Y : ℝ} (ha : Near u k a' a X) (hb : Near u l b' b Y) :
    Near u (k + l + 1) (A.mul a' b') (a * b) (X * Y) := (ha.prod hb).round hA.nonneg (hA.mul _ _)

theorem Near.mulAdd (hA : A.Rounds u) {k l m : Nat} {a' a X b' b Y c' c Z : ℝ} (ha : Near u k a' a X) (hb : Near u l b' b Y) (hc : Near u m c' c Z)
    (hm : k + l + 1 ≤ m) : Near u (m + 1) (A.mulAdd a' b' c') (c + a * b) (Z + X * Y) := by
  obtain ⟨p, h1, h2⟩ := hA.mulAdd a' b' c'
  exact (hc.plus (((ha.prod hb).round hA.nonneg h1).mono hA.nonneg hm le_rfl)).round hA.nonneg h2

/-- Adding up products one after the other. -/
theorem Near.fold (hA : A.Rounds u) {ι : Type} {k l : Nat} (f' f X g' g Y : ι → ℝ) (L : List ι) (hf : ∀ i ∈ L, Near u k (f' i) (f i) (X i))
    (hg : ∀ i ∈ L, Near u l (g' i) (g i) (Y i)) : ∀ {m : Nat} {c' c Z : ℝ}, Near u m c' c Z → k + l + 1 ≤ m →
    Near u (m + L.length) (L.foldl (fun acc i => A.mulAdd (f' i) (g' i) acc) c') (c + (L.map fun i => f i * g i).sum) (Z + (L.map fun i => X i * Y i).sum) := by
  induction L with
  | nil => intro m c' c Z h _; simpa using h
  | cons i L ih =>
    intro m c' c Z h hm
    have h1 := (hf i (by simp)).mulAdd hA (hg i (by simp)) h hm
    have h2 := ih (fun i hi => hf i (by simp [hi])) (fun i hi => hg i (by simp [hi])) h1 (by omega)
    rw [List.foldl_cons, List.map_cons, List.sum_cons, List.map_cons, List.sum_cons, ← add_assoc, ← add_assoc]
    refine h2.mono hA.nonneg ?_ le_rfl
    simp only [List.length_cons]; omega

/-! ### The kernels -/

/-- The rounded kernel `kf` has the support of `kn`, and its weights carry the error of `kk` operations, relative to their own size. -/
structure KernClose (u : ℝ) (kf kn : Kern ℝ) (kk : Nat) : Prop where
  support : kf.support = kn.support
  usable : kf.Usable
  near : ∀ f : ℝ, 0 ≤ f → f < 1 → ∀ a < 2 * kn.support, Near u kk (kf.weight f a) (kn.weight f a) |kn.weight f a|

theorem round_exact (hu : 0 ≤ u) {r x : ℝ} (h : |r - x| ≤ u * |x|) : Near u 1 r x |x| := (Near.refl hu 0 x).round hu h

theorem linear_close (hA : A.Rounds u) : KernClose u (linearF A) linear 1 where
  support := rfl
  usable :=
    { support := Nat.one_pos
      small := by show (1 : Nat) < 2 ^ 32; decide
      total := fun f h0 h1 => ⟨[A.sub 1 f, f], by simp [linearF, h0, h1], rfl⟩
      last := by simp [linearF, Kern.weight] }
  near f h0 h1 a ha := by
    have ha : a < 2 := ha
    have e' : (linearF A).weight f a = [A.sub 1 f, f].getD a 0 := by simp [Kern.weight, linearF, h0, h1]
    have e : (linear : Kern ℝ).weight f a = [1 - f, f].getD a 0 := by simp [Kern.weight, linear, h0, h1]
    rw [e', e]
    match a, ha with
    | 0, _ => exact round_exact hA.nonneg (hA.sub 1 f)
    | 1, _ => exact Near.refl hA.nonneg 1 f

/-- A difference `f - c` with a rounded constant `c` that is at most `m` times as large as the difference. -/
theorem Near.subConst (hA : A.Rounds u) (m : Nat) {f c : ℝ} (h : |c| ≤ m * |f - c|) : Near u (m + 1) (A.sub f (A.const c)) (f - c) |f - c| := by
  have hu := hA.nonneg
  have h1 : Near u m (f - A.const c) (f - c) |f - c| := by
    refine ⟨?_, le_rfl⟩
    have e : f - A.const c - (f - c) = -(A.const c - c) := by ring
    rw [e, abs_neg]
    have h2 := hA.const c
    have h3 : 1 + (m : ℝ) * u ≤ (1 + u) ^ m := one_add_mul_le_pow (by linarith) m
    have h4 : u * |c| ≤ u * (m * |f - c|) := mul_le_mul_of_nonneg_left h hu
    have h5 : (m : ℝ) * u * |f - c| ≤ ((1 + u) ^ m - 1) * |f - c| := mul_le_mul_of_nonneg_right (by linarith) (abs_nonneg _)
    nlinarith
  exact h1.round hu (hA.sub _ _)

theorem sqrt7_bounds : 2.64 < Real.sqrt 7 ∧ Real.sqrt 7 < 2.65 := by
  constructor
  · exact Real.lt_sqrt_of_sq_lt (by norm_num)
  · rw [Real.sqrt_lt' (by norm_num)]; norm_num

theorem keys_close (hA : A.Rounds u) : KernClose u (keysF A) (keys (Real.sqrt 7)) 13 where
  support := rfl
  usable :=
    { support := by simp [keysF]
      small := by simp [keysF]
      total := fun f h0 h1 => by
        have h : Res.assert (decide (0 ≤ f) && decide (f < 1)) = .ok () := by simp [h0, h1]
        simp only [keysF, h, Res.ok_bind]
        exact ⟨_, rfl, rfl⟩
      last := by
        have z : ∀ b, A.mul b 0 = 0 := fun b => by
          have := hA.mul b 0
          simpa using this
        simp [keysF, Kern.weight, z] }
  near f h0 h1 a ha := by
    have ha : a < 4 := ha
    obtain ⟨s1, s2⟩ := sqrt7_bounds
    have hu := hA.nonneg
    have h : Res.assert (decide (0 ≤ f) && decide (f < 1)) = .ok () := by simp [h0, h1]
    have d1 : Near u 1 (A.sub f 1) (f - 1) |f - 1| := round_exact hu (hA.sub f 1)
    have d0 : ∀ x, Near u 0 x x |x| := Near.refl hu 0
    unfold Kern.weight keysF keys
    simp only [h, Res.ok_bind]
    match a, ha with
    | 0, _ =>
      simp only [List.getD_cons_zero, abs_mul]
      exact ((((d0 (-(1 / 2))).mul hA (d0 f)).mul hA d1).mul hA d1).mono hu (by norm_num) le_rfl
    | 1, _ =>
      simp only [List.getD_cons_succ, List.getD_cons_zero, abs_mul]
      have q1 : Near u 2 (A.sub f (A.const ((1 - Real.sqrt 7) / 3))) (f - (1 - Real.sqrt 7) / 3) |f - (1 - Real.sqrt 7) / 3| := by
        apply Near.subConst hA 1
        rw [abs_of_nonpos (by linarith : (1 - Real.sqrt 7) / 3 ≤ 0), abs_of_nonneg (by linarith)]; push_cast; linarith
      have q2 : Near u 7 (A.sub f (A.const ((1 + Real.sqrt 7) / 3))) (f - (1 + Real.sqrt 7) / 3) |f - (1 + Real.sqrt 7) / 3| := by
        apply Near.subConst hA 6
        rw [abs_of_nonneg (by linarith : 0 ≤ (1 + Real.sqrt 7) / 3), abs_of_nonpos (by linarith)]; push_cast; linarith
      exact (((d0 (3 / 2)).mul hA q1).mul hA (q2.mul hA d1)).mono hu (by norm_num) le_rfl
    | 2, _ =>
      simp only [List.getD_cons_succ, List.getD_cons_zero]
      have q1 : Near u 2 (A.sub f (A.const (1 / 3 * (2 - Real.sqrt 7)))) (f - 1 / 3 * (2 - Real.sqrt 7)) |f - 1 / 3 * (2 - Real.sqrt 7)| := by
        apply Near.subConst hA 1
        rw [abs_of_nonpos (by linarith : 1 / 3 * (2 - Real.sqrt 7) ≤ 0), abs_of_nonneg (by linarith)]; push_cast; linarith
      have q2 : Near u 4 (A.sub f (A.const (1 / 3 * (2 + Real.sqrt 7)))) (f - 1 / 3 * (2 + Real.sqrt 7)) |f - 1 / 3 * (2 + Real.sqrt 7)| := by
        apply Near.subConst hA 3
        rw [abs_of_nonneg (by linarith : 0 ≤ 1 / 3 * (2 + Real.sqrt 7)), abs_of_nonpos (by linarith)]; push_cast; linarith
      have := (q1.mul hA q2).mul hA ((d0 f).mul hA (d0 (-(3 / 2))))
      rw [← abs_mul, ← abs_mul, ← abs_mul] at this
      exact this.mono hu (by norm_num) le_rfl
    | 3, _ =>
      simp only [List.getD_cons_succ, List.getD_cons_zero]
      have := (d1.mul hA (d0 (1 / 2))).mul hA ((d0 f).mul hA (d0 f))
      rw [← abs_mul, ← abs_mul, ← abs_mul] at this
      exact this.mono hu (by norm_num) le_rfl

/-! ### The loops -/

theorem Near.fold2 (hA : A.Rounds u) {ι κ : Type} {k l : Nat} (f' f X g' g Y : ι → κ → ℝ) (L : List ι) (M : List κ)
    (hf : ∀ i ∈ L, ∀ j ∈ M, Near u k (f' i j) (f i j) (X i j)) (hg : ∀ i ∈ L, ∀ j ∈ M, Near u l (g' i j) (g i j) (Y i j)) :
    ∀ {m : Nat} {c' c Z : ℝ}, Near u m c' c Z → k + l + 1 ≤ m →
    Near u (m + L.length * M.length) (L.foldl (fun acc i => M.foldl (fun acc j => A.mulAdd (f' i j) (g' i j) acc) acc) c')
      (c + (L.map fun i => (M.map fun j => f i j * g i j).sum).sum) (Z + (L.map fun i => (M.map fun j => X i j * Y i j).sum).sum) := by
  induction L with
  | nil => intro m c' c Z h _; simpa using h
  | cons i L ih =>
    intro m c' c Z h hm
    have h1 := Near.fold hA (f' i) (f i) (X i) (g' i) (g i) (Y i) M (hf i (by simp)) (hg i (by simp)) h hm
    have h2 := ih (fun i hi => hf i (by simp [hi])) (fun i hi => hg i (by simp [hi])) h1 (by omega)
    rw [List.foldl_cons, List.map_cons, List.sum_cons, List.map_cons, List.sum_cons, ← add_assoc, ← add_assoc]
    refine h2.mono hA.nonneg (le_of_eq ?_) le_rfl
    simp only [List.length_cons]; ring

/-- A loop whose turns each update every element of a buffer. -/
theorem runLoop_upd {ι : Type} (f : ι → List ℝ → Res (List ℝ)) (g : ι → Nat → ℝ → ℝ) (N : Nat) (l : List ι)
    (step : ∀ i ∈ l, ∀ s : List ℝ, s.length = N →
      ∃ s', f i s = .ok s' ∧ s'.length = N ∧ ∀ p, p < N → s'.getD p 0 = g i p (s.getD p 0)) :
    ∀ s : List ℝ, s.length = N → ∃ s', runLoop f l s = .ok s' ∧ s'.length = N ∧
      ∀ p, p < N → s'.getD p 0 = l.foldl (fun acc i => g i p acc) (s.getD p 0) := by
  induction l with
  | nil => intro s hs; exact ⟨s, rfl, hs, by simp⟩
  | cons i l ih =>
    intro s hs
    obtain ⟨s1, h1, l1, e1⟩ := step i (by simp) s hs
    obtain ⟨s2, h2, l2, e2⟩ := ih (fun i hi => step i (by simp [hi])) s1 l1
    refine ⟨s2, by rw [runLoop, h1]; exact h2, l2, fun p hp => ?_⟩
    rw [e2 p hp, e1 p hp, List.foldl_cons]

theorem foldl_single {n q : Nat} (φ : ℝ → ℝ) (v : ℝ) :
    (List.range n).foldl (fun acc k => if q = k then φ acc else acc) v = if q < n then φ v else v := by
  induction n with
  | zero => simp
  | succ n ih =>
    rw [List.range_succ, List.foldl_append, ih]
    simp only [List.foldl_cons, List.foldl_nil]
    by_cases h : q = n
    · rw [if_pos h, if_neg (by omega), if_pos (by omega)]
    · rw [if_neg h]
      by_cases h' : q < n
      · rw [if_pos h', if_pos (by omega)]
      · rw [if_neg h', if_neg (by omega)]

/-- The value `interpolate_1d` computes for component `j` of the column starting at `base`, at position `t`. -/
noncomputable def innerVal (A : Arith) (kf : Kern ℝ) (vd : Nat) (buf : List ℝ) (base : Nat) (t : ℝ) (j : Nat) : ℝ :=
  (List.range (2 * kf.support)).foldl (fun acc c =>
    A.mulAdd (kf.weight (Int.fract t) c) (buf.getD (base + vd * (⌊t⌋ - (kf.support - 1 : Int)).toNat + (vd * c + j)) 0) acc) 0

/-- One turn of the sample loop. -/
theorem sampleStepF_ok {kn : Kern ℝ} (hk : kn.Usable) {vd s0 s1 s2 : Nat} (hv : 0 < vd) {buf : List ℝ} (hl : buf.length = volume vd [s0, s1, s2])
    (hs2 : s2 < U64) {i1 i2 : Nat} (h1 : i1 < s0) (h2 : i2 < s1) (w start delta : ℝ) {n k : Nat} (hkn : k < n) {t : ℝ} (ht : sampleInd A start delta k = t)
    (hin : Inside kn.support s2 t ∨ ((kn.support : Int) - 1 ≤ ⌊t⌋ ∧ Int.fract t = 0 ∧
      ⌊t⌋ + kn.support = s2 ∧ (i1 + 1 < s0 ∨ i2 + 1 < s1))) (ret : List ℝ) (hr : ret.length = n * vd) :
    ∃ ret', sampleStepF A kn vd buf (flatInd (mkHdr vd [s0, s1, s2]) [i1, i2, 0]) w start delta (mkHdr vd [n]) k ret = .ok ret' ∧
      ret'.length = n * vd ∧
      ∀ p, p < n * vd → ret'.getD p 0 = if p / vd = k then
        A.mulAdd (innerVal A kn vd buf (flatInd (mkHdr vd [s0, s1, s2]) [i1, i2, 0]) t (p % vd)) w (ret.getD p 0) else ret.getD p 0 := by
  have hp := hk.support
  obtain ⟨ker, hker, hlen⟩ := hk.total (Int.fract t) (Int.fract_nonneg t) (Int.fract_lt_one t)
  have a1 : (kn.support : Int) - 1 ≤ ⌊t⌋ := by
    rcases hin with h | h <;> exact h.1
  have a2 : ⌊t⌋ + kn.support ≤ s2 := by
    rcases hin with h | h
    · have := h.2; omega
    · have := h.2.2.1; omega
  have hn0 : 0 ≤ t := Int.floor_nonneg.1 (by omega)
  unfold sampleStepF
  rw [ht, modf_nonneg hn0]
  simp only
  rw [toSize_ok (by omega) (by omega)]
  simp only [Res.ok_bind, hker]
  rw [wsub_eq (by omega) (by omega)]
  set lo := (⌊t⌋ - (kn.support - 1 : Int)).toNat with hlo
  have elo : ⌊t⌋.toNat - (kn.support - 1) = lo := by omega
  rw [elo, flat3]
  have hb : ((i1 * s1 + i2) * s2 + 0) * vd + vd * lo + vd * ker.length ≤ buf.length := by
    rw [hl, volume3, hlen]
    have base : ((i1 * s1 + i2) * s2 + 0) * vd + vd * lo + vd * (2 * kn.support) = ((i1 * s1 + i2) * s2 + (lo + 2 * kn.support)) * vd := by ring
    rw [base]
    apply Nat.mul_le_mul_right
    rcases hin with h | h
    · have h2' := h.2
      have := flat3_lt (vd := 1) (i := i1) (j := i2) (k := lo + 2 * kn.support - 1) h1 h2 (s2 := s2) (by omega)
      simp only [Nat.mul_one] at this
      omega
    · have e := h.2.2.1
      have e' : lo + 2 * kn.support = s2 + 1 := by omega
      have hs : 0 < s2 := by omega
      rw [e']
      have e2 : (i1 * s1 + i2) * s2 + (s2 + 1) = (i1 * s1 + i2 + 1) * s2 + 1 := by ring
      rw [e2]
      rcases h.2.2.2 with hlt | hlt
      · by_cases h3 : i2 + 1 < s1
        · have := flat3_lt (vd := 1) (i := i1) (j := i2 + 1) (k := 0) h1 h3 (s2 := s2) hs
          simp only [Nat.mul_one, ← Nat.add_assoc] at this
          exact this
        · have := flat3_lt (vd := 1) (i := i1 + 1) (j := 0) (k := 0) hlt (s1 := s1) (by omega) (s2 := s2) hs
          simp only [Nat.mul_one, Nat.add_zero] at this
          have e4 : i1 * s1 + i2 + 1 = (i1 + 1) * s1 := by
            have : i2 + 1 = s1 := by omega
            rw [Nat.add_assoc, this]; ring
          rw [e4]; exact this
      · have := flat3_lt (vd := 1) (i := i1) (j := i2 + 1) (k := 0) h1 hlt (s2 := s2) hs
        simp only [Nat.mul_one, ← Nat.add_assoc] at this
        exact this
  unfold interp1dF
  rw [if_pos hb]
  simp only [Res.ok_bind]
  have hkv : vd * k + vd ≤ n * vd := by
    calc vd * k + vd = (k + 1) * vd := by ring
      _ ≤ n * vd := Nat.mul_le_mul_right _ hkn
  unfold read1
  rw [if_pos (by simp [hasIndex, mkHdr, hkn]), if_pos (by omega)]
  simp only [Res.ok_bind]
  unfold copyN
  rw [if_pos (by simp; omega)]
  refine ⟨_, rfl, by simp; omega, fun p hpn => ?_⟩
  have hpv : p / vd * vd + p % vd = p := by rw [Nat.mul_comm]; exact Nat.div_add_mod p vd
  have hpm : p % vd < vd := Nat.mod_lt _ hv
  by_cases hpk : p / vd = k
  · rw [if_pos hpk]
    have ep : p = vd * k + p % vd := by rw [← hpk, Nat.mul_comm]; exact hpv.symm
    have hlt : (ret.take (vd * k)).length = vd * k := by simp; omega
    rw [List.append_assoc, List.getD_eq_getElem?_getD, List.getElem?_append_right (by omega), hlt]
    have e2 : p - vd * k = p % vd := by omega
    rw [e2, List.getElem?_append_left (by simp; omega)]
    rw [List.getElem?_take_of_lt hpm, List.getElem?_drop, Nat.zero_add, List.getElem?_zipWith]
    rw [List.getElem?_take_of_lt hpm, List.getElem?_drop, ← ep, List.getElem?_map, List.getElem?_range hpm]
    have hpr : p < ret.length := by omega
    rw [List.getElem?_eq_getElem hpr, List.getD_eq_getElem?_getD, List.getElem?_eq_getElem hpr]
    simp only [Option.map_some, Option.getD_some]
    congr 1
    unfold innerVal
    rw [hlen]
    congr 1
    funext acc c
    rw [weight_of hker]
  · rw [if_neg hpk]
    rcases Nat.lt_or_gt_of_ne hpk with hlt | hgt
    · have : p < vd * k := by
        have : (p / vd + 1) * vd ≤ k * vd := Nat.mul_le_mul_right _ hlt
        have e : (p / vd + 1) * vd = p / vd * vd + vd := by ring
        have e' : k * vd = vd * k := Nat.mul_comm _ _
        omega
      rw [List.append_assoc, List.getD_eq_getElem?_getD, List.getElem?_append_left (by simp; omega), List.getElem?_take_of_lt this,
        List.getD_eq_getElem?_getD]
    · have : vd * k + vd ≤ p := by
        have : (k + 1) * vd ≤ p / vd * vd := Nat.mul_le_mul_right _ hgt
        have e : (k + 1) * vd = vd * k + vd := by ring
        omega
      rw [List.getD_eq_getElem?_getD, List.getElem?_append_right (by simp; omega), List.getElem?_drop, List.getD_eq_getElem?_getD]
      congr 2
      simp only [List.length_append, List.length_take, List.length_drop, List.length_zipWith, List.length_map, List.length_range]
      have q1 : min (vd * k) ret.length = vd * k := by omega
      have q2 : min vd (min (min vd (ret.length - vd * k)) vd - 0) = vd := by omega
      rw [q1, q2]
      omega

/-- The rounding error of `interpolate_1d`. -/
theorem innerVal_near (hA : A.Rounds u) {kf kn : Kern ℝ} {kk : Nat} (hk : KernClose u kf kn kk) {vd s0 s1 s2 : Nat} {buf : List ℝ}
    (hl : buf.length = volume vd [s0, s1, s2]) {i1 i2 : Nat} (h1 : i1 < s0) (h2 : i2 < s1) {t : ℝ}
    (hin : Inside kn.support s2 t ∨ ((kn.support : Int) - 1 ≤ ⌊t⌋ ∧ Int.fract t = 0 ∧ ⌊t⌋ + kn.support = s2))
    (hlast : kn.weight 0 (2 * kn.support - 1) = 0) {j : Nat} (hj : j < vd) :
    Near u (kk + 1 + 2 * kn.support) (innerVal A kf vd buf (flatInd (mkHdr vd [s0, s1, s2]) [i1, i2, 0]) t j)
      (∑ c ∈ Finset.range (2 * kn.support), kn.weight (Int.fract t) c * component vd (mkHdr vd [s0, s1, s2]) buf j i1 i2 (⌊t⌋ - (kn.support - 1 : Int) + c))
      (∑ c ∈ Finset.range (2 * kn.support), |kn.weight (Int.fract t) c| *
        |component vd (mkHdr vd [s0, s1, s2]) buf j i1 i2 (⌊t⌋ - (kn.support - 1 : Int) + c)|) := by
  have hu := hA.nonneg
  have hp : 0 < kn.support := hk.support ▸ hk.usable.support
  have z : Near u (kk + 1) 0 0 0 := by simpa using Near.refl hu (kk + 1) 0
  have h := Near.fold hA (k := kk) (l := 0) (fun c => kf.weight (Int.fract t) c) (fun c => kn.weight (Int.fract t) c) (fun c => |kn.weight (Int.fract t) c|)
    (fun c => buf.getD (flatInd (mkHdr vd [s0, s1, s2]) [i1, i2, 0] + vd * (⌊t⌋ - (kn.support - 1 : Int)).toNat + (vd * c + j)) 0) _ _ (List.range (2 * kn.support))
    (fun c hc => hk.near _ (Int.fract_nonneg t) (Int.fract_lt_one t) c (List.mem_range.1 hc)) (fun c _ => Near.refl hu 0 _) z (by omega)
  rw [zero_add, zero_add, List.length_range, sum_range_list, sum_range_list] at h
  unfold innerVal
  rw [hk.support]
  have key : ∀ c ∈ Finset.range (2 * kn.support), kn.weight (Int.fract t) c = 0 ∨
      buf.getD (flatInd (mkHdr vd [s0, s1, s2]) [i1, i2, 0] + vd * (⌊t⌋ - (kn.support - 1 : Int)).toNat + (vd * c + j)) 0 =
      component vd (mkHdr vd [s0, s1, s2]) buf j i1 i2 (⌊t⌋ - (kn.support - 1 : Int) + c) := by
    intro c hc
    have hc := Finset.mem_range.1 hc
    have a1 : (kn.support : Int) - 1 ≤ ⌊t⌋ := by
      rcases hin with h | h <;> exact h.1
    set lo := (⌊t⌋ - (kn.support - 1 : Int)).toNat with hlo
    by_cases hlast' : lo + c < s2
    · right
      have e3 : ⌊t⌋ - (kn.support - 1 : Int) + c = ((lo + c : Nat) : Int) := by push_cast; omega
      rw [e3, component_eq hl h1 h2 hlast' hj, flat3]
      congr 1
      ring
    · left
      rcases hin with h | h
      · have := h.2; omega
      · have e := h.2.2
        have ec : c = 2 * kn.support - 1 := by omega
        rw [h.2.1, ec]; exact hlast
  convert h using 1
  · apply Finset.sum_congr rfl
    intro c hc
    rcases key c hc with e | e
    · rw [e, zero_mul, zero_mul]
    · rw [e]
  · apply Finset.sum_congr rfl
    intro c hc
    rcases key c hc with e | e
    · rw [e, abs_zero, zero_mul, zero_mul]
    · rw [e]

/-- The sum of the magnitudes of all terms of the interpolation sum. -/
noncomputable def interpMag (kn : Kern ℝ) (G : Int → Int → Int → ℝ) (x y t : ℝ) : ℝ :=
  ∑ a ∈ Finset.range (2 * kn.support), ∑ b ∈ Finset.range (2 * kn.support), ∑ c ∈ Finset.range (2 * kn.support),
    |kn.weight (Int.fract x) a * kn.weight (Int.fract y) b * kn.weight (Int.fract t) c *
      G (⌊x⌋ - (kn.support - 1 : Int) + a) (⌊y⌋ - (kn.support - 1 : Int) + b) (⌊t⌋ - (kn.support - 1 : Int) + c)|

/-- The number of roundings that accumulate in one interpolated value. -/
def roundings (support kk : Nat) : Nat := 3 * kk + 3 + 2 * support + 2 * support * (2 * support)

theorem interpolateF_ok (hA : A.Rounds u) {kf kn : Kern ℝ} {kk : Nat} (hk : KernClose u kf kn kk) (hlast : kn.weight 0 (2 * kn.support - 1) = 0)
    {vd s0 s1 s2 : Nat} (hv : 0 < vd) {buf : List ℝ} (hl : buf.length = volume vd [s0, s1, s2])
    (hs0 : s0 < U64) (hs1 : s1 < U64) (hs2 : s2 < U64) {hr : Hdr} (hown : hr.owns = true) (ret : List ℝ) (x y start delta : ℝ) (n : Nat)
    (junk : Nat → ℝ) (hx : Inside kn.support s0 x) (hy : Inside kn.support s1 y)
    (ht : ∀ k : Nat, k < n → Inside kn.support s2 (sampleInd A start delta k) ∨ AtEnd kn.support s0 s1 s2 x y (sampleInd A start delta k)) :
    ∃ d, interpolateF A kf vd (mkHdr vd [s0, s1, s2]) buf hr ret x y start delta n junk = .ok (mkHdr vd [n], d) ∧ d.length = n * vd ∧
      ∀ k j : Nat, k < n → j < vd → ret.getD (vd * k + j) (junk (vd * k + j)) = 0 →
        |d.getD (vd * k + j) 0 - interpAt kn (component vd (mkHdr vd [s0, s1, s2]) buf j) x y (sampleInd A start delta k)| ≤
          ((1 + u) ^ roundings kn.support kk - 1) * interpMag kn (component vd (mkHdr vd [s0, s1, s2]) buf j) x y (sampleInd A start delta k) := by
  have hu := hA.nonneg
  have hus := hk.usable
  have es := hk.support
  have hp := hk.usable.support
  have hsm := hk.usable.small
  have hU : U64 = 2 ^ 64 := rfl
  obtain ⟨k0, hk0, l0⟩ := hk.usable.total (Int.fract x) (Int.fract_nonneg x) (Int.fract_lt_one x)
  obtain ⟨k1, hk1, l1⟩ := hk.usable.total (Int.fract y) (Int.fract_nonneg y) (Int.fract_lt_one y)
  rw [es] at hp hsm l0 l1
  unfold interpolateF
  have hres : resize vd hr ret [n] junk = .ok (mkHdr vd [n], (List.range (n * vd)).map fun k => ret.getD k (junk k)) := by
    simp [resize, hown, mkHdr, volume, numElems]
  rw [hres]
  simp only [Res.ok_bind]
  rw [modf_nonneg (hx.nonneg hp), modf_nonneg (hy.nonneg hp)]
  simp only
  have x1 := hx.1
  have x2 := hx.2
  have y1 := hy.1
  have y2 := hy.2
  rw [toSize_ok (n := ⌊x⌋) (by omega) (by omega), toSize_ok (n := ⌊y⌋) (by omega) (by omega)]
  simp only [Res.ok_bind, hk0, hk1]
  rw [es]
  obtain ⟨ex, cx⟩ := columns_eq hp hs0 hx
  obtain ⟨ey, cy⟩ := columns_eq hp hs1 hy
  rw [cx, cy, ex, ey]
  set lx := (⌊x⌋ - (kn.support - 1 : Int)).toNat with hlx
  set ly := (⌊y⌋ - (kn.support - 1 : Int)).toNat with hly
  let T : Nat → Nat → Nat → ℝ := fun i1 i2 p => innerVal A kf vd buf (flatInd (mkHdr vd [s0, s1, s2]) [i1, i2, 0]) (sampleInd A start delta (p / vd)) (p % vd)
  let W : Nat → Nat → ℝ := fun i1 i2 => A.mul (k0.getD (wsub i1 lx) 0) (k1.getD (wsub i2 ly) 0)
  have L1 : ∀ i1 ∈ List.range' lx (2 * kn.support), ∀ i2 ∈ List.range' ly (2 * kn.support), ∀ s : List ℝ, s.length = n * vd →
      ∃ s', runLoop (sampleStepF A kf vd buf (flatInd (mkHdr vd [s0, s1, s2]) [i1, i2, 0]) (W i1 i2) start delta (mkHdr vd [n])) (List.range n) s = .ok s' ∧
        s'.length = n * vd ∧ ∀ p, p < n * vd → s'.getD p 0 = A.mulAdd (T i1 i2 p) (W i1 i2) (s.getD p 0) := by
    intro i1 hi1 i2 hi2 s hs
    simp only [List.mem_range'_1] at hi1 hi2
    obtain ⟨s', e1, e2, e3⟩ := runLoop_upd _ (fun k p v => if p / vd = k then
        A.mulAdd (innerVal A kf vd buf (flatInd (mkHdr vd [s0, s1, s2]) [i1, i2, 0]) (sampleInd A start delta k) (p % vd)) (W i1 i2) v else v) (n * vd)
      (List.range n) (fun k hk' s hs => sampleStepF_ok hus hv hl hs2 (by omega) (by omega) (W i1 i2) start delta
        (List.mem_range.1 hk') rfl (by
          rw [es]
          exact (ht k (List.mem_range.1 hk')).imp_right fun h => ⟨h.1, h.2.1, h.2.2.1, by
            rcases h.2.2.2 with h | h
            · left; omega
            · right; omega⟩) s hs) s hs
    refine ⟨s', e1, e2, fun p hp' => ?_⟩
    rw [e3 p hp']
    have hpn : p / vd < n := by rw [Nat.div_lt_iff_lt_mul hv]; exact hp'
    have e4 : (List.range n).foldl (fun acc k => if p / vd = k then
        A.mulAdd (innerVal A kf vd buf (flatInd (mkHdr vd [s0, s1, s2]) [i1, i2, 0]) (sampleInd A start delta k) (p % vd)) (W i1 i2) acc else acc) (s.getD p 0) =
        (List.range n).foldl (fun acc k => if p / vd = k then A.mulAdd (T i1 i2 p) (W i1 i2) acc else acc) (s.getD p 0) := by
      congr 1
      funext acc k
      by_cases h : p / vd = k
      · rw [if_pos h, if_pos h, ← h]
      · rw [if_neg h, if_neg h]
    rw [e4, foldl_single (q := p / vd) (fun acc => A.mulAdd (T i1 i2 p) (W i1 i2) acc), if_pos hpn]
  have L2 : ∀ i1 ∈ List.range' lx (2 * kn.support), ∀ s : List ℝ, s.length = n * vd →
      ∃ s', runLoop (fun i2 ret => runLoop (sampleStepF A kf vd buf (flatInd (mkHdr vd [s0, s1, s2]) [i1, i2, 0]) (W i1 i2) start delta (mkHdr vd [n])) (List.range n) ret)
          (List.range' ly (2 * kn.support)) s = .ok s' ∧
        s'.length = n * vd ∧ ∀ p, p < n * vd → s'.getD p 0 = (List.range' ly (2 * kn.support)).foldl (fun acc i2 => A.mulAdd (T i1 i2 p) (W i1 i2) acc) (s.getD p 0) :=
    fun i1 hi1 s hs => runLoop_upd _ (fun i2 p acc => A.mulAdd (T i1 i2 p) (W i1 i2) acc) (n * vd) _ (L1 i1 hi1) s hs
  obtain ⟨d, e1, e2, e3⟩ := runLoop_upd _ (fun i1 p acc => (List.range' ly (2 * kn.support)).foldl (fun acc i2 => A.mulAdd (T i1 i2 p) (W i1 i2) acc) acc) (n * vd) _ L2
    ((List.range (n * vd)).map fun k => ret.getD k (junk k)) (by simp)
  refine ⟨d, ?_, e2, fun k j hkn hj hz => ?_⟩
  · rw [e1]; rfl
  · have hkj : vd * k + j < n * vd := by
      have : (k + 1) * vd ≤ n * vd := Nat.mul_le_mul_right _ hkn
      have e : (k + 1) * vd = vd * k + vd := by ring
      omega
    rw [e3 _ hkj]
    have e0 : ((List.range (n * vd)).map fun k => ret.getD k (junk k)).getD (vd * k + j) 0 = 0 := by
      rw [List.getD_eq_getElem?_getD, List.getElem?_map, List.getElem?_range hkj]; exact hz
    rw [e0]
    obtain ⟨d1, d2⟩ := mod_div_of (k := k) hj
    set t := sampleInd A start delta k with htk
    have z : Near u (3 * kk + 3 + 2 * kn.support) 0 0 0 := by simpa using Near.refl hu (3 * kk + 3 + 2 * kn.support) 0
    have h := Near.fold2 hA (k := kk + 1 + 2 * kn.support) (l := kk + kk + 1) (fun i1 i2 => T i1 i2 (vd * k + j))
      (fun i1 i2 => ∑ c ∈ Finset.range (2 * kn.support), kn.weight (Int.fract t) c * component vd (mkHdr vd [s0, s1, s2]) buf j i1 i2 (⌊t⌋ - (kn.support - 1 : Int) + c))
      (fun i1 i2 => ∑ c ∈ Finset.range (2 * kn.support), |kn.weight (Int.fract t) c| *
        |component vd (mkHdr vd [s0, s1, s2]) buf j i1 i2 (⌊t⌋ - (kn.support - 1 : Int) + c)|)
      W (fun i1 i2 => kn.weight (Int.fract x) (i1 - lx) * kn.weight (Int.fract y) (i2 - ly))
      (fun i1 i2 => |kn.weight (Int.fract x) (i1 - lx)| * |kn.weight (Int.fract y) (i2 - ly)|)
      (List.range' lx (2 * kn.support)) (List.range' ly (2 * kn.support))
      (fun i1 hi1 i2 hi2 => by
        simp only [List.mem_range'_1] at hi1 hi2
        simp only [T, d1, d2]
        exact innerVal_near hA hk hl (by omega) (by omega) ((ht k hkn).imp_right fun h => ⟨h.1, h.2.1, h.2.2.1⟩) hlast hj)
      (fun i1 hi1 i2 hi2 => by
        simp only [List.mem_range'_1] at hi1 hi2
        simp only [W]
        rw [wsub_eq (by omega) (by omega), wsub_eq (by omega) (by omega), ← weight_of hk0, ← weight_of hk1]
        exact (hk.near _ (Int.fract_nonneg x) (Int.fract_lt_one x) _ (by omega)).mul hA (hk.near _ (Int.fract_nonneg y) (Int.fract_lt_one y) _ (by omega)))
      z (by omega)
    rw [zero_add, zero_add, List.length_range', List.length_range'] at h
    have h' := h.1
    have q3 : ∀ a, a < 2 * kn.support → ((lx + a : Nat) : Int) = ⌊x⌋ - (kn.support - 1 : Int) + a := fun a _ => by push_cast; omega
    have q4 : ∀ b, b < 2 * kn.support → ((ly + b : Nat) : Int) = ⌊y⌋ - (kn.support - 1 : Int) + b := fun b _ => by push_cast; omega
    have r1 : interpAt kn (component vd (mkHdr vd [s0, s1, s2]) buf j) x y t =
        ((List.range' lx (2 * kn.support)).map fun i1 : Nat => ((List.range' ly (2 * kn.support)).map fun i2 : Nat =>
          (∑ c ∈ Finset.range (2 * kn.support), kn.weight (Int.fract t) c * component vd (mkHdr vd [s0, s1, s2]) buf j i1 i2 (⌊t⌋ - (kn.support - 1 : Int) + c)) *
          (kn.weight (Int.fract x) (i1 - lx) * kn.weight (Int.fract y) (i2 - ly))).sum).sum := by
      unfold interpAt
      rw [sum_range'_list]
      apply Finset.sum_congr rfl
      intro a ha
      have ha := Finset.mem_range.1 ha
      rw [sum_range'_list]
      apply Finset.sum_congr rfl
      intro b hb
      have hb := Finset.mem_range.1 hb
      rw [Finset.sum_mul]
      apply Finset.sum_congr rfl
      intro c _
      rw [q3 a ha, q4 b hb, Nat.add_sub_cancel_left, Nat.add_sub_cancel_left]
      ring
    have r2 : interpMag kn (component vd (mkHdr vd [s0, s1, s2]) buf j) x y t =
        ((List.range' lx (2 * kn.support)).map fun i1 : Nat => ((List.range' ly (2 * kn.support)).map fun i2 : Nat =>
          (∑ c ∈ Finset.range (2 * kn.support), |kn.weight (Int.fract t) c| * |component vd (mkHdr vd [s0, s1, s2]) buf j i1 i2 (⌊t⌋ - (kn.support - 1 : Int) + c)|) *
          (|kn.weight (Int.fract x) (i1 - lx)| * |kn.weight (Int.fract y) (i2 - ly)|)).sum).sum := by
      unfold interpMag
      rw [sum_range'_list]
      apply Finset.sum_congr rfl
      intro a ha
      have ha := Finset.mem_range.1 ha
      rw [sum_range'_list]
      apply Finset.sum_congr rfl
      intro b hb
      have hb := Finset.mem_range.1 hb
      rw [Finset.sum_mul]
      apply Finset.sum_congr rfl
      intro c _
      rw [q3 a ha, q4 b hb, Nat.add_sub_cancel_left, Nat.add_sub_cancel_left, abs_mul, abs_mul, abs_mul]
      ring
    rw [r1, r2]
    exact h'

end Verif.Green
