import Verif.Green.Interp
import Mathlib.Analysis.Real.Sqrt
import Mathlib.Algebra.Order.Archimedean.Real.Basic
import Mathlib.Tactic.LinearCombination
import Mathlib.Tactic.FinCases
import Mathlib.Tactic.FieldSimp
import Mathlib.Tactic.IntervalCases
import Mathlib.Tactic.NormNum
/-
C36: the interpolation kernels reproduce samples and low-order polynomials.
-/
namespace Verif.Green
open Verif Verif.ND

set_option linter.unusedSectionVars false

variable {K : Type} [Field K] [LinearOrder K] [IsStrictOrderedRing K] [FloorRing K]

/-- Interpolation along one axis. -/
def interp1 (kn : Kern K) (g : Int → K) (x : K) : K :=
  ∑ a ∈ Finset.range (2 * kn.support), kn.weight (Int.fract x) a * g (⌊x⌋ - (kn.support - 1 : Int) + a)

theorem interpAt_eq (kn : Kern K) (G : Int → Int → Int → K) (x y t : K) :
    interpAt kn G x y t = interp1 kn (fun i => interp1 kn (fun j => interp1 kn (fun k => G i j k) t) y) x := by
  unfold interpAt interp1
  apply Finset.sum_congr rfl; intro a _
  rw [Finset.mul_sum]
  apply Finset.sum_congr rfl; intro b _
  rw [Finset.mul_sum, Finset.mul_sum]
  apply Finset.sum_congr rfl; intro c _
  ring

theorem linear_weight (f : K) (h0 : 0 ≤ f) (h1 : f < 1) :
    (linear (K := K)).weight f 0 = 1 - f ∧ (linear (K := K)).weight f 1 = f := by
  simp [Kern.weight, linear, h0, h1]

theorem keys_weight (s7 f : K) (h0 : 0 ≤ f) (h1 : f < 1) :
    (keys s7).weight f 0 = -(1 / 2) * f * (f - 1) * (f - 1) ∧
    (keys s7).weight f 1 = 3 / 2 * (f - (1 - s7) / 3) * ((f - (1 + s7) / 3) * (f - 1)) ∧
    (keys s7).weight f 2 = (f - 1 / 3 * (2 - s7)) * (f - 1 / 3 * (2 + s7)) * (f * -(3 / 2)) ∧
    (keys s7).weight f 3 = (f - 1) * (1 / 2) * (f * f) := by
  simp [Kern.weight, keys, h0, h1]

/-- The kernel reproduces all polynomials of degree at most `d`, in one dimension. -/
def Exact1 (kn : Kern K) (d : Nat) : Prop := ∀ (c : Nat → K) (x : K),
  interp1 kn (fun i => ∑ a ∈ Finset.range (d + 1), c a * (i : K) ^ a) x = ∑ a ∈ Finset.range (d + 1), c a * x ^ a

theorem linear_exact1 : Exact1 (linear (K := K)) 1 := by
  intro c x
  obtain ⟨w0, w1⟩ := linear_weight (Int.fract x) (Int.fract_nonneg x) (Int.fract_lt_one x)
  have hs : (linear (K := K)).support = 1 := rfl
  unfold interp1
  rw [hs]
  simp only [Nat.mul_one, Finset.sum_range_succ, Finset.sum_range_zero, w0, w1]
  have hx : x = ⌊x⌋ + Int.fract x := (Int.floor_add_fract x).symm
  generalize ⌊x⌋ = n at *
  generalize Int.fract x = f at *
  subst hx
  push_cast
  ring

theorem keys_exact1 (s7 : K) (h7 : s7 * s7 = 7) : Exact1 (keys s7) 2 := by
  intro c x
  obtain ⟨w0, w1, w2, w3⟩ := keys_weight s7 (Int.fract x) (Int.fract_nonneg x) (Int.fract_lt_one x)
  have hs : (keys s7).support = 2 := rfl
  unfold interp1
  rw [hs]
  simp only [show 2 * 2 = 4 from rfl, Finset.sum_range_succ, Finset.sum_range_zero, w0, w1, w2, w3]
  have hx : x = ⌊x⌋ + Int.fract x := (Int.floor_add_fract x).symm
  generalize ⌊x⌋ = n at *
  generalize Int.fract x = f at *
  subst hx
  push_cast
  have e1 : (3 : K) / 2 * (f - (1 - s7) / 3) * ((f - (1 + s7) / 3) * (f - 1)) = 1 - 5 / 2 * f ^ 2 + 3 / 2 * f ^ 3 := by
    linear_combination (-(1 / 6) * (f - 1)) * h7
  have e2 : (f - 1 / 3 * (2 - s7)) * (f - 1 / 3 * (2 + s7)) * (f * -(3 / 2)) = 1 / 2 * f + 2 * f ^ 2 - 3 / 2 * f ^ 3 := by
    linear_combination (1 / 6 * f) * h7
  rw [e1, e2]
  ring

theorem Exact1.three {kn : Kern K} {d : Nat} (h : Exact1 kn d) (c : Nat → Nat → Nat → K) (x y t : K) :
    interpAt kn (fun i j k => ∑ a ∈ Finset.range (d + 1), ∑ b ∈ Finset.range (d + 1), ∑ e ∈ Finset.range (d + 1),
      c a b e * (i : K) ^ a * (j : K) ^ b * (k : K) ^ e) x y t =
    ∑ a ∈ Finset.range (d + 1), ∑ b ∈ Finset.range (d + 1), ∑ e ∈ Finset.range (d + 1), c a b e * x ^ a * y ^ b * t ^ e := by
  rw [interpAt_eq]
  have h1 : ∀ i j : Int, interp1 kn (fun k => ∑ a ∈ Finset.range (d + 1), ∑ b ∈ Finset.range (d + 1), ∑ e ∈ Finset.range (d + 1),
      c a b e * (i : K) ^ a * (j : K) ^ b * (k : K) ^ e) t =
      ∑ b ∈ Finset.range (d + 1), (∑ a ∈ Finset.range (d + 1), ∑ e ∈ Finset.range (d + 1), c a b e * (i : K) ^ a * t ^ e) * (j : K) ^ b := by
    intro i j
    have := h (fun e => ∑ a ∈ Finset.range (d + 1), ∑ b ∈ Finset.range (d + 1), c a b e * (i : K) ^ a * (j : K) ^ b) t
    have e1 : (fun k : Int => ∑ a ∈ Finset.range (d + 1), ∑ b ∈ Finset.range (d + 1), ∑ e ∈ Finset.range (d + 1),
        c a b e * (i : K) ^ a * (j : K) ^ b * (k : K) ^ e) =
        fun k : Int => ∑ e ∈ Finset.range (d + 1), (∑ a ∈ Finset.range (d + 1), ∑ b ∈ Finset.range (d + 1), c a b e * (i : K) ^ a * (j : K) ^ b) * (k : K) ^ e := by
      funext k
      simp only [Finset.sum_mul]
      conv_rhs => rw [Finset.sum_comm]
      apply Finset.sum_congr rfl; intro a _
      rw [Finset.sum_comm]
    rw [e1, this]
    simp only [Finset.sum_mul]
    rw [Finset.sum_comm]
    conv_rhs => rw [Finset.sum_comm]
    apply Finset.sum_congr rfl; intro a _
    rw [Finset.sum_comm]
    apply Finset.sum_congr rfl; intro b _
    apply Finset.sum_congr rfl; intro e _
    ring
  simp only [h1]
  have h2 : ∀ i : Int, interp1 kn (fun j => ∑ b ∈ Finset.range (d + 1), (∑ a ∈ Finset.range (d + 1), ∑ e ∈ Finset.range (d + 1), c a b e * (i : K) ^ a * t ^ e) * (j : K) ^ b) y =
      ∑ a ∈ Finset.range (d + 1), (∑ b ∈ Finset.range (d + 1), ∑ e ∈ Finset.range (d + 1), c a b e * y ^ b * t ^ e) * (i : K) ^ a := by
    intro i
    rw [h]
    simp only [Finset.sum_mul]
    rw [Finset.sum_comm]
    apply Finset.sum_congr rfl; intro a _
    apply Finset.sum_congr rfl; intro b _
    apply Finset.sum_congr rfl; intro e _
    ring
  simp only [h2]
  rw [h]
  simp only [Finset.sum_mul]
  apply Finset.sum_congr rfl; intro a _
  apply Finset.sum_congr rfl; intro b _
  apply Finset.sum_congr rfl; intro e _
  ring

/-- Every kernel reproduces the samples if its weights at 0 are the unit vector at position `support - 1`. -/
theorem interp1_int {kn : Kern K} (h0 : ∀ a < 2 * kn.support, kn.weight 0 a = if a = kn.support - 1 then 1 else 0) (hp : 0 < kn.support)
    (g : Int → K) (i : Int) : interp1 kn g (i : K) = g i := by
  unfold interp1
  rw [Finset.sum_eq_single (kn.support - 1)]
  · rw [Int.fract_intCast, h0 _ (by omega), if_pos rfl, one_mul, Int.floor_intCast]
    congr 1
    omega
  · intro b hb hne
    rw [Int.fract_intCast, h0 _ (Finset.mem_range.1 hb), if_neg hne, zero_mul]
  · intro h; exact absurd (Finset.mem_range.2 (by omega)) h

theorem linear_zero (a : Nat) (ha : a < 2 * (linear (K := K)).support) :
    (linear (K := K)).weight 0 a = if a = (linear (K := K)).support - 1 then 1 else 0 := by
  obtain ⟨w0, w1⟩ := linear_weight (0 : K) le_rfl one_pos
  have hs : (linear (K := K)).support = 1 := rfl
  rw [hs] at ha ⊢
  match a, ha with
  | 0, _ => simp [w0]
  | 1, _ => simp [w1]

theorem keys_zero (s7 : K) (h7 : s7 * s7 = 7) (a : Nat) (ha : a < 2 * (keys s7).support) :
    (keys s7).weight 0 a = if a = (keys s7).support - 1 then 1 else 0 := by
  obtain ⟨w0, w1, w2, w3⟩ := keys_weight s7 (0 : K) le_rfl one_pos
  have hs : (keys s7).support = 2 := rfl
  rw [hs] at ha ⊢
  match a, ha with
  | 0, _ => simp [w0]
  | 1, _ =>
    rw [w1]; simp only [show (2 : Nat) - 1 = 1 from rfl, if_true]
    linear_combination (1 / 6 : K) * h7
  | 2, _ => simp [w2]
  | 3, _ => simp [w3]

/-! ### The property -/

/-- The two kernels of the program, with the exact constant `√7`. -/
inductive IsKernel : Kern ℝ → Prop
  | linear : IsKernel linear
  | keys : IsKernel (keys (Real.sqrt 7))

theorem sqrt7 : Real.sqrt 7 * Real.sqrt 7 = 7 := Real.mul_self_sqrt (by norm_num)

/-- C36. At every fractional position, both kernels can be evaluated and their `2 * support` weights sum to one. -/
theorem C36_weights_sum (kn : Kern ℝ) (hk : IsKernel kn) (f : ℝ) (h0 : 0 ≤ f) (h1 : f < 1) :
    ∃ w : List ℝ, kn.kern f = .ok w ∧ w.length = 2 * kn.support ∧ w.sum = 1 := by
  cases hk with
  | linear => exact ⟨[1 - f, f], by simp [linear, h0, h1], rfl, by simp⟩
  | keys =>
    have h : Res.assert (decide (0 ≤ f) && decide (f < 1)) = .ok () := by simp [h0, h1]
    simp only [keys, h, Res.ok_bind]
    refine ⟨_, rfl, rfl, ?_⟩
    simp only [List.sum_cons, List.sum_nil]
    linear_combination (1 / 6 : ℝ) * sqrt7

/-- C36. At integer positions, both kernels reproduce the sample exactly, whatever the data are. -/
theorem C36_reproduces_samples (kn : Kern ℝ) (hk : IsKernel kn) (G : Int → Int → Int → ℝ) (i j k : Int) : interpAt kn G i j k = G i j k := by
  have h0 : (∀ a < 2 * kn.support, kn.weight 0 a = if a = kn.support - 1 then 1 else 0) ∧ 0 < kn.support := by
    cases hk with
    | linear => exact ⟨linear_zero, Nat.one_pos⟩
    | keys => exact ⟨keys_zero _ sqrt7, Nat.two_pos⟩
  rw [interpAt_eq]
  simp only [interp1_int h0.1 h0.2]

/-- C36. The linear kernel reproduces all data that are affine along every axis: a sum of the terms `c · iᵃ jᵇ kᵉ` with exponents at most 1. -/
theorem C36_linear_exact (c : Nat → Nat → Nat → ℝ) (x y t : ℝ) :
    interpAt linear (fun i j k => ∑ a ∈ Finset.range 2, ∑ b ∈ Finset.range 2, ∑ e ∈ Finset.range 2, c a b e * (i : ℝ) ^ a * (j : ℝ) ^ b * (k : ℝ) ^ e) x y t =
    ∑ a ∈ Finset.range 2, ∑ b ∈ Finset.range 2, ∑ e ∈ Finset.range 2, c a b e * x ^ a * y ^ b * t ^ e :=
  linear_exact1.three c x y t

/-- C36. The Keys kernel reproduces all data that are quadratic along every axis (exponents at most 2). -/
theorem C36_keys_exact (c : Nat → Nat → Nat → ℝ) (x y t : ℝ) :
    interpAt (keys (Real.sqrt 7)) (fun i j k => ∑ a ∈ Finset.range 3, ∑ b ∈ Finset.range 3, ∑ e ∈ Finset.range 3, c a b e * (i : ℝ) ^ a * (j : ℝ) ^ b * (k : ℝ) ^ e) x y t =
    ∑ a ∈ Finset.range 3, ∑ b ∈ Finset.range 3, ∑ e ∈ Finset.range 3, c a b e * x ^ a * y ^ b * t ^ e :=
  (keys_exact1 _ sqrt7).three c x y t

/-- C36 for the function itself: if the elements of a three-dimensional array are samples of a function `p` whose data the kernel reproduces
    (`hp`; see `C36_reproduces_samples`, `C36_linear_exact`, `C36_keys_exact`), then `interpolate` called with a cleared output array writes the value of `p` at the
    requested positions, in every component. -/
theorem C36_interpolate (kn : Kern ℝ) (hk : IsKernel kn) (vd s0 s1 s2 : Nat) (hv : 0 < vd) (buf : List ℝ) (hl : buf.length = volume vd [s0, s1, s2])
    (hs0 : s0 < U64) (hs1 : s1 < U64) (hs2 : s2 < U64) (p : Nat → ℝ → ℝ → ℝ → ℝ)
    (hdata : ∀ i j k, i < s0 → j < s1 → k < s2 → ∃ v, ND.read vd (mkHdr vd [s0, s1, s2]) buf [i, j, k] = .ok v ∧ v.length = vd ∧ ∀ c, c < vd → v.getD c 0 = p c i j k)
    (x y start delta : ℝ) (n : Nat) (junk : Nat → ℝ)
    (hp : ∀ c k : Nat, c < vd → k < n → interpAt kn (fun i j k => p c i j k) x y (start + k * delta) = p c x y (start + k * delta))
    (hx : Inside kn.support s0 x) (hy : Inside kn.support s1 y) (ht : ∀ k : Nat, k < n → Inside kn.support s2 (start + k * delta)) :
    ∃ d, interpolate kn vd (mkHdr vd [s0, s1, s2]) buf (mkHdr vd [n]) (List.replicate (n * vd) 0) x y start delta n junk = .ok (mkHdr vd [n], d) ∧
      ∀ k c, k < n → c < vd → d.getD (vd * k + c) 0 = p c x y (start + k * delta) := by
  have hu : kn.Usable := by
    cases hk with
    | linear => exact linear_usable
    | keys => exact keys_usable _
  obtain ⟨d, e1, e2, e3⟩ := interpolate_ok hu hv hl hs0 hs1 hs2 (hr := mkHdr vd [n]) rfl (List.replicate (n * vd) 0) x y start delta n junk hx hy (fun k hk => Or.inl (ht k hk))
  refine ⟨d, e1, fun k c hkn hc => ?_⟩
  rw [e3 k c hkn hc, ← hp c k hc hkn]
  have hlt : vd * k + c < n * vd := by
    have : (k + 1) * vd ≤ n * vd := Nat.mul_le_mul_right _ hkn
    have e : (k + 1) * vd = vd * k + vd := by ring
    omega
  have hz : (List.replicate (n * vd) (0 : ℝ)).getD (vd * k + c) (junk (vd * k + c)) = 0 := by
    rw [List.getD_eq_getElem?_getD, List.getElem?_replicate, if_pos hlt]; rfl
  rw [hz, zero_add]
  unfold interpAt
  have x1 := hx.1
  have x2 := hx.2
  have y1 := hy.1
  have y2 := hy.2
  have t1 := (ht k hkn).1
  have t2 := (ht k hkn).2
  have hps := hu.support
  apply Finset.sum_congr rfl; intro a ha
  apply Finset.sum_congr rfl; intro b hb
  apply Finset.sum_congr rfl; intro e he
  have ha := Finset.mem_range.1 ha
  have hb := Finset.mem_range.1 hb
  have he := Finset.mem_range.1 he
  congr 1
  obtain ⟨i, hi⟩ : ∃ i : Nat, ⌊x⌋ - (kn.support - 1 : Int) + a = i := ⟨(⌊x⌋ - (kn.support - 1 : Int) + a).toNat, by omega⟩
  obtain ⟨j, hj⟩ : ∃ i : Nat, ⌊y⌋ - (kn.support - 1 : Int) + b = i := ⟨(⌊y⌋ - (kn.support - 1 : Int) + b).toNat, by omega⟩
  obtain ⟨l, hl'⟩ : ∃ i : Nat, ⌊start + k * delta⌋ - (kn.support - 1 : Int) + e = i := ⟨(⌊start + k * delta⌋ - (kn.support - 1 : Int) + e).toNat, by omega⟩
  rw [hi, hj, hl']
  obtain ⟨v, r1, _, r3⟩ := hdata i j l (by omega) (by omega) (by omega)
  unfold component
  rw [Int.toNat_natCast, Int.toNat_natCast, Int.toNat_natCast, r1]
  simp only [Int.cast_natCast]
  exact r3 c hc

/-- The constant matters: with any other number `s7` in place of `√7` (such as its rounding to `float`), the weights of the Keys kernel sum, at every position, to
    `1 + (s7² - 7) / 6`. The weights of the linear kernel involve no constants. -/
theorem C36_rounded_constant (s7 f : ℝ) (h0 : 0 ≤ f) (h1 : f < 1) : ∃ w : List ℝ, (keys s7).kern f = .ok w ∧ w.sum = 1 + (s7 ^ 2 - 7) / 6 := by
  have h : Res.assert (decide (0 ≤ f) && decide (f < 1)) = .ok () := by simp [h0, h1]
  simp only [keys, h, Res.ok_bind]
  refine ⟨_, rfl, ?_⟩
  simp only [List.sum_cons, List.sum_nil]
  ring

namespace Ex36

-- a 2 x 2 x 3 array with the affine data `1 + 2 i + 3 j + 4 k`: interpolation at (1/2, 1/4) and times 0, 3/4, 3/2
def data : List Rat := [1, 5, 9, 4, 8, 12, 3, 7, 11, 6, 10, 14]

example : interpolate (linear (K := Rat)) 1 (mkHdr 1 [2, 2, 3]) data (mkHdr 1 [3]) [0, 0, 0] (1/2) (1/4) 0 (3/4) 3 (fun _ => 7) =
    .ok (mkHdr 1 [3], [11/4, 23/4, 35/4]) := by decide +kernel

-- the hypotheses of `C36_interpolate` are met by this array (here over the reals)
noncomputable def dataR : List ℝ := [1, 5, 9, 4, 8, 12, 3, 7, 11, 6, 10, 14]

example : ∃ d, interpolate linear 1 (mkHdr 1 [2, 2, 3]) dataR (mkHdr 1 [2]) (List.replicate (2 * 1) 0) (1/2) (1/4) 0 (3/4) 2 (fun _ => 7) = .ok (mkHdr 1 [2], d) ∧
    ∀ k c : Nat, k < 2 → c < 1 → d.getD (1 * k + c) 0 = 1 + 2 * (1/2 : ℝ) + 3 * (1/4 : ℝ) + 4 * (0 + k * (3/4)) := by
  have hf : ⌊(1/2 : ℝ)⌋ = 0 := by norm_num [Int.floor_eq_iff]
  have hg : ⌊(1/4 : ℝ)⌋ = 0 := by norm_num [Int.floor_eq_iff]
  have h3 : ⌊(3/4 : ℝ)⌋ = 0 := by norm_num [Int.floor_eq_iff]
  have hs : (linear (K := ℝ)).support = 1 := rfl
  refine C36_interpolate linear .linear 1 2 2 3 (by decide) dataR rfl (by decide) (by decide) (by decide) (fun _ x y t => 1 + 2 * x + 3 * y + 4 * t) ?_ _ _ _ _ 2 _ ?_ ?_ ?_ ?_
  · intro i j k hi hj hk
    interval_cases i <;> interval_cases j <;> interval_cases k <;>
      exact ⟨_, rfl, rfl, by intro c hc; interval_cases c; norm_num [dataR, mkHdr, flatInd, computeStrides, stridesAux]⟩
  · intro c k _ _
    have := C36_linear_exact (fun a b e : Nat => if a = 0 ∧ b = 0 ∧ e = 0 then (1 : ℝ) else if a = 1 ∧ b = 0 ∧ e = 0 then 2 else
      if a = 0 ∧ b = 1 ∧ e = 0 then 3 else if a = 0 ∧ b = 0 ∧ e = 1 then 4 else 0) (1/2) (1/4) (0 + k * (3/4))
    simp only [Finset.sum_range_succ, Finset.sum_range_zero] at this
    norm_num at this ⊢
    have e : (fun i j k : Int => (1 : ℝ) + 2 * i + 3 * j + 4 * k) = fun i j k : Int => 1 + 4 * (k : ℝ) + 3 * j + 2 * i := by
      funext i j k; ring
    rw [e, this]; ring
  · rw [hs]; unfold Inside; rw [hf]; decide
  · rw [hs]; unfold Inside; rw [hg]; decide
  · intro k hk
    rw [hs]; unfold Inside
    interval_cases k
    · norm_num
    · norm_num [h3]

end Ex36

end Verif.Green
