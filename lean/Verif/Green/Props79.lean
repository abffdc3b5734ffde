import Verif.Green.Rounding
import Mathlib.Data.Int.Log
/-
C79: rounding errors of the interpolation.
-/
namespace Verif.Green
open Verif Verif.ND

set_option linter.unusedSectionVars false

/-! ### Two arithmetics -/

/-- Exact arithmetic. -/
noncomputable def exactA : Arith where
  add a b := a + b
  sub a b := a - b
  mul a b := a * b
  div a b := a / b
  mulAdd a b c := c + a * b
  ofNat n := n
  const c := c

theorem exactA_rounds : exactA.Rounds 0 where
  nonneg := le_rfl
  add a b := by simp [exactA]
  sub a b := by simp [exactA]
  mul a b := by simp [exactA]
  div a b := by simp [exactA]
  mulAdd a b c := ⟨a * b, by simp, by simp [exactA]⟩
  ofNat n := by simp [exactA]
  const c := by simp [exactA]

/-- Rounding to the nearest integer, ties to even. -/
noncomputable def nearest (x : ℝ) : ℤ := if Int.fract x < 1 / 2 ∨ (Int.fract x = 1 / 2 ∧ Even ⌊x⌋) then ⌊x⌋ else ⌊x⌋ + 1

theorem abs_sub_nearest (x : ℝ) : |x - nearest x| ≤ 1 / 2 := by
  have h := Int.floor_add_fract x
  have h1 := Int.fract_lt_one x
  have h0 := Int.fract_nonneg x
  unfold nearest
  rw [abs_le]
  split
  · next c =>
    have : Int.fract x ≤ 1 / 2 := by
      rcases c with c | c
      · exact c.le
      · exact c.1.le
    constructor <;> linarith
  · next c =>
    have : 1 / 2 ≤ Int.fract x := not_lt.1 fun hc => c (Or.inl hc)
    push_cast
    constructor <;> linarith

theorem nearest_eq {x : ℝ} {m : ℤ} (h : |x - m| < 1 / 2) : nearest x = m := by
  have h1 := abs_sub_nearest x
  have h2 : |((nearest x - m : ℤ) : ℝ)| < 1 := by
    have := abs_sub_le (nearest x : ℝ) x m
    rw [abs_sub_comm (nearest x : ℝ) x] at this
    push_cast
    linarith
  have h3 : |nearest x - m| < 1 := by exact_mod_cast h2
  rw [Int.abs_lt_one_iff] at h3
  omega

theorem nearest_int (m : ℤ) : nearest (m : ℝ) = m := nearest_eq (by rw [sub_self, abs_zero]; norm_num)

theorem nearest_tie {m : ℤ} (h : Even m) : nearest ((m : ℝ) + 1 / 2) = m := by
  have f : ⌊(m : ℝ) + 1 / 2⌋ = m := by
    rw [Int.floor_eq_iff]; constructor <;> linarith
  unfold nearest
  have fr : Int.fract ((m : ℝ) + 1 / 2) = 1 / 2 := by
    rw [Int.fract_intCast_add, Int.fract_eq_self]; constructor <;> norm_num
  rw [if_pos (Or.inr ⟨fr, by rw [f]; exact h⟩), f]

/-- Rounding to the nearest number with 24 significant binary digits (ties to even), the format of `float` with an unlimited range of exponents. -/
noncomputable def round24 (x : ℝ) : ℝ := nearest (x / 2 ^ (Int.log 2 |x| - 23)) * 2 ^ (Int.log 2 |x| - 23)

theorem log2_eq {x : ℝ} {e : ℤ} (h1 : (2 : ℝ) ^ e ≤ x) (h2 : x < 2 ^ (e + 1)) : Int.log 2 |x| = e := by
  have hpos : 0 < x := lt_of_lt_of_le (zpow_pos (by norm_num) _) h1
  rw [abs_of_pos hpos]
  apply le_antisymm
  · rw [← Int.lt_add_one_iff, ← Int.lt_zpow_iff_log_lt (by norm_num) hpos]; exact_mod_cast h2
  · rw [← Int.zpow_le_iff_le_log (by norm_num) hpos]; exact_mod_cast h1

/-- Evaluation of `round24` on a number between `2^e` and `2^(e+1)`. -/
theorem round24_eq {x : ℝ} (e m : ℤ) (h1 : (2 : ℝ) ^ e ≤ x) (h2 : x < 2 ^ (e + 1)) (h : |x / 2 ^ (e - 23) - m| < 1 / 2) : round24 x = m * 2 ^ (e - 23) := by
  unfold round24
  rw [log2_eq h1 h2, nearest_eq h]

theorem round24_tie {x : ℝ} (e m : ℤ) (h1 : (2 : ℝ) ^ e ≤ x) (h2 : x < 2 ^ (e + 1)) (h : x / 2 ^ (e - 23) = m + 1 / 2) (hm : Even m) : round24 x = m * 2 ^ (e - 23) := by
  unfold round24
  rw [log2_eq h1 h2, h, nearest_tie hm]

theorem round24_error (x : ℝ) : |round24 x - x| ≤ (2 ^ 24)⁻¹ * |x| := by
  by_cases hx : x = 0
  · have := nearest_int 0
    simp only [Int.cast_zero] at this
    simp [hx, round24, this]
  have hpos : 0 < |x| := abs_pos.2 hx
  have h1 : ((2 : ℕ) : ℝ) ^ Int.log 2 |x| ≤ |x| := Int.zpow_log_le_self (by norm_num) hpos
  push_cast at h1
  set e := Int.log 2 |x| with he
  have hq : (0 : ℝ) < 2 ^ (e - 23) := zpow_pos (by norm_num) _
  have h2 := abs_sub_nearest (x / 2 ^ (e - 23))
  have e1 : round24 x - x = -((x / 2 ^ (e - 23) - nearest (x / 2 ^ (e - 23))) * 2 ^ (e - 23)) := by
    unfold round24
    rw [← he, sub_mul, div_mul_cancel₀ _ hq.ne']
    ring
  rw [e1, abs_neg, abs_mul, abs_of_pos hq]
  have h3 : (2 : ℝ) ^ (e - 23) = 2 * (2 ^ 24)⁻¹ * 2 ^ e := by
    rw [zpow_sub₀ (by norm_num)]
    norm_num
    ring
  calc |x / 2 ^ (e - 23) - nearest (x / 2 ^ (e - 23))| * 2 ^ (e - 23) ≤ 1 / 2 * 2 ^ (e - 23) := mul_le_mul_of_nonneg_right h2 hq.le
    _ = (2 ^ 24)⁻¹ * 2 ^ e := by rw [h3]; ring
    _ ≤ (2 ^ 24)⁻¹ * |x| := mul_le_mul_of_nonneg_left h1 (by positivity)

/-- Single-precision arithmetic with an unlimited range of exponents. -/
noncomputable def singleA : Arith where
  add a b := round24 (a + b)
  sub a b := round24 (a - b)
  mul a b := round24 (a * b)
  div a b := round24 (a / b)
  mulAdd a b c := round24 (c + round24 (a * b))
  ofNat n := round24 n
  const c := round24 c

theorem singleA_rounds : singleA.Rounds (2 ^ 24)⁻¹ where
  nonneg := by positivity
  add a b := round24_error _
  sub a b := round24_error _
  mul a b := round24_error _
  div a b := round24_error _
  mulAdd a b c := ⟨round24 (a * b), round24_error _, round24_error _⟩
  ofNat n := by
    have := round24_error (n : ℝ)
    rwa [abs_of_nonneg (Nat.cast_nonneg n : (0 : ℝ) ≤ n)] at this
  const c := round24_error _

/-- The same with `c += a * b` contracted to a fused multiply-add. -/
noncomputable def fusedA : Arith := { singleA with mulAdd := fun a b c => round24 (c + a * b) }

theorem fusedA_rounds : fusedA.Rounds (2 ^ 24)⁻¹ where
  nonneg := singleA_rounds.nonneg
  add := singleA_rounds.add
  sub := singleA_rounds.sub
  mul := singleA_rounds.mul
  div := singleA_rounds.div
  mulAdd a b c := ⟨a * b, by rw [sub_self, abs_zero]; positivity, round24_error _⟩
  ofNat := singleA_rounds.ofNat
  const := singleA_rounds.const

/-! ### Magnitudes -/

/-- The sum of the absolute values of the weights. -/
noncomputable def absSum (kn : Kern ℝ) (f : ℝ) : ℝ := ∑ a ∈ Finset.range (2 * kn.support), |kn.weight f a|

theorem interpMag_le (kn : Kern ℝ) (G : Int → Int → Int → ℝ) {M : ℝ} (hG : ∀ i j k, |G i j k| ≤ M) (x y t : ℝ) :
    interpMag kn G x y t ≤ absSum kn (Int.fract x) * absSum kn (Int.fract y) * absSum kn (Int.fract t) * M := by
  unfold interpMag absSum
  rw [Finset.sum_mul_sum, Finset.sum_mul, Finset.sum_mul]
  apply Finset.sum_le_sum
  intro a _
  rw [Finset.sum_mul, Finset.sum_mul]
  apply Finset.sum_le_sum
  intro b _
  rw [Finset.mul_sum, Finset.sum_mul]
  apply Finset.sum_le_sum
  intro c _
  rw [abs_mul, abs_mul, abs_mul]
  exact mul_le_mul_of_nonneg_left (hG _ _ _) (by positivity)

theorem absSum_linear (f : ℝ) (h0 : 0 ≤ f) (h1 : f < 1) : absSum linear f = 1 := by
  obtain ⟨w0, w1⟩ := linear_weight f h0 h1
  unfold absSum
  rw [show 2 * (linear : Kern ℝ).support = 2 from rfl, Finset.sum_range_succ, Finset.sum_range_one, w0, w1, abs_of_nonneg (by linarith), abs_of_nonneg h0]
  ring

theorem absSum_keys (f : ℝ) (h0 : 0 ≤ f) (h1 : f < 1) : absSum (keys (Real.sqrt 7)) f ≤ 5 / 4 := by
  obtain ⟨w0, w1, w2, w3⟩ := keys_weight (Real.sqrt 7) f h0 h1
  obtain ⟨s1, s2⟩ := sqrt7_bounds
  have s7 := sqrt7
  unfold absSum
  rw [show 2 * (keys (Real.sqrt 7)).support = 4 from rfl, Finset.sum_range_succ, Finset.sum_range_succ, Finset.sum_range_succ, Finset.sum_range_one, w0, w1, w2, w3]
  have c0 : -(1 / 2) * f * (f - 1) * (f - 1) ≤ 0 := by nlinarith [mul_nonneg h0 (sq_nonneg (f - 1))]
  have c1 : 0 ≤ 3 / 2 * (f - (1 - Real.sqrt 7) / 3) * ((f - (1 + Real.sqrt 7) / 3) * (f - 1)) :=
    mul_nonneg (mul_nonneg (by norm_num) (by linarith)) (mul_nonneg_of_nonpos_of_nonpos (by linarith) (by linarith))
  have c2 : 0 ≤ (f - 1 / 3 * (2 - Real.sqrt 7)) * (f - 1 / 3 * (2 + Real.sqrt 7)) * (f * -(3 / 2)) :=
    mul_nonneg_of_nonpos_of_nonpos (mul_nonpos_of_nonneg_of_nonpos (by linarith) (by linarith)) (by linarith)
  have c3 : (f - 1) * (1 / 2) * (f * f) ≤ 0 := mul_nonpos_of_nonpos_of_nonneg (by linarith) (mul_self_nonneg f)
  rw [abs_of_nonpos c0, abs_of_nonneg c1, abs_of_nonneg c2, abs_of_nonpos c3]
  nlinarith [sq_nonneg (f - 1 / 2)]

theorem absSum_nonneg (kn : Kern ℝ) (f : ℝ) : 0 ≤ absSum kn f := Finset.sum_nonneg fun _ _ => abs_nonneg _

theorem component_le {vd : Nat} {h : Hdr} {buf : List ℝ} {M : ℝ} (hM : ∀ v ∈ buf, |v| ≤ M) (hM0 : 0 ≤ M) (j : Nat) (i1 i2 i3 : Int) :
    |component vd h buf j i1 i2 i3| ≤ M := by
  unfold component ND.read
  split
  · next v hv =>
    split at hv
    · split at hv
      · cases hv
        rw [List.getD_eq_getElem?_getD]
        cases e : (List.take vd (List.drop (flatInd h [i1.toNat, i2.toNat, i3.toNat]) buf))[j]? with
        | none => simpa using hM0
        | some x => exact hM x (List.mem_of_mem_drop (List.mem_of_mem_take (List.mem_of_getElem? e)))
      · cases hv
    · cases hv
  · simpa using hM0

/-! ### The property -/

/-- With exact arithmetic the rounded program is the program of `Verif.Green.Interp`. -/
theorem C79_exact_program (kn : Kern ℝ) (vd : Nat) (h : Hdr) (buf : List ℝ) (hr : Hdr) (ret : List ℝ) (x y start delta : ℝ) (n : Nat) (junk : Nat → ℝ) :
    interpolateF exactA kn vd h buf hr ret x y start delta n junk = interpolate kn vd h buf hr ret x y start delta n junk ∧
    linearF exactA = linear ∧ keysF exactA = keys (Real.sqrt 7) := by
  refine ⟨?_, rfl, rfl⟩
  have e1 : ∀ ker pos, interp1dF exactA vd ker buf pos = interp1d vd ker buf pos := by
    intro ker pos
    have key : ∀ (g : Nat → ℝ) (L : List Nat) (c : ℝ), L.foldl (fun acc i => acc + g i) c = c + (L.map g).sum := by
      intro g L
      induction L with
      | nil => simp
      | cons i L ih => intro c; rw [List.foldl_cons, ih, List.map_cons, List.sum_cons, add_assoc]
    unfold interp1dF interp1d
    split
    · congr 1
      apply List.map_congr_left
      intro j _
      have := key (fun i => ker.getD i 0 * buf.getD (pos + (vd * i + j)) 0) (List.range ker.length) 0
      rw [zero_add] at this
      exact this
    · rfl
  have e2 : ∀ col w (hr : Hdr), sampleStepF exactA kn vd buf col w start delta hr = sampleStep kn vd buf col w start delta hr := by
    intro col w hr
    funext k ret
    unfold sampleStepF sampleStep
    simp only [e1]
    rfl
  unfold interpolateF interpolate
  simp only [e2]
  rfl

/-- The accuracy of the positions at which is interpolated: the rounded `inner_ind_start + cur_sample_ind * inner_ind_delta`. -/
theorem C79_positions {A : Arith} {u : ℝ} (hA : A.Rounds u) (start delta : ℝ) (k : Nat) :
    |sampleInd A start delta k - (start + k * delta)| ≤ ((1 + u) ^ 3 - 1) * (|start| + |k * delta|) := by
  have hu := hA.nonneg
  have h1 : Near u 1 (A.ofNat k) k |(k : ℝ)| := round_exact hu (by
    have := hA.ofNat k
    rwa [abs_of_nonneg (Nat.cast_nonneg k : (0 : ℝ) ≤ k)])
  have h2 := h1.mulAdd hA (Near.refl hu 0 delta) (Near.refl hu 2 start) (by norm_num)
  rw [← abs_mul] at h2
  exact h2.1

/-- C79, linear kernel. With an arithmetic of unit roundoff `u` (with or without fused operations), `interpolate` into a cleared array differs from the exact interpolation
    of the array at the positions of the samples by at most the effect of twelve roundings on the largest value of the array, in every sample and component. -/
theorem C79_linear_rounding {A : Arith} {u : ℝ} (hA : A.Rounds u) (vd s0 s1 s2 : Nat) (hv : 0 < vd) (buf : List ℝ) (hl : buf.length = volume vd [s0, s1, s2])
    (hs0 : s0 < U64) (hs1 : s1 < U64) (hs2 : s2 < U64) (M : ℝ) (hM0 : 0 ≤ M) (hM : ∀ v ∈ buf, |v| ≤ M) (x y start delta : ℝ) (n : Nat) (junk : Nat → ℝ)
    (hx : Inside 1 s0 x) (hy : Inside 1 s1 y) (ht : ∀ k : Nat, k < n → Inside 1 s2 (sampleInd A start delta k)) :
    ∃ d, interpolateF A (linearF A) vd (mkHdr vd [s0, s1, s2]) buf (mkHdr vd [n]) (List.replicate (n * vd) 0) x y start delta n junk = .ok (mkHdr vd [n], d) ∧
      d.length = n * vd ∧ ∀ k j : Nat, k < n → j < vd →
        |d.getD (vd * k + j) 0 - interpAt linear (component vd (mkHdr vd [s0, s1, s2]) buf j) x y (sampleInd A start delta k)| ≤ ((1 + u) ^ 12 - 1) * M := by
  obtain ⟨d, e1, e2, e3⟩ := interpolateF_ok hA (linear_close hA) linear_usable.last hv hl hs0 hs1 hs2 (hr := mkHdr vd [n]) rfl (List.replicate (n * vd) 0) x y start delta n
    junk hx hy (fun k hk => Or.inl (ht k hk))
  refine ⟨d, e1, e2, fun k j hkn hj => (e3 k j hkn hj ?_).trans ?_⟩
  · have hlt : vd * k + j < n * vd := by
      have : (k + 1) * vd ≤ n * vd := Nat.mul_le_mul_right _ hkn
      have e : (k + 1) * vd = vd * k + vd := by ring
      omega
    rw [List.getD_eq_getElem?_getD, List.getElem?_replicate, if_pos hlt]; rfl
  · have h := interpMag_le linear _ (component_le (vd := vd) (h := mkHdr vd [s0, s1, s2]) hM hM0 j) x y (sampleInd A start delta k)
    rw [absSum_linear _ (Int.fract_nonneg _) (Int.fract_lt_one _), absSum_linear _ (Int.fract_nonneg _) (Int.fract_lt_one _),
      absSum_linear _ (Int.fract_nonneg _) (Int.fract_lt_one _), one_mul, one_mul, one_mul] at h
    have h12 := one_le_pow hA.nonneg 12
    exact mul_le_mul_of_nonneg_left h (by show 0 ≤ (1 + u) ^ 12 - 1; linarith)

/-- C79, Keys kernel: the effect of 62 roundings on twice the largest value of the array. -/
theorem C79_keys_rounding {A : Arith} {u : ℝ} (hA : A.Rounds u) (vd s0 s1 s2 : Nat) (hv : 0 < vd) (buf : List ℝ) (hl : buf.length = volume vd [s0, s1, s2])
    (hs0 : s0 < U64) (hs1 : s1 < U64) (hs2 : s2 < U64) (M : ℝ) (hM0 : 0 ≤ M) (hM : ∀ v ∈ buf, |v| ≤ M) (x y start delta : ℝ) (n : Nat) (junk : Nat → ℝ)
    (hx : Inside 2 s0 x) (hy : Inside 2 s1 y) (ht : ∀ k : Nat, k < n → Inside 2 s2 (sampleInd A start delta k)) :
    ∃ d, interpolateF A (keysF A) vd (mkHdr vd [s0, s1, s2]) buf (mkHdr vd [n]) (List.replicate (n * vd) 0) x y start delta n junk = .ok (mkHdr vd [n], d) ∧
      d.length = n * vd ∧ ∀ k j : Nat, k < n → j < vd →
        |d.getD (vd * k + j) 0 - interpAt (keys (Real.sqrt 7)) (component vd (mkHdr vd [s0, s1, s2]) buf j) x y (sampleInd A start delta k)| ≤
          ((1 + u) ^ 62 - 1) * (2 * M) := by
  obtain ⟨d, e1, e2, e3⟩ := interpolateF_ok hA (keys_close hA) (keys_usable _).last hv hl hs0 hs1 hs2 (hr := mkHdr vd [n]) rfl (List.replicate (n * vd) 0) x y start delta n
    junk hx hy (fun k hk => Or.inl (ht k hk))
  refine ⟨d, e1, e2, fun k j hkn hj => (e3 k j hkn hj ?_).trans ?_⟩
  · have hlt : vd * k + j < n * vd := by
      have : (k + 1) * vd ≤ n * vd := Nat.mul_le_mul_right _ hkn
      have e : (k + 1) * vd = vd * k + vd := by ring
      omega
    rw [List.getD_eq_getElem?_getD, List.getElem?_replicate, if_pos hlt]; rfl
  · have h := interpMag_le (keys (Real.sqrt 7)) _ (component_le (vd := vd) (h := mkHdr vd [s0, s1, s2]) hM hM0 j) x y (sampleInd A start delta k)
    have hx' := absSum_keys _ (Int.fract_nonneg x) (Int.fract_lt_one x)
    have hy' := absSum_keys _ (Int.fract_nonneg y) (Int.fract_lt_one y)
    have ht' := absSum_keys _ (Int.fract_nonneg (sampleInd A start delta k)) (Int.fract_lt_one _)
    have n1 := absSum_nonneg (keys (Real.sqrt 7)) (Int.fract x)
    have n2 := absSum_nonneg (keys (Real.sqrt 7)) (Int.fract y)
    have n3 := absSum_nonneg (keys (Real.sqrt 7)) (Int.fract (sampleInd A start delta k))
    have h5 : absSum (keys (Real.sqrt 7)) (Int.fract x) * absSum (keys (Real.sqrt 7)) (Int.fract y) *
        absSum (keys (Real.sqrt 7)) (Int.fract (sampleInd A start delta k)) ≤ 5 / 4 * (5 / 4) * (5 / 4) :=
      mul_le_mul (mul_le_mul hx' hy' n2 (by norm_num)) ht' n3 (by norm_num)
    have h6 := mul_le_mul_of_nonneg_right h5 hM0
    have h62 := one_le_pow hA.nonneg 62
    refine mul_le_mul_of_nonneg_left (h.trans (h6.trans ?_)) (by show 0 ≤ (1 + u) ^ 62 - 1; linarith)
    nlinarith

/-! ### Examples -/

-- In single precision (u = 2⁻²⁴), sixty-two roundings change a value by less than four millionths.
example : ((1 + ((2 : ℝ) ^ 24)⁻¹) ^ 62 - 1) * 1 < 4 / 1000000 := by norm_num

-- round24 does round: 2²⁴ + 1 is not representable
example : round24 (2 ^ 24 + 1) ≠ 2 ^ 24 + 1 := by
  rw [round24_tie 24 (2 ^ 23) (by norm_num) (by norm_num) (by norm_num) (by decide)]
  norm_num

-- The hypotheses of the theorem are met: an array with 2 × 2 × 3 two-component elements, interpolated at one sample in single precision.
example : ∃ d, interpolateF singleA (linearF singleA) 2 (mkHdr 2 [2, 2, 3]) (List.replicate 24 (3 / 7)) (mkHdr 2 [1]) (List.replicate (1 * 2) 0) (1 / 3) (1 / 5) (7 / 5) 2 1
      (fun _ => 0) = .ok (mkHdr 2 [1], d) ∧ d.length = 1 * 2 ∧ ∀ k j : Nat, k < 1 → j < 2 →
    |d.getD (2 * k + j) 0 - interpAt linear (component 2 (mkHdr 2 [2, 2, 3]) (List.replicate 24 (3 / 7)) j) (1 / 3) (1 / 5) (sampleInd singleA (7 / 5) 2 k)| ≤
      ((1 + (2 ^ 24)⁻¹) ^ 12 - 1) * (3 / 7) := by
  have f : ∀ a b : ℝ, 0 ≤ a → a < 1 → b = a → (0 : Int) ≤ ⌊b⌋ ∧ ⌊b⌋ < 1 := by
    intro a b h0 h1 e
    rw [e]
    exact ⟨Int.floor_nonneg.2 h0, Int.floor_lt.2 (by simpa using h1)⟩
  refine C79_linear_rounding singleA_rounds 2 2 2 3 (by decide) _ (by simp [volume, numElems]) (by decide) (by decide) (by decide) (3 / 7) (by norm_num) ?_ _ _ _ _ 1 _ ?_ ?_ ?_
  · intro v hv
    rw [List.eq_of_mem_replicate hv, abs_of_pos (by norm_num)]
  · have := f (1 / 3) _ (by norm_num) (by norm_num) rfl
    constructor <;> push_cast <;> omega
  · have := f (1 / 5) _ (by norm_num) (by norm_num) rfl
    constructor <;> push_cast <;> omega
  · intro k hk
    have hk : k = 0 := by omega
    subst hk
    have h := C79_positions singleA_rounds (7 / 5) 2 0
    rw [Nat.cast_zero, zero_mul, abs_zero, add_zero, add_zero, abs_of_pos (by norm_num : (0 : ℝ) < 7 / 5), abs_le] at h
    have h1 : ((1 + ((2 : ℝ) ^ 24)⁻¹) ^ 3 - 1) * (7 / 5) < 1 / 5 := by norm_num
    have a1 : (1 : ℝ) ≤ sampleInd singleA (7 / 5) 2 0 := by linarith [h.1]
    have a2 : sampleInd singleA (7 / 5) 2 0 < 2 := by linarith [h.2]
    have b1 : (1 : Int) ≤ ⌊sampleInd singleA (7 / 5) 2 0⌋ := Int.le_floor.2 (by simpa using a1)
    have b2 : ⌊sampleInd singleA (7 / 5) 2 0⌋ < 2 := Int.floor_lt.2 (by simpa using a2)
    constructor <;> push_cast <;> omega

end Verif.Green
