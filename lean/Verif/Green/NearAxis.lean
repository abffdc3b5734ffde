import Verif.Green.Props88
import Verif.Analytic.Serve
import Verif.Meep.Serve
/-
C89: accuracy of the interpolated Green's function next to the axis `r = 0`.
-/
namespace Verif.Green
open Verif Set

/-! ### Specification -/

/-- The samples of component `c` at negative radius are those at the mirror image, with the same sign. This is how the overlap at the axis is filled (`gridField_mirrored`, `meepField_mirrored`). -/
def Mirrored (A : Nat → Int → Int → Int → ℝ) (c : Nat) : Prop := ∀ i j k, A c (-i) j k = A c i j k

/-- The interpolation along `z` and `t` of the numbers `b j k` at the grid points. -/
noncomputable def interpZT (G : GMeta ℝ) (kn : Kern ℝ) (b : Int → Int → ℝ) (z t : ℝ) : ℝ := interp1 kn (fun j => interp1 kn (fun k => b j k) (G.t t)) (G.y z)

/-! ### The code fills the overlap in this way -/

theorem gridField_mirrored (F : Analytic.Fns ℝ) (P : Analytic.Params ℝ) (enc : Option ℝ → Nat) (val : Nat → ℝ) (nr nz nt : Nat) (sr sz st : ℝ) (c : Nat) :
    Mirrored (Analytic.gridField F P enc val nr nz nt sr sz st) c := by
  intro i j k
  unfold Analytic.gridField
  rw [abs_neg]

theorem meepField_mirrored (val : Nat → ℝ) (F : Meep.SimField) (ds N z0 : Nat) (p : Meep.Padded) (c : Nat) : Mirrored (Meep.meepField val F ds N z0 0 p) c := by
  intro i j k
  unfold Meep.meepField
  have : |(((0 : Nat) : Int) + ds * -i : Int)| = |(((0 : Nat) : Int) + ds * i : Int)| := by
    rw [Nat.cast_zero, zero_add, zero_add, mul_neg, abs_neg]
  rw [this]

/-! ### The property -/

variable {kn : Kern ℝ} {d : Nat} {E N : ℝ} {G : GMeta ℝ} {A : Nat → Int → Int → Int → ℝ} {c : Nat} {B : Region} {F : ℝ → ℝ → ℝ → ℝ} {δ Mr Mz Mt : ℝ}

/-- **C89.** With the linear kernel the accuracy next to the axis is the same as elsewhere, for both components: only samples at non-negative radius are used, and the field need not be smooth across the axis. -/
theorem C89_linear (hG : 0 < G.dr ∧ 0 < G.dz ∧ 0 < G.dt) (h0 : G.r0 = 0) (hB : B.ra = 0) (hA : Sampled G F (A c) B δ) (hF : SmoothField 2 F B Mr Mz Mt) {r z t : ℝ} (hr : 0 ≤ r ∧ r + G.dr ≤ B.rb)
    (hz : B.za ≤ z - G.dz ∧ z + G.dz ≤ B.zb) (ht : B.ta ≤ t - G.dt ∧ t + G.dt ≤ B.tb) : |greenAt G linear A c r z t - F r z t| ≤ interpErr G 2 (1 / 8) 1 Mr Mz Mt δ := by
  refine C87_interpolation .linear2 G hG F A c B hA hF r z t ⟨?_, axisIn_of_margin hG.2.1 ?_, axisIn_of_margin hG.2.2 ?_⟩
  · have s1 : (linear : Kern ℝ).support = 1 := rfl
    unfold AxisIn
    rw [h0, hB, s1, sub_zero]
    have f0 : (0 : ℝ) ≤ ⌊r / G.dr⌋ := by exact_mod_cast Int.floor_nonneg.2 (div_nonneg hr.1 hG.1.le)
    have f1 := Int.floor_le (r / G.dr)
    rw [le_div_iff₀ hG.1] at f1
    refine ⟨?_, ?_⟩
    · have := mul_nonneg f0 hG.1.le
      norm_num
      linarith
    · have := hr.2
      norm_num
      linarith
  · have s1 : (linear : Kern ℝ).support = 1 := rfl
    rw [s1]; push_cast; rw [one_mul]; exact hz
  · have s1 : (linear : Kern ℝ).support = 1 := rfl
    rw [s1]; push_cast; rw [one_mul]; exact ht

/-- **C89.** A component that does not change sign at the axis (that along `z`) is interpolated next to the axis as accurately as elsewhere, with both kernels, if it is smooth across the axis as a function of the signed
    distance `r`. Only samples at non-negative radius are required to be those of the field. -/
theorem C89_even (h : Accuracy kn d E N) (hG : 0 < G.dr ∧ 0 < G.dz ∧ 0 < G.dt) (h0 : G.r0 = 0) (hB : B.ra = -B.rb) (hm : Mirrored A c) (heven : ∀ r z t, F (-r) z t = F r z t)
    (hA : Sampled G F (A c) { B with ra := 0 } δ) (hF : SmoothField d F B Mr Mz Mt) {r z t : ℝ} (ha : Around G kn.support B r z t) : |greenAt G kn A c r z t - F r z t| ≤ interpErr G d E N Mr Mz Mt δ := by
  refine C87_interpolation h G hG F A c B (fun i j k hi hj hk => ?_) hF r z t ha
  rcases le_or_gt 0 i with hi0 | hi0
  · refine hA i j k ⟨?_, hi.2⟩ hj hk
    rw [h0, zero_add]
    exact mul_nonneg (by exact_mod_cast hi0) hG.1.le
  · have := hA (-i) j k ⟨?_, ?_⟩ hj hk
    · rw [hm, h0, Int.cast_neg, neg_mul, zero_add, heven] at this
      rwa [h0, zero_add]
    · rw [h0, zero_add]
      exact mul_nonneg (by exact_mod_cast (by omega : (0 : Int) ≤ -i)) hG.1.le
    · have := hi.1
      rw [h0, hB, zero_add] at this
      show G.r0 + ((-i : Int) : ℝ) * G.dr ≤ B.rb
      rw [h0, zero_add, Int.cast_neg, neg_mul]
      linarith

theorem interp1_axis (b f : ℝ) (h0 : 0 ≤ f) (h1 : f < 1) : interp1 (keys (Real.sqrt 7)) (fun i => b * |(i : ℝ)|) f = b * (f ^ 2 * (2 - f)) := by
  have hf : ⌊f⌋ = 0 := Int.floor_eq_zero_iff.2 ⟨h0, h1⟩
  have hfr : Int.fract f = f := Int.fract_eq_self.2 ⟨h0, h1⟩
  obtain ⟨w0, w1, w2, w3⟩ := keys_weights f h0 h1
  unfold interp1
  rw [hf, hfr]
  simp only [show (keys (Real.sqrt 7)).support = 2 from rfl, show 2 * 2 = 4 from rfl, Finset.sum_range_succ, Finset.sum_range_zero, w0, w1, w2, w3]
  norm_num
  ring

/-- **C89**, the radial component: it changes sign at the axis, but the samples of the overlap do not. If it is `b r` next to the axis (up to an error `ε` at the first grid points), then between the axis and the first
    grid point the cubic kernel, which is the one that `SignalCalculator` uses, gives `b r` times `f (2 - f)`, `f = r / dr < 1` being the position in the cell. On a finer grid the factor is the same. -/
theorem C89_radial_wrong (hG : 0 < G.dr) (h0 : G.r0 = 0) (hm : Mirrored A 0) (b : Int → Int → ℝ) {ε : ℝ} (hb : ∀ i : Int, 0 ≤ i → i ≤ 2 → ∀ j k, |A 0 i j k - b j k * (i * G.dr)| ≤ ε) {r z t : ℝ} (hr : 0 ≤ r ∧ r < G.dr) :
    |greenAt G (keys (Real.sqrt 7)) A 0 r z t - r / G.dr * (2 - r / G.dr) * (interpZT G (keys (Real.sqrt 7)) b z t * r)| ≤ (5 / 4) ^ 3 * ε := by
  have hk : Accuracy (keys (Real.sqrt 7)) 3 (3 / 32) (5 / 4) := .keys3
  have f0 : 0 ≤ r / G.dr := div_nonneg hr.1 hG.le
  have f1 : r / G.dr < 1 := (div_lt_one hG).2 hr.2
  have hx : G.x r = r / G.dr := by unfold GMeta.x; rw [h0, sub_zero]
  unfold greenAt
  rw [interpAt_eq, hx]
  have hlin : ∀ (v : ℝ) (g : Int → ℝ) (x : ℝ), interp1 (keys (Real.sqrt 7)) (fun i => g i * v) x = interp1 (keys (Real.sqrt 7)) g x * v := by
    intro v g x
    unfold interp1
    rw [Finset.sum_mul]
    exact Finset.sum_congr rfl fun c _ => by ring
  have hin : ∀ i : Int, -1 ≤ i → i ≤ 2 → |interp1 (keys (Real.sqrt 7)) (fun j => interp1 (keys (Real.sqrt 7)) (fun k => A 0 i j k) (G.t t)) (G.y z) - interpZT G (keys (Real.sqrt 7)) b z t * G.dr * abs (i : ℝ)| ≤ (5 / 4) * ((5 / 4) * ε) := by
    intro i i1 i2
    have e : interpZT G (keys (Real.sqrt 7)) b z t * G.dr * |(i : ℝ)| = interp1 (keys (Real.sqrt 7)) (fun j => interp1 (keys (Real.sqrt 7)) (fun k => b j k * (|(i : ℝ)| * G.dr)) (G.t t)) (G.y z) := by
      unfold interpZT
      simp only [hlin]
      ring
    rw [e]
    refine interp1_near hk _ fun j _ => interp1_near hk _ fun k _ => ?_
    rcases le_or_gt 0 i with hi | hi
    · rw [abs_of_nonneg (show (0 : ℝ) ≤ i by exact_mod_cast hi)]
      exact hb i hi i2 _ _
    · have : i = -1 := by omega
      subst this
      rw [show A 0 (-1) = A 0 1 from funext fun j => funext fun k => hm 1 j k]
      have := hb 1 (by decide) (by decide) (⌊G.y z⌋ - ((keys (Real.sqrt 7)).support - 1 : Int) + j) (⌊G.t t⌋ - ((keys (Real.sqrt 7)).support - 1 : Int) + k)
      norm_num at this ⊢
      exact this
  have hfl : ⌊r / G.dr⌋ = 0 := Int.floor_eq_zero_iff.2 ⟨f0, f1⟩
  have hout := interp1_near hk (r / G.dr) (g := fun i => interp1 (keys (Real.sqrt 7)) (fun j => interp1 (keys (Real.sqrt 7)) (fun k => A 0 i j k) (G.t t)) (G.y z))
    (g' := fun i => interpZT G (keys (Real.sqrt 7)) b z t * G.dr * |(i : ℝ)|) (ε := (5 / 4) * ((5 / 4) * ε)) (fun e he => by
      have he : e < 4 := he
      have s2 : (keys (Real.sqrt 7)).support = 2 := rfl
      rw [hfl, s2]
      exact hin _ (by push_cast; omega) (by push_cast; omega))
  rw [interp1_axis _ _ f0 f1] at hout
  have e1 : interpZT G (keys (Real.sqrt 7)) b z t * G.dr * ((r / G.dr) ^ 2 * (2 - r / G.dr)) = r / G.dr * (2 - r / G.dr) * (interpZT G (keys (Real.sqrt 7)) b z t * r) := by
    field_simp
  rw [e1] at hout
  refine hout.trans (le_of_eq ?_)
  ring

/-! ### Examples -/

/-- A field with radial component `r t` and vertical component `t³ + r²`, as the code stores it: with samples at `r < 0` that are those at `-r`. -/
noncomputable def axisF (c : Nat) (r _z t : ℝ) : ℝ := if c = 0 then |r| * t else t ^ 3 + r ^ 2

/-- The samples, continued outside of the chunk. -/
noncomputable def axisA (c : Nat) (i j k : Int) : ℝ := axisF c i j k

/-- `C89_radial_wrong`: half way between the axis and the first grid point, at time 5, the result is 15/8 instead of 5/2. -/
example (z : ℝ) : greenAt unitG (keys (Real.sqrt 7)) axisA 0 (1 / 2) z 5 = 15 / 8 := by
  have := C89_radial_wrong (G := unitG) (A := axisA) (by norm_num [unitG]) rfl (fun i j k => by unfold axisA axisF; push_cast; rw [abs_neg]) (fun _ k => (k : ℝ)) (ε := 0)
    (fun i hi _ j k => by
      unfold axisA axisF unitG
      rw [if_pos rfl, abs_of_nonneg (show (0 : ℝ) ≤ i by exact_mod_cast hi), mul_one, mul_comm, sub_self, abs_zero]) (r := 1 / 2) (z := z) (t := 5) (by norm_num [unitG])
  have e : interpZT unitG (keys (Real.sqrt 7)) (fun _ k => (k : ℝ)) z 5 = 5 := by
    have h1 : ∀ x : ℝ, interp1 (keys (Real.sqrt 7)) (fun k => (k : ℝ)) x = x := by
      intro x
      have := interp1_err (kn := keys (Real.sqrt 7)) .keys3 (affine3 1 0 (show x - 5 < x + 5 by linarith)) (o := 0) (st := 1) (x := x) one_pos
        (by rw [show (keys (Real.sqrt 7)).support = 2 from rfl]; norm_num; linarith [Int.lt_floor_add_one x]) (by rw [show (keys (Real.sqrt 7)).support = 2 from rfl]; norm_num; linarith [Int.floor_le x])
      norm_num at this
      linarith
    have h2 : ∀ (v x : ℝ), interp1 (keys (Real.sqrt 7)) (fun _ => v) x = v := by
      intro v x
      have := interp1_err (kn := keys (Real.sqrt 7)) .keys3 (affine3 0 v (show x - 5 < x + 5 by linarith)) (o := 0) (st := 1) (x := x) one_pos
        (by rw [show (keys (Real.sqrt 7)).support = 2 from rfl]; norm_num; linarith [Int.lt_floor_add_one x]) (by rw [show (keys (Real.sqrt 7)).support = 2 from rfl]; norm_num; linarith [Int.floor_le x])
      norm_num at this
      linarith
    unfold interpZT
    beta_reduce
    rw [h1, h2]
    unfold GMeta.t unitG
    norm_num
  rw [e, show unitG.dr = 1 from rfl] at this
  norm_num at this
  linarith

/-- `C89_even`: the vertical component at the same place is within 0.88 of `125 + 1/4`. -/
example (z : ℝ) : |greenAt unitG (keys (Real.sqrt 7)) axisA 1 (1 / 2) z 5 - (5 ^ 3 + (1 / 2) ^ 2)| ≤ 0.88 := by
  have := C89_even (G := unitG) (A := axisA) (c := 1) (B := ⟨-9, 9, z - 9, z + 9, -9, 9⟩) (F := axisF 1) (δ := 0) .keys3 (by norm_num [unitG]) rfl rfl
    (fun i j k => by unfold axisA axisF; push_cast; norm_num) (fun r z t => by unfold axisF; norm_num) (fun i j k _ _ _ => by unfold axisA unitG; norm_num)
    (Mr := 0) (Mz := 0) (Mt := 6) ⟨fun z _ t _ => ?_, fun r _ t _ => ?_, fun r _ z _ => ?_⟩ (r := 1 / 2) (z := z) (t := 5) ?_
  · refine this.trans ?_
    norm_num [interpErr, unitG]
  · refine deriv3 (f := fun r => t ^ 3 + r ^ 2) (f1 := fun r => 2 * r) (f2 := fun _ => 2) (f3 := fun _ => 0) (by fun_prop) (fun x => ?_) (fun x => ?_) (fun x => hasDerivAt_const x 2) (by norm_num) (fun x => by simp)
    · simpa using (hasDerivAt_pow 2 x).const_add (t ^ 3)
    · simpa using (hasDerivAt_id x).const_mul (2 : ℝ)
  · exact (show (fun z => axisF 1 r z t) = fun z => 0 * z + (t ^ 3 + r ^ 2) by funext z; simp [axisF]) ▸ affine3 0 _ (by linarith)
  · exact (show (fun t => axisF 1 r z t) = fun t => t ^ 3 + r ^ 2 by funext t; simp [axisF]) ▸ cube3 (r ^ 2) (by norm_num)
  · refine ⟨axisIn_of_margin (by norm_num [unitG]) ?_, axisIn_of_margin (by norm_num [unitG]) ?_, axisIn_of_margin (by norm_num [unitG]) ?_⟩ <;> norm_num [unitG, keys] <;> linarith

/-- `C89_linear`: the radial component, which has a kink in the samples. -/
example (z : ℝ) : |greenAt unitG linear axisA 0 (1 / 2) z 5 - 1 / 2 * 5| ≤ 0 := by
  have hsm : ∀ (p q : ℝ) {a b : ℝ}, a < b → BoundedDeriv 2 (fun x => p * x + q) a b 0 := fun p q a b hab =>
    deriv2 (f := fun x => p * x + q) (f1 := fun _ => p) (f2 := fun _ => 0) hab (fun _ _ => rfl) (by fun_prop) (fun x => by simpa using ((hasDerivAt_id x).const_mul p).add_const q) (fun x => hasDerivAt_const x p)
      (fun x _ => by simp)
  have := C89_linear (G := unitG) (A := axisA) (c := 0) (B := ⟨0, 9, z - 9, z + 9, -9, 9⟩) (F := fun r _ t => r * t) (δ := 0) (by norm_num [unitG]) rfl rfl
    (fun i j k hi _ _ => by
      have : (0 : ℝ) ≤ i := by simpa [unitG] using hi.1
      unfold axisA axisF unitG
      rw [if_pos rfl, abs_of_nonneg this]
      norm_num)
    (Mr := 0) (Mz := 0) (Mt := 0) ⟨fun z _ t _ => ?_, fun r _ t _ => ?_, fun r _ z _ => ?_⟩ (r := 1 / 2) (z := z) (t := 5) (by norm_num [unitG]) (by norm_num [unitG]; linarith) (by norm_num [unitG])
  · refine this.trans ?_
    norm_num [interpErr, unitG]
  · exact (show (fun r => r * t) = fun r => t * r + 0 by funext r; ring) ▸ hsm t 0 (by norm_num)
  · exact (show (fun _ : ℝ => r * t) = fun z => 0 * z + r * t by funext z; ring) ▸ hsm 0 (r * t) (by linarith)
  · exact (show (fun t => r * t) = fun t => r * t + 0 by funext t; ring) ▸ hsm r 0 (by norm_num)

end Verif.Green
