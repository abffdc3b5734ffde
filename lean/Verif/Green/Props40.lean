import Verif.Green.Quad
import Mathlib.Analysis.SpecialFunctions.Integrals.Basic
import Mathlib.Algebra.BigOperators.Intervals
import Mathlib.Algebra.BigOperators.Fin
/-
C40: the quadrature weights.
-/
namespace Verif.Green
open Verif

section
variable {K : Type} [Field K]

/-- Weight of point `i` out of `n` in the trapezoidal rule. -/
def trapezoid (n i : Nat) : K := if i = 0 ∨ i + 1 = n then 1 / 2 else 1

theorem fillWeights_eq (a b n : Nat) (buf : List K) (hab : a < b) (hb : b < U64) (hn : b ≤ n)
    (hl : buf.length = b - a) :
    fillWeights a b n buf = .ok ((List.range (b - a)).map fun i => trapezoid n (a + i)) := by
  have h1 : wsub b a = b - a := wsub_eq (by omega) hb
  have hm : buf.map (fun _ => (1 : K)) = List.replicate (b - a) 1 := by
    rw [List.map_const', hl]
  unfold fillWeights
  rw [h1, hl]
  simp only [beq_self_eq_true, Res.assert_true, Res.ok_bind, hm]
  have key : ∀ (u v : List K), u.length = b - a → v.length = b - a → (∀ i, i < b - a → u[i]? = v[i]?) → u = v := by
    intro u v hu hv h
    apply List.ext_getElem?
    intro i
    by_cases hi : i < b - a
    · exact h i hi
    · rw [List.getElem?_eq_none (by omega), List.getElem?_eq_none (by omega)]
  by_cases ha : a = 0
  · rw [if_pos ha]
    unfold poke
    rw [if_pos (by simp; omega)]
    simp only [Res.ok_bind, List.length_set, List.length_replicate]
    by_cases hbn : b = n
    · rw [if_pos hbn, if_neg (by omega), if_pos (by omega)]
      congr 1
      apply key _ _ (by simp) (by simp)
      intro i hi
      simp only [List.getElem?_set, List.length_set, List.length_replicate, List.getElem?_map, List.getElem?_range hi,
        List.getElem?_replicate, Option.map_some, trapezoid]
      repeat' split
      all_goals first | rfl | omega | (exfalso; omega)
    · rw [if_neg hbn]
      congr 1
      apply key _ _ (by simp) (by simp)
      intro i hi
      simp only [List.getElem?_set, List.length_replicate, List.getElem?_map, List.getElem?_range hi,
        List.getElem?_replicate, Option.map_some, trapezoid]
      repeat' split
      all_goals first | rfl | omega | (exfalso; omega)
  · rw [if_neg ha]
    simp only [Res.ok_bind, List.length_replicate]
    by_cases hbn : b = n
    · rw [if_pos hbn, if_neg (by omega)]
      unfold poke
      rw [if_pos (by simp; omega)]
      congr 1
      apply key _ _ (by simp) (by simp)
      intro i hi
      simp only [List.getElem?_set, List.length_replicate, List.getElem?_map, List.getElem?_range hi,
        List.getElem?_replicate, Option.map_some, trapezoid]
      repeat' split
      all_goals first | rfl | omega | (exfalso; omega)
    · rw [if_neg hbn]
      congr 1
      apply key _ _ (by simp) (by simp)
      intro i hi
      simp only [List.getElem?_map, List.getElem?_range hi,
        List.getElem?_replicate, Option.map_some, trapezoid]
      repeat' split
      all_goals first | rfl | omega | (exfalso; omega)

/-- C40. Let the `n` integration points of a segment be divided into consecutive non-empty blocks in any way. Then the
    weights filled block by block, one after the other, are: 1/2 for the first and the last point of the whole segment,
    1 for all others, whatever the weight buffer contained before. -/
theorem C40_blockwise_weights (n : Nat) (hn : n < U64) (junk : Nat → K) (sizes : List Nat) (pos : ∀ s ∈ sizes, 0 < s)
    (sum : sizes.sum = n) :
    weightsOf n junk 0 sizes = .ok ((List.range n).map fun i => if i = 0 ∨ i + 1 = n then (1 / 2 : K) else 1) := by
  have main : ∀ (ss : List Nat) (start : Nat), (∀ s ∈ ss, 0 < s) → start + ss.sum = n →
      weightsOf n junk start ss = .ok ((List.range (n - start)).map fun i => trapezoid (K := K) n (start + i)) := by
    intro ss
    induction ss with
    | nil => intro start _ h; simp at h; simp [weightsOf, h]
    | cons s ss ih =>
      intro start hp h
      simp only [List.sum_cons] at h
      have hs : 0 < s := hp s (by simp)
      unfold weightsOf blockWeights
      rw [wadd_eq (by omega), fillWeights_eq start (start + s) n _ (by omega) (by omega) (by omega) (by simp)]
      simp only [Res.ok_bind]
      rw [ih (start + s) (fun x hx => hp x (by simp [hx])) (by omega)]
      simp only [Res.ok_bind]
      congr 1
      have e : n - start = s + (n - (start + s)) := by omega
      rw [e, List.range_add, List.map_append, List.map_map]
      congr 1
      · congr 2; omega
      · apply List.map_congr_left
        intro i _
        simp only [Function.comp]
        congr 1
        omega
  have h := main sizes 0 pos (by omega)
  simpa [trapezoid] using h

end

/-- The blocks the program uses are such a division, for every block size. -/
theorem C40_blocks_divide (max : Nat) (hm : 0 < max) (n fuel : Nat) (hf : n ≤ fuel) :
    (∀ s ∈ blockSizes max fuel n, 0 < s ∧ s ≤ max) ∧ (blockSizes max fuel n).sum = n := by
  induction fuel generalizing n with
  | zero => simp [blockSizes]; omega
  | succ f ih =>
    unfold blockSizes
    by_cases h : n = 0
    · simp [h]
    · rw [if_neg h]
      obtain ⟨h1, h2⟩ := ih (n - min max n) (by omega)
      constructor
      · intro s hs
        rcases List.mem_cons.1 hs with rfl | hs
        · omega
        · exact h1 s hs
      · rw [List.sum_cons, h2]; omega

/-- C40. With these weights, the quadrature of an affine function over a segment that is cut into `m ≥ 1` intervals is exact:
    the step times the weighted sum of the values at the `m + 1` points equals the integral. -/
theorem C40_affine_exact (a b : ℝ) (α β : ℝ) (m : Nat) (hm : 0 < m) (junk : Nat → ℝ) (hU : m + 1 < U64) (sizes : List Nat)
    (pos : ∀ s ∈ sizes, 0 < s) (sum : sizes.sum = m + 1) :
    ∃ w, weightsOf (m + 1) junk 0 sizes = .ok w ∧ w.length = m + 1 ∧
      ((b - a) / m) * ∑ i ∈ Finset.range (m + 1), w.getD i 0 * (α + β * (i * ((b - a) / m) + a)) = ∫ t in a..b, (α + β * t) := by
  refine ⟨_, C40_blockwise_weights (m + 1) hU junk sizes pos sum, by simp, ?_⟩
  have hsum : ∀ (k : Nat) (c h : ℝ), ∑ i ∈ Finset.range (k + 2),
      ((List.range (k + 2)).map fun i => if i = 0 ∨ i + 1 = k + 2 then (1 / 2 : ℝ) else 1).getD i 0 * (α + β * (i * h + c))
      = (k + 1) * (α + β * (c + (k + 1) * h / 2)) := by
    intro k c h
    have hw : ∀ i, i < k + 2 → ((List.range (k + 2)).map fun i => if i = 0 ∨ i + 1 = k + 2 then (1 / 2 : ℝ) else 1).getD i 0
        = if i = 0 ∨ i + 1 = k + 2 then (1 / 2 : ℝ) else 1 := by
      intro i hi
      rw [List.getD_eq_getElem?_getD, List.getElem?_map, List.getElem?_range hi]; rfl
    rw [Finset.sum_range_succ, Finset.sum_range_succ', hw _ (by omega), hw _ (by omega)]
    have hin : ∑ i ∈ Finset.range k, ((List.range (k + 2)).map fun i => if i = 0 ∨ i + 1 = k + 2 then (1 / 2 : ℝ) else 1).getD (i + 1) 0 * (α + β * ((i + 1 : ℕ) * h + c))
        = ∑ i ∈ Finset.range k, (α + β * ((i + 1 : ℕ) * h + c)) := by
      apply Finset.sum_congr rfl
      intro i hi
      have := Finset.mem_range.1 hi
      rw [hw _ (by omega), if_neg (by omega), one_mul]
    rw [hin]
    have hg : ∀ k : ℕ, ∑ i ∈ Finset.range k, (α + β * ((i + 1 : ℕ) * h + c)) = k * (α + β * c) + β * h * (k * (k + 1) / 2) := by
      intro k
      induction k with
      | zero => simp
      | succ j ih => rw [Finset.sum_range_succ, ih]; push_cast; ring
    rw [hg]
    simp
    ring
  obtain ⟨k, rfl⟩ : ∃ k, m = k + 1 := ⟨m - 1, by omega⟩
  rw [hsum k a ((b - a) / ((k + 1 : ℕ) : ℝ))]
  have hk : ((k : ℝ) + 1) ≠ 0 := by positivity
  rw [intervalIntegral.integral_add (by simp) (by apply Continuous.intervalIntegrable; fun_prop)]
  have hid : ∫ x in a..b, β * x = β * ((b ^ 2 - a ^ 2) / 2) := by
    rw [← integral_id]; exact intervalIntegral.integral_const_mul β (fun x : ℝ => x)
  rw [hid]
  simp only [intervalIntegral.integral_const, smul_eq_mul]
  push_cast
  field_simp
  ring

/-- C40, limits of `fill_weights`: an empty block at the beginning or at the end of the segment is undefined behaviour (a write outside
    of the empty range), and a range of the wrong size is caught by the assertion. -/
theorem C40_limits {K : Type} [Field K] (n : Nat) (a : Nat) (ha : a < U64) :
    fillWeights (K := K) 0 0 n [] = .ub ∧ fillWeights (K := K) a a a [] = .ub ∧
    (∀ b (buf : List K), a ≤ b → b < U64 → buf.length ≠ b - a → fillWeights a b n buf = .abort) := by
  refine ⟨?_, ?_, ?_⟩
  · unfold fillWeights; simp [wsub_eq, U64, poke, Res.bind]
  · unfold fillWeights
    rw [wsub_eq (by omega) ha]
    by_cases h : a = 0 <;> simp [h, poke, Res.bind]
  · intro b buf hab hb hl
    unfold fillWeights
    rw [wsub_eq hab hb]
    have : (buf.length == b - a) = false := by simpa using hl
    rw [this]; rfl

namespace Ex40
-- 7 points in blocks of sizes 3, 2, 2: all hypotheses hold, and the weights are the expected ones
example : weightsOf (K := Rat) 7 (fun _ => 9) 0 [3, 2, 2] = .ok [1/2, 1, 1, 1, 1, 1, 1/2] := by
  rw [C40_blockwise_weights 7 (by decide) _ [3, 2, 2] (by decide) (by decide)]; decide +kernel
example : blockSizes 100 250 250 = [100, 100, 50] := by decide +kernel
end Ex40

end Verif.Green
