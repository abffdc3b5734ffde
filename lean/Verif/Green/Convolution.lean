import Verif.Green.Accuracy
import Verif.Green.Quadrature
/-
C88: the computed signal approximates the integral over the track of the inner product of field and current.
-/
namespace Verif.Green
open Verif Set
open MeasureTheory (volume)

/-! ### Specification

A charge moves on a straight line, at constant speed, from `p0` at time `t0` to `p1` at time `t1`. `F 0` and `F 1` are the components of the field along `r` and `z`, as functions of `r`, `z` and the delay. -/

/-- Where the charge is at time `t`. -/
noncomputable def atX (seg : Segment ℝ) (t : ℝ) : ℝ := seg.p0.x + (t - seg.t0) / (seg.t1 - seg.t0) * (seg.p1.x - seg.p0.x)
noncomputable def atY (seg : Segment ℝ) (t : ℝ) : ℝ := seg.p0.y + (t - seg.t0) / (seg.t1 - seg.t0) * (seg.p1.y - seg.p0.y)
noncomputable def atZ (seg : Segment ℝ) (t : ℝ) : ℝ := seg.p0.z + (t - seg.t0) / (seg.t1 - seg.t0) * (seg.p1.z - seg.p0.z)
noncomputable def atR (seg : Segment ℝ) (t : ℝ) : ℝ := Real.sqrt (atX seg t ^ 2 + atY seg t ^ 2)

/-- The velocity. -/
noncomputable def velX (seg : Segment ℝ) : ℝ := (seg.p1.x - seg.p0.x) / (seg.t1 - seg.t0)
noncomputable def velY (seg : Segment ℝ) : ℝ := (seg.p1.y - seg.p0.y) / (seg.t1 - seg.t0)
noncomputable def velZ (seg : Segment ℝ) : ℝ := (seg.p1.z - seg.p0.z) / (seg.t1 - seg.t0)

/-- The inner product of the field and the current at time `t`, as it is seen at time `τ`. -/
noncomputable def induced (F : Nat → ℝ → ℝ → ℝ → ℝ) (seg : Segment ℝ) (τ t : ℝ) : ℝ :=
  F 0 (atR seg t) (atZ seg t) (τ - t) * (seg.charge * (velX seg * atX seg t + velY seg * atY seg t) / atR seg t) + F 1 (atR seg t) (atZ seg t) (τ - t) * (seg.charge * velZ seg)

/-- The last time on the track that has an effect at time `τ`. -/
noncomputable def lastTime (seg : Segment ℝ) (τ : ℝ) : ℝ := max seg.t0 (min seg.t1 τ)

/-- The signal at time `τ`. -/
noncomputable def trueSignal (F : Nat → ℝ → ℝ → ℝ → ℝ) (seg : Segment ℝ) (weight τ : ℝ) : ℝ := -(weight * ∫ t in seg.t0..lastTime seg τ, induced F seg τ t)

/-- In the box `B` the samples are those of the field, up to `δ`, and the derivatives of order `d` of the component `c` are at most `Mr c`, `Mz c`, `Mt c`. -/
structure GoodField (G : GMeta ℝ) (d : Nat) (F : Nat → ℝ → ℝ → ℝ → ℝ) (A : Nat → Int → Int → Int → ℝ) (B : Region) (δ : ℝ) (Mr Mz Mt : Nat → ℝ) : Prop where
  sampled : ∀ c < 2, Sampled G (F c) (A c) B δ
  smooth : ∀ c < 2, SmoothField d (F c) B (Mr c) (Mz c) (Mt c)
  bounds : 0 ≤ δ ∧ ∀ c < 2, 0 ≤ Mr c ∧ 0 ≤ Mz c ∧ 0 ≤ Mt c

/-- All integration points that have an effect at the time of sample `k` are in the grid and in the box, with the points around them. -/
def TrackCovered (G : GMeta ℝ) (kn : Kern ℝ) (g : Grid) (B : Region) (seg : Segment ℝ) (τ : ℝ) : Prop :=
  ∀ t ∈ Icc seg.t0 (min seg.t1 τ), g.Has (G.x (atR seg t)) (G.y (atZ seg t)) (G.t (τ - t)) ∧ Around G kn.support B (atR seg t) (atZ seg t) (τ - t)

/-- The part of the error that comes from the interpolation. -/
noncomputable def fieldError (seg : Segment ℝ) (e0 e1 : ℝ) : ℝ :=
  (seg.t1 - seg.t0) * |seg.charge| * (e0 * Real.sqrt (velX seg ^ 2 + velY seg ^ 2) + e1 * |velZ seg|)

/-! ### Proof -/

variable {seg : Segment ℝ} {G : GMeta ℝ} {kn : Kern ℝ} {A : Nat → Int → Int → Int → ℝ} {F : Nat → ℝ → ℝ → ℝ → ℝ} {g : Grid} {B : Region} {d : Nat} {E N δ : ℝ} {Mr Mz Mt : Nat → ℝ}

theorem line_frac (hseg : seg.t0 < seg.t1) (p : Nat) : (lineTime seg p - seg.t0) / (seg.t1 - seg.t0) = p / intervals seg := by
  unfold lineTime
  have : seg.t1 - seg.t0 ≠ 0 := by linarith
  rw [add_sub_cancel_left]
  field_simp

theorem line_pos (hseg : seg.t0 < seg.t1) (p : Nat) : atX seg (lineTime seg p) = lineX seg p ∧ atY seg (lineTime seg p) = lineY seg p ∧ atZ seg (lineTime seg p) = lineZ seg p ∧
    atR seg (lineTime seg p) = lineR seg p := by
  have h := line_frac hseg p
  have h1 : atX seg (lineTime seg p) = lineX seg p := by unfold atX lineX; rw [h]
  have h2 : atY seg (lineTime seg p) = lineY seg p := by unfold atY lineY; rw [h]
  exact ⟨h1, h2, by unfold atZ lineZ; rw [h], by unfold atR lineR; rw [h1, h2]⟩

/-- The current along `r` is at most the charge times the velocity perpendicular to the axis. -/
theorem currentR_le (seg : Segment ℝ) (p : Nat) : |currentR seg p| ≤ |seg.charge| * Real.sqrt (velX seg ^ 2 + velY seg ^ 2) := by
  unfold currentR
  rw [mul_div_assoc, abs_mul]
  refine mul_le_mul_of_nonneg_left ?_ (abs_nonneg _)
  show |(velX seg * lineX seg p + velY seg * lineY seg p) / lineR seg p| ≤ _
  generalize velX seg = u
  generalize velY seg = v
  have hR : lineR seg p = Real.sqrt (lineX seg p ^ 2 + lineY seg p ^ 2) := rfl
  generalize lineX seg p = x at *
  generalize lineY seg p = y at *
  rw [hR, abs_div, abs_of_nonneg (Real.sqrt_nonneg _)]
  rcases eq_or_lt_of_le (Real.sqrt_nonneg (x ^ 2 + y ^ 2)) with h | h
  · rw [← h, div_zero]; exact Real.sqrt_nonneg _
  · rw [div_le_iff₀ h, ← Real.sqrt_mul (by positivity)]
    refine Real.abs_le_sqrt ?_
    nlinarith [sq_nonneg (u * y - v * x)]

theorem trapez_total {n : Nat} (hn : 0 < n) : ∑ p ∈ Finset.range (n + 1), trapez n p = n := by
  have := sum_trapez hn (fun _ => (1 : ℝ))
  simp only [mul_one, Finset.sum_const, Finset.card_range, nsmul_eq_mul] at this
  rw [this]; push_cast; ring

theorem trapez_nonneg (n p : Nat) : 0 ≤ trapez n p := by unfold trapez; split <;> norm_num

theorem GoodField.errors (hF : GoodField G d F A B δ Mr Mz Mt) (h : Accuracy kn d E N) (hG : 0 < G.dr ∧ 0 < G.dz ∧ 0 < G.dt) (c : Nat) (hc : c < 2) :
    0 ≤ interpErr G d E N (Mr c) (Mz c) (Mt c) δ := by
  obtain ⟨b0, b⟩ := hF.bounds
  obtain ⟨b1, b2, b3⟩ := b c hc
  obtain ⟨e0, n1, _⟩ := h.pos
  obtain ⟨g1, g2, g3⟩ := hG
  unfold interpErr
  have n0 : 0 ≤ N := by linarith
  positivity

/-- One integration point. -/
theorem response_near (h : Accuracy kn d E N) (hG : 0 < G.dr ∧ 0 < G.dz ∧ 0 < G.dt) (hF : GoodField G d F A B δ Mr Mz Mt) (hseg : seg.t0 < seg.t1) {tsig tsamp : ℝ} {p k : Nat}
    (hB : Around G kn.support B (lineR seg p) (lineZ seg p) (delay seg tsig tsamp p k)) :
    |response G kn A seg tsig tsamp p k - induced F seg (tsig + k * tsamp) (lineTime seg p)| ≤
      |seg.charge| * (interpErr G d E N (Mr 0) (Mz 0) (Mt 0) δ * Real.sqrt (velX seg ^ 2 + velY seg ^ 2) + interpErr G d E N (Mr 1) (Mz 1) (Mt 1) δ * |velZ seg|) := by
  have h0 := C87_interpolation h G hG (F 0) A 0 B (hF.sampled 0 (by decide)) (hF.smooth 0 (by decide)) _ _ _ hB
  have h1 := C87_interpolation h G hG (F 1) A 1 B (hF.sampled 1 (by decide)) (hF.smooth 1 (by decide)) _ _ _ hB
  obtain ⟨e1, e2, e3, e4⟩ := line_pos hseg p
  have hd : tsig + k * tsamp - lineTime seg p = delay seg tsig tsamp p k := rfl
  unfold response induced
  rw [e1, e2, e3, e4, hd]
  have ej : seg.charge * (velX seg * lineX seg p + velY seg * lineY seg p) / lineR seg p = currentR seg p := rfl
  have ez : seg.charge * velZ seg = currentZ seg := rfl
  rw [ej, ez]
  have hz : |currentZ seg| = |seg.charge| * |velZ seg| := by rw [← ez, abs_mul]
  have hr := currentR_le seg p
  have s1 : |(greenAt G kn A 0 (lineR seg p) (lineZ seg p) (delay seg tsig tsamp p k) - F 0 (lineR seg p) (lineZ seg p) (delay seg tsig tsamp p k)) * currentR seg p| ≤
      interpErr G d E N (Mr 0) (Mz 0) (Mt 0) δ * (|seg.charge| * Real.sqrt (velX seg ^ 2 + velY seg ^ 2)) := by
    rw [abs_mul]
    exact mul_le_mul h0 hr (abs_nonneg _) ((abs_nonneg _).trans h0)
  have s2 : |(greenAt G kn A 1 (lineR seg p) (lineZ seg p) (delay seg tsig tsamp p k) - F 1 (lineR seg p) (lineZ seg p) (delay seg tsig tsamp p k)) * currentZ seg| ≤
      interpErr G d E N (Mr 1) (Mz 1) (Mt 1) δ * (|seg.charge| * |velZ seg|) := by
    rw [abs_mul, hz]
    exact mul_le_mul_of_nonneg_right h1 (by positivity)
  rw [abs_le] at s1 s2 ⊢
  constructor <;> nlinarith [s1.1, s1.2, s2.1, s2.2]

open Classical in
/-- The sum that is computed, and the sum with the field. -/
theorem sum_near (h : Accuracy kn d E N) (hG : 0 < G.dr ∧ 0 < G.dz ∧ 0 < G.dt) (hF : GoodField G d F A B δ Mr Mz Mt) (hseg : seg.t0 < seg.t1) {tsig tsamp : ℝ} {k : Nat}
    (hc : TrackCovered G kn g B seg (tsig + k * tsamp)) :
    |(seg.t1 - seg.t0) / intervals seg * (∑ p ∈ Finset.range (intervals seg + 1),
        if 0 ≤ delay seg tsig tsamp p k ∧ g.Has (G.x (lineR seg p)) (G.y (lineZ seg p)) (G.t (delay seg tsig tsamp p k)) then trapez (intervals seg) p * response G kn A seg tsig tsamp p k else 0) -
      (seg.t1 - seg.t0) / intervals seg * (∑ p ∈ Finset.range (intervals seg + 1), if seg.t0 + p * ((seg.t1 - seg.t0) / intervals seg) ≤ tsig + k * tsamp then
        trapez (intervals seg) p * induced F seg (tsig + k * tsamp) (seg.t0 + p * ((seg.t1 - seg.t0) / intervals seg)) else 0)| ≤
      fieldError seg (interpErr G d E N (Mr 0) (Mz 0) (Mt 0) δ) (interpErr G d E N (Mr 1) (Mz 1) (Mt 1) δ) := by
  have hT : 0 < seg.t1 - seg.t0 := by linarith
  have hδ := And.intro (hF.errors h hG 0 (by decide)) (hF.errors h hG 1 (by decide))
  have hn : 0 < intervals seg := Nat.ceil_pos.2 hT
  have hn' : (0 : ℝ) < intervals seg := by exact_mod_cast hn
  set e := |seg.charge| * (interpErr G d E N (Mr 0) (Mz 0) (Mt 0) δ * Real.sqrt (velX seg ^ 2 + velY seg ^ 2) + interpErr G d E N (Mr 1) (Mz 1) (Mt 1) δ * |velZ seg|) with he
  have he0 : 0 ≤ e := mul_nonneg (abs_nonneg _) (add_nonneg (mul_nonneg hδ.1 (Real.sqrt_nonneg _)) (mul_nonneg hδ.2 (abs_nonneg _)))
  rw [← mul_sub, ← Finset.sum_sub_distrib, abs_mul, abs_of_pos (by positivity : 0 < (seg.t1 - seg.t0) / intervals seg)]
  have hterm : ∀ p ∈ Finset.range (intervals seg + 1),
      |(if 0 ≤ delay seg tsig tsamp p k ∧ g.Has (G.x (lineR seg p)) (G.y (lineZ seg p)) (G.t (delay seg tsig tsamp p k)) then trapez (intervals seg) p * response G kn A seg tsig tsamp p k else 0) -
        (if seg.t0 + p * ((seg.t1 - seg.t0) / intervals seg) ≤ tsig + k * tsamp then
          trapez (intervals seg) p * induced F seg (tsig + k * tsamp) (seg.t0 + p * ((seg.t1 - seg.t0) / intervals seg)) else 0)| ≤ trapez (intervals seg) p * e := by
    intro p hp
    have hp : p ≤ intervals seg := Nat.lt_succ_iff.1 (Finset.mem_range.1 hp)
    have el : seg.t0 + p * ((seg.t1 - seg.t0) / intervals seg) = lineTime seg p := rfl
    have ed : tsig + k * tsamp - lineTime seg p = delay seg tsig tsamp p k := rfl
    obtain ⟨e1, e2, e3, e4⟩ := line_pos hseg p
    rw [el]
    by_cases hca : lineTime seg p ≤ tsig + k * tsamp
    · have hl : lineTime seg p ∈ Icc seg.t0 (min seg.t1 (tsig + k * tsamp)) := by
        have hp' : (p : ℝ) ≤ intervals seg := by exact_mod_cast hp
        have h1 : (p : ℝ) * ((seg.t1 - seg.t0) / intervals seg) ≤ intervals seg * ((seg.t1 - seg.t0) / intervals seg) := mul_le_mul_of_nonneg_right hp' (by positivity)
        have h2 : (intervals seg : ℝ) * ((seg.t1 - seg.t0) / intervals seg) = seg.t1 - seg.t0 := by field_simp
        have h3 : 0 ≤ (p : ℝ) * ((seg.t1 - seg.t0) / intervals seg) := by positivity
        refine ⟨?_, le_min ?_ hca⟩
        · rw [← el]; linarith
        · rw [← el]; linarith
      obtain ⟨c1, c2⟩ := hc _ hl
      rw [e3, e4, ed] at c1 c2
      rw [if_pos ⟨by rw [← ed]; linarith, c1⟩, if_pos hca, ← mul_sub, abs_mul, abs_of_nonneg (trapez_nonneg _ _)]
      exact mul_le_mul_of_nonneg_left (response_near h hG hF hseg c2) (trapez_nonneg _ _)
    · rw [if_neg (fun hh => hca (by have := hh.1; rw [← ed] at this; linarith)), if_neg hca, sub_zero, abs_zero]
      exact mul_nonneg (trapez_nonneg _ _) he0
  refine (mul_le_mul_of_nonneg_left ((Finset.abs_sum_le_sum_abs _ _).trans (Finset.sum_le_sum hterm)) (by positivity)).trans (le_of_eq ?_)
  rw [← Finset.sum_mul, trapez_total hn, he]
  unfold fieldError
  field_simp

variable {σ : Type} {L : Library σ ℝ} {I : σ → Prop}

/-- The request is answered: it is the sum over the integration points. The error of the integral is given by the error of the quadrature `q k`. -/
theorem signal_near (hA : Answers L I G kn A g) (h : Accuracy kn d E N) (hG : 0 < G.dr ∧ 0 < G.dz ∧ 0 < G.dt) (hF : GoodField G d F A B δ Mr Mz Mt) {grow : ℝ → ℝ} (hg : grow 0 = 0)
    (junk : Nat → Nat → Nat → ℝ) (wjunk : Nat → ℝ) {maxI maxS : Nat} (hI : 0 < maxI ∧ maxI < 2 ^ 62) (hS : 0 < maxS ∧ maxS < 2 ^ 62) {tsig tsamp : ℝ} {n : Nat} {out : List ℝ} (hn : n ≤ out.length) {oob : OOB}
    (weight : ℝ) (hok : SignalOk G kn A g seg tsig tsamp n oob) {s : σ} (hs : I s) :
    ∃ s' out', apply L G kn grow junk wjunk maxI maxS seg tsig tsamp n out oob weight s = .ok (s', out') ∧ I s' ∧ out'.length = out.length ∧ (∀ k, n ≤ k → out'.getD k 0 = out.getD k 0) ∧
      ∀ k < n, TrackCovered G kn g B seg (tsig + k * tsamp) → ∀ q, |(seg.t1 - seg.t0) / intervals seg * (∑ p ∈ Finset.range (intervals seg + 1), if seg.t0 + p * ((seg.t1 - seg.t0) / intervals seg) ≤ tsig + k * tsamp then
        trapez (intervals seg) p * induced F seg (tsig + k * tsamp) (seg.t0 + p * ((seg.t1 - seg.t0) / intervals seg)) else 0) - ∫ t in seg.t0..lastTime seg (tsig + k * tsamp), induced F seg (tsig + k * tsamp) t| ≤ q →
      |out'.getD k 0 - (out.getD k 0 + trueSignal F seg weight (tsig + k * tsamp))| ≤
        |weight| * (fieldError seg (interpErr G d E N (Mr 0) (Mz 0) (Mt 0) δ) (interpErr G d E N (Mr 1) (Mz 1) (Mt 1) δ) + q) := by
  obtain ⟨s', out', a1, a2, a3, a4⟩ := hA.signal s grow junk wjunk maxI maxS seg tsig tsamp n out oob weight hs hg hI hS hn hok
  refine ⟨s', out', a1, a2, a3, fun k hk => ?_, fun k hk hc q hq => ?_⟩
  · rw [a4, if_neg (by omega), add_zero]
  · rw [a4, if_pos hk]
    have := abs_sub_le3 (sum_near h hG hF hok.order hc) hq
    unfold trueSignal
    rw [mul_assoc]
    refine le_trans (le_of_eq ?_) (mul_le_mul_of_nonneg_left this (abs_nonneg weight))
    rw [← abs_mul, ← abs_neg]
    congr 1
    ring

/-- **C88.** A Green's function object that answers the requests according to the samples `A` (such as those of C67 and C69) computes the signal of a charge on a track, with an error that is at most
    the sum of the error of the interpolated field (C87), times the length of the track, charge and weight, and that of the trapezoidal rule, which is proportional to the step, `intervals` being the
    number of steps: `K` is a Lipschitz constant of the induced signal along the track, `b` its largest value. The second part is only there if the end of the track has no effect yet at the time of the
    sample: then the computed sum breaks off at the last integration point in the past. Other elements of the output are not changed. -/
theorem C88_signal (hA : Answers L I G kn A g) (h : Accuracy kn d E N) (hG : 0 < G.dr ∧ 0 < G.dz ∧ 0 < G.dt) (hF : GoodField G d F A B δ Mr Mz Mt) {grow : ℝ → ℝ} (hg : grow 0 = 0)
    (junk : Nat → Nat → Nat → ℝ) (wjunk : Nat → ℝ) {maxI maxS : Nat} (hI : 0 < maxI ∧ maxI < 2 ^ 62) (hS : 0 < maxS ∧ maxS < 2 ^ 62) {tsig tsamp : ℝ} {n : Nat} {out : List ℝ} (hn : n ≤ out.length) {oob : OOB}
    (weight : ℝ) (hok : SignalOk G kn A g seg tsig tsamp n oob) {s : σ} (hs : I s) :
    ∃ s' out', apply L G kn grow junk wjunk maxI maxS seg tsig tsamp n out oob weight s = .ok (s', out') ∧ I s' ∧ out'.length = out.length ∧ (∀ k, n ≤ k → out'.getD k 0 = out.getD k 0) ∧
      ∀ k < n, TrackCovered G kn g B seg (tsig + k * tsamp) → ∀ (K : NNReal) (b : ℝ), 0 ≤ b → LipschitzOnWith K (induced F seg (tsig + k * tsamp)) (Icc seg.t0 (min seg.t1 (tsig + k * tsamp))) →
        (∀ t ∈ Icc seg.t0 (min seg.t1 (tsig + k * tsamp)), |induced F seg (tsig + k * tsamp) t| ≤ b) →
        |out'.getD k 0 - (out.getD k 0 + trueSignal F seg weight (tsig + k * tsamp))| ≤
          |weight| * (fieldError seg (interpErr G d E N (Mr 0) (Mz 0) (Mt 0) δ) (interpErr G d E N (Mr 1) (Mz 1) (Mt 1) δ) +
            (seg.t1 - seg.t0) / intervals seg / 2 * (K * (seg.t1 - seg.t0) + if seg.t1 ≤ tsig + k * tsamp then 0 else b)) := by
  obtain ⟨s', out', a1, a2, a3, a4, a5⟩ := signal_near hA h hG hF hg junk wjunk hI hS hn weight hok hs
  refine ⟨s', out', a1, a2, a3, a4, fun k hk hc K b hb hK hB => ?_⟩
  exact a5 k hk hc _ (quad_cut (Nat.ceil_pos.2 (sub_pos.2 hok.order)) hok.order _ hK hb hB)

/-- **C88.** If the whole track has an effect at the time of the sample, and the induced signal has a second derivative of at most `M`, the error of the trapezoidal rule is of second order in the step. -/
theorem C88_smooth (hA : Answers L I G kn A g) (h : Accuracy kn d E N) (hG : 0 < G.dr ∧ 0 < G.dz ∧ 0 < G.dt) (hF : GoodField G d F A B δ Mr Mz Mt) {grow : ℝ → ℝ} (hg : grow 0 = 0)
    (junk : Nat → Nat → Nat → ℝ) (wjunk : Nat → ℝ) {maxI maxS : Nat} (hI : 0 < maxI ∧ maxI < 2 ^ 62) (hS : 0 < maxS ∧ maxS < 2 ^ 62) {tsig tsamp : ℝ} {n : Nat} {out : List ℝ} (hn : n ≤ out.length) {oob : OOB}
    (weight : ℝ) (hok : SignalOk G kn A g seg tsig tsamp n oob) {s : σ} (hs : I s) :
    ∃ s' out', apply L G kn grow junk wjunk maxI maxS seg tsig tsamp n out oob weight s = .ok (s', out') ∧ I s' ∧ out'.length = out.length ∧ (∀ k, n ≤ k → out'.getD k 0 = out.getD k 0) ∧
      ∀ k < n, TrackCovered G kn g B seg (tsig + k * tsamp) → seg.t1 ≤ tsig + k * tsamp → ∀ M : ℝ, BoundedDeriv 2 (induced F seg (tsig + k * tsamp)) seg.t0 seg.t1 M →
        |out'.getD k 0 - (out.getD k 0 - weight * ∫ t in seg.t0..seg.t1, induced F seg (tsig + k * tsamp) t)| ≤
          |weight| * (fieldError seg (interpErr G d E N (Mr 0) (Mz 0) (Mt 0) δ) (interpErr G d E N (Mr 1) (Mz 1) (Mt 1) δ) +
            ((seg.t1 - seg.t0) / intervals seg) ^ 2 / 12 * (M * (seg.t1 - seg.t0))) := by
  obtain ⟨s', out', a1, a2, a3, a4, a5⟩ := signal_near hA h hG hF hg junk wjunk hI hS hn weight hok hs
  refine ⟨s', out', a1, a2, a3, a4, fun k hk hc ht M hM => ?_⟩
  have hpos : 0 < intervals seg := Nat.ceil_pos.2 (sub_pos.2 hok.order)
  have hpos' : (0 : ℝ) < intervals seg := by exact_mod_cast hpos
  have hT : 0 < seg.t1 - seg.t0 := sub_pos.2 hok.order
  have hl : lastTime seg (tsig + k * tsamp) = seg.t1 := by
    unfold lastTime
    rw [min_eq_left ht, max_eq_right hok.order.le]
  have q := quad_smooth hpos hok.order hM.1 hM.2
  have hsum : (∑ p ∈ Finset.range (intervals seg + 1), if seg.t0 + p * ((seg.t1 - seg.t0) / intervals seg) ≤ tsig + k * tsamp then
        trapez (intervals seg) p * induced F seg (tsig + k * tsamp) (seg.t0 + p * ((seg.t1 - seg.t0) / intervals seg)) else 0) =
      ∑ p ∈ Finset.range (intervals seg + 1), trapez (intervals seg) p * induced F seg (tsig + k * tsamp) (seg.t0 + p * ((seg.t1 - seg.t0) / intervals seg)) := by
    refine Finset.sum_congr rfl fun p hp => ?_
    rw [if_pos]
    have hp' : (p : ℝ) ≤ intervals seg := by exact_mod_cast Nat.lt_succ_iff.1 (Finset.mem_range.1 hp)
    have h1 : (p : ℝ) * ((seg.t1 - seg.t0) / intervals seg) ≤ intervals seg * ((seg.t1 - seg.t0) / intervals seg) := mul_le_mul_of_nonneg_right hp' (by positivity)
    have h2 : (intervals seg : ℝ) * ((seg.t1 - seg.t0) / intervals seg) = seg.t1 - seg.t0 := by field_simp
    linarith
  have := a5 k hk hc (((seg.t1 - seg.t0) / intervals seg) ^ 2 / 12 * (M * (seg.t1 - seg.t0))) (by rw [hsum, hl]; exact q)
  unfold trueSignal at this
  rw [hl] at this
  rwa [sub_eq_add_neg (out.getD k 0)]

/-- **C88.** Before the track begins there is no signal, and the samples are not changed. -/
theorem C88_before (hA : Answers L I G kn A g) {grow : ℝ → ℝ} (hg : grow 0 = 0) (junk : Nat → Nat → Nat → ℝ) (wjunk : Nat → ℝ) {maxI maxS : Nat} (hI : 0 < maxI ∧ maxI < 2 ^ 62) (hS : 0 < maxS ∧ maxS < 2 ^ 62)
    {tsig tsamp : ℝ} {n : Nat} {out : List ℝ} (hn : n ≤ out.length) {oob : OOB} (weight : ℝ) (hok : SignalOk G kn A g seg tsig tsamp n oob) {s : σ} (hs : I s) :
    ∃ s' out', apply L G kn grow junk wjunk maxI maxS seg tsig tsamp n out oob weight s = .ok (s', out') ∧ I s' ∧ out'.length = out.length ∧
      ∀ k < n, tsig + k * tsamp < seg.t0 → out'.getD k 0 = out.getD k 0 ∧ trueSignal F seg weight (tsig + k * tsamp) = 0 := by
  obtain ⟨s', out', a1, a2, a3, a4⟩ := hA.signal s grow junk wjunk maxI maxS seg tsig tsamp n out oob weight hs hg hI hS hn hok
  have hT : 0 < seg.t1 - seg.t0 := sub_pos.2 hok.order
  refine ⟨s', out', a1, a2, a3, fun k hk ht => ⟨?_, ?_⟩⟩
  · rw [a4, if_pos hk, Finset.sum_eq_zero, mul_zero, neg_zero, add_zero]
    intro p _
    rw [if_neg]
    rintro ⟨h0, -⟩
    have h3 : 0 ≤ (p : ℝ) * ((seg.t1 - seg.t0) / intervals seg) := by positivity
    unfold delay lineTime at h0
    linarith
  · unfold trueSignal lastTime
    rw [max_eq_left ((min_le_right _ _).trans ht.le), intervalIntegral.integral_same, mul_zero, neg_zero]

end Verif.Green
