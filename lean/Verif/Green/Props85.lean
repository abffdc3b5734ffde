import Verif.Green.TrackFError
/-
C85: `AccumulateSignal` in floating-point arithmetic, from the segment to the samples (GreensFunction.hxx 199-473). The program is `applyAccumulateF` of `Verif.Green.TrackF`,
the specification is in `Verif.Green.TrackFSpec`.
-/
namespace Verif.Green
open Verif Verif.ND Verif.Dist

set_option linter.unusedSectionVars false

variable {σ : Type} {A : Arith} {u : ℝ}
variable {S : Setup σ ℝ} {I : σ → Prop} {ms : List Meta} {F : Nat → Int → Int → Int → ℝ} {kn : Kern ℝ} {kk B W : Nat} {seg : Segment ℝ} {N : Nat} {T : Track ℝ}

/-- C85 (partial): `AccumulateSignal` in floating-point arithmetic, from the segment to the samples. The assertions may stop the program (`C85_abort`). Otherwise the trapezoidal rule is used with `N` intervals
    of duration at most one, up to rounding, and every sample is what it was plus the contributions of the `N + 1` points, each of them evaluated at a place that differs from the exact one only by roundings
    (`Share`, `Displaced`), with an error of a number of roundings, proportional to the number of points, of the magnitudes of the terms. Nothing else in the signal changes.
    (Missing: the assertions; the requirements of C81 on the chunks.) -/
theorem C85_signal_partial (E : Env A u S I ms F kn kk B) (h : TrackSafe u W B kn.support S seg ms) (signal : List ℝ) (hlen : S.n ≤ signal.length) (s : σ) (hs : I s) :
    applyAccumulateF A S seg signal s = .abort ∨
    ∃ s' signal', ∃ N : Nat, applyAccumulateF A S seg signal s = .ok (s', signal') ∧ I s' ∧ signal'.length = signal.length ∧ (∀ k, S.n ≤ k → signal'.getD k 0 = signal.getD k 0) ∧
      0 < N ∧ (1 - eps u 2) * (seg.t1 - seg.t0) ≤ N ∧ N < (1 + eps u 2) * (seg.t1 - seg.t0) + 1 ∧
      ∀ k < S.n, ∃ v m : Nat → ℝ, (∀ p ≤ N, Share kn F ms u W S seg N p k (v p) (m p)) ∧
        |signal'.getD k 0 - (signal.getD k 0 + ∑ p ∈ Finset.range (N + 1), v p)| ≤ eps u (perPoint kn kk * (N + 1)) * (|signal.getD k 0| + ∑ p ∈ Finset.range (N + 1), m p) := by
  have hbig := h.big
  obtain ⟨n0, n1, n2⟩ := intervals_bounds E.rounds E.small h.late
  obtain ⟨nB, T, t1, t2⟩ := trackOfF_ok E.rounds E.small E.counts h.big h.late h.num
  rw [abs_le] at n2
  unfold applyAccumulateF
  rw [t1]
  simp only [Res.ok_bind]
  rw [t2.num]
  rcases itgrLoopF_ok E h t2 nB (intervalsF A seg + 1 + 1) 0 s signal (by omega) (by omega) (by omega) hs hlen with g | ⟨s', out', g1, g2, g3, g4, g5⟩
  · exact Or.inl g
  refine Or.inr ⟨s', out', intervalsF A seg, g1, g2, g3, g4, n0, ?_, ?_, fun k hk => ?_⟩
  · have h1 := Int.le_ceil (A.div (A.sub seg.t1 seg.t0) 1)
    rw [← n1] at h1
    push_cast at h1
    linarith [n2.1]
  · have h1 := Int.ceil_lt_add_one (A.div (A.sub seg.t1 seg.t0) 1)
    rw [← n1] at h1
    push_cast at h1
    linarith [n2.2]
  · obtain ⟨vs, a1, a2⟩ := g5 k hk
    have hl := a1.length_eq
    rw [List.length_map, List.length_range] at hl
    rw [List.length_map, List.length_range] at a2
    have sums : ∀ f : ℝ × ℝ → ℝ, (vs.map f).sum = ∑ p ∈ Finset.range (intervalsF A seg + 1), f (vs.getD p (0, 0)) := by
      intro f
      rw [← sum_range_list]
      congr 1
      apply List.ext_getElem
      · simp; omega
      · intro i h1 h2
        simp only [List.getElem_map, List.getElem_range]
        rw [List.getD_eq_getElem?_getD, List.getElem?_eq_getElem (by simpa using h1)]
        rfl
    refine ⟨fun p => (vs.getD p (0, 0)).1, fun p => (vs.getD p (0, 0)).2, fun p hp => ?_, ?_⟩
    · have := (List.forall₂_iff_get.1 a1).2 p (by simp; omega) (by omega)
      simp only [List.get_eq_getElem, List.getElem_map, List.getElem_range, Nat.sub_zero, Nat.add_zero] at this
      beta_reduce
      rw [List.getD_eq_getElem?_getD, List.getElem?_eq_getElem (by omega : p < vs.length)]
      exact this
    · rw [← sums Prod.fst, ← sums Prod.snd]
      exact a2.1

theorem pointError_nonneg {lam Lam rmin : ℝ} (hk : Steady kn lam Lam) (hu : 0 ≤ u) (hg : 0 < S.G.dr ∧ 0 < S.G.dz ∧ 0 < S.G.dt) (hs : 0 < S.tsamp) (hl : seg.t0 < seg.t1) (hr : 0 < rmin) (k : Nat) :
    0 ≤ Lam ∧ 0 ≤ pointError u W lam Lam rmin S seg k := by
  have L0 : 0 ≤ Lam := (absSum_nonneg kn 0).trans (hk.bound 0 le_rfl one_pos)
  have l0 := hk.pos
  refine ⟨L0, ?_⟩
  obtain ⟨g1, g2, g3⟩ := hg
  have e := fun j => eps_nonneg hu j
  have := e 9; have := e 14; have := e 11; have := e 10; have := e 5
  have hD : 0 < seg.t1 - seg.t0 := by linarith
  unfold pointError shift reachXY reachZ
  positivity

/-- C85 (partial), in terms of the exact places: with a Green's function of magnitude up to `M`, and a track that keeps the distance `rmin` from the axis, the new signal is the trapezoidal sum of the exact
    contributions of the points that are not later than the sample. The error has three parts: the roundings, proportional to the number of points; the effect of the displacements, proportional to the
    displacement in grid steps (`shift`) and to the angle by which the radial direction changes; and, if a point coincides with the sample up to roundings, its contribution.
    (Missing: the assertions, tracks through the axis.) -/
theorem C85_error_partial (E : Env A u S I ms F kn kk B) (h : TrackSafe u W B kn.support S seg ms) (hoob : S.oob = .raise) {lam Lam M rmin : ℝ} (hk : Steady kn lam Lam)
    (hM : ∀ c < 2, ∀ i j k, |F c i j k| ≤ M) (hr : 0 < rmin) (hrho : ∀ l, 0 ≤ l → l ≤ 1 → rmin ≤ rho (seg.place l)) (signal : List ℝ) (hlen : S.n ≤ signal.length) (s : σ) (hs : I s) :
    applyAccumulateF A S seg signal s = .abort ∨
    ∃ s' signal', ∃ N : Nat, applyAccumulateF A S seg signal s = .ok (s', signal') ∧ I s' ∧ signal'.length = signal.length ∧ (∀ k, S.n ≤ k → signal'.getD k 0 = signal.getD k 0) ∧
      0 < N ∧ (1 - eps u 2) * (seg.t1 - seg.t0) ≤ N ∧ N < (1 + eps u 2) * (seg.t1 - seg.t0) + 1 ∧
      ∀ k < S.n, |signal'.getD k 0 - (signal.getD k 0 + ∑ p ∈ Finset.range (N + 1), if 0 ≤ lag S seg (p / N) k then pointValue kn F S seg N p k else 0)| ≤
        eps u (perPoint kn kk * (N + 1)) * (|signal.getD k 0| + Lam ^ 3 * M * currentMag seg * ((seg.t1 - seg.t0) * |S.weight|)) +
        pointError u W lam Lam rmin S seg k * M * currentMag seg * ((seg.t1 - seg.t0) * |S.weight|) +
        ((Finset.range (N + 1)).filter fun p => |lag S seg ((p : Nat) / N) k| ≤ slack u S seg).card * (Lam ^ 3 * M * currentMag seg * ((seg.t1 - seg.t0) / N * |S.weight|)) := by
  have hu0 := E.rounds.nonneg
  rcases C85_signal_partial E h signal hlen s hs with g | ⟨s', out', N, g1, g2, g3, g4, g5, g6, g7, g8⟩
  · exact Or.inl g
  refine Or.inr ⟨s', out', N, g1, g2, g3, g4, g5, g6, g7, fun k hk' => ?_⟩
  obtain ⟨v, m, a1, a2⟩ := g8 k hk'
  obtain ⟨L0, P0⟩ := pointError_nonneg (W := W) hk hu0 h.grid h.samp h.late hr k
  have hNr : (0 : ℝ) < N := by exact_mod_cast g5
  have hD : 0 < seg.t1 - seg.t0 := by linarith [h.late]
  have hDN : 0 < (seg.t1 - seg.t0) / N := div_pos hD hNr
  have M0 : 0 ≤ M := (abs_nonneg _).trans (hM 0 (by decide) 0 0 0)
  have C0 : 0 ≤ currentMag seg := by unfold currentMag; positivity
  set wt : Nat → ℝ := fun p => |trapezoid (N + 1) p * ((seg.t1 - seg.t0) / N) * S.weight| with hwt
  have wt_eq : ∀ p, wt p = trapezoid (N + 1) p * ((seg.t1 - seg.t0) / N * |S.weight|) := by
    intro p
    rw [hwt]
    simp only
    rw [abs_mul, abs_mul, abs_of_nonneg (trapezoid_range _ _).1, abs_of_pos hDN, mul_assoc]
  have wt_sum : ∑ p ∈ Finset.range (N + 1), wt p = (seg.t1 - seg.t0) * |S.weight| := by
    simp only [wt_eq]
    rw [← Finset.sum_mul, trapezoid_sum N g5]
    field_simp
  have wt_le : ∀ p, wt p ≤ (seg.t1 - seg.t0) / N * |S.weight| := by
    intro p
    rw [wt_eq]
    have := mul_le_mul_of_nonneg_right (trapezoid_range (N + 1) p).2 (mul_nonneg hDN.le (abs_nonneg S.weight))
    linarith
  have wt0 : ∀ p, 0 ≤ wt p := fun p => abs_nonneg _
  have msum : ∑ p ∈ Finset.range (N + 1), m p ≤ Lam ^ 3 * M * currentMag seg * ((seg.t1 - seg.t0) * |S.weight|) := by
    rw [← wt_sum, Finset.mul_sum]
    refine Finset.sum_le_sum fun p hp => ((a1 p (by have := Finset.mem_range.1 hp; omega)).mag hk hM).2
  have each : ∀ p ∈ Finset.range (N + 1), |v p - (if 0 ≤ lag S seg ((p : Nat) / N) k then pointValue kn F S seg N p k else 0)| ≤
      pointError u W lam Lam rmin S seg k * M * currentMag seg * wt p +
        if |lag S seg ((p : Nat) / N) k| ≤ slack u S seg then Lam ^ 3 * M * currentMag seg * ((seg.t1 - seg.t0) / N * |S.weight|) else 0 := by
    intro p hp
    have hpN : p ≤ N := by have := Finset.mem_range.1 hp; omega
    have sh := a1 p hpN
    have big : Lam ^ 3 * M * currentMag seg * wt p ≤ Lam ^ 3 * M * currentMag seg * ((seg.t1 - seg.t0) / N * |S.weight|) := mul_le_mul_of_nonneg_left (wt_le p) (by positivity)
    have err0 : 0 ≤ pointError u W lam Lam rmin S seg k * M * currentMag seg * wt p := by have := wt0 p; positivity
    have big0 : 0 ≤ Lam ^ 3 * M * currentMag seg * ((seg.t1 - seg.t0) / N * |S.weight|) := by positivity
    have pv := pointValue_le (S := S) (seg := seg) hk hM N p k
    have hv := sh.bound.trans (sh.mag hk hM).2
    have ev : ∀ q x y t, Displaced u W S seg ((p : Nat) / N) k q x y t →
        v p = (interpAt kn (F 0) x y t * radial seg.current q + interpAt kn (F 1) x y t * seg.current.z) * -(trapezoid (N + 1) p * ((seg.t1 - seg.t0) / N) * S.weight) →
        |v p - pointValue kn F S seg N p k| ≤ pointError u W lam Lam rmin S seg k * M * currentMag seg * wt p := by
      intro q x y t hd e
      rw [e]
      have hl0 : (0 : ℝ) ≤ (p : ℝ) / N := by positivity
      have hl1 : (p : ℝ) / N ≤ 1 := (div_le_one hNr).2 (by exact_mod_cast hpN)
      exact share_error hk hM hu0 ⟨h.grid.1, h.grid.2.1⟩ hr g5 hpN (hrho _ hl0 hl1) hd
    by_cases hamb : |lag S seg ((p : Nat) / N) k| ≤ slack u S seg
    · rw [if_pos hamb]
      by_cases h0 : 0 ≤ lag S seg ((p : Nat) / N) k
      · rw [if_pos h0]
        rcases sh with ⟨-, e, -⟩ | ⟨ho, -, -, -⟩ | ⟨-, q, x, y, t, hd, e, -⟩
        · rw [e, zero_sub, abs_neg]; linarith
        · rw [hoob] at ho; cases ho
        · have := ev q x y t hd e; linarith
      · rw [if_neg h0, sub_zero]; linarith
    · rw [if_neg hamb, add_zero]
      rcases sh with ⟨hle, e, -⟩ | ⟨ho, -, -, -⟩ | ⟨hge, q, x, y, t, hd, e, -⟩
      · have : ¬ 0 ≤ lag S seg ((p : Nat) / N) k := fun h0 => hamb (by rw [abs_of_nonneg h0]; exact hle)
        rw [if_neg this, e, sub_zero, abs_zero]; exact err0
      · rw [hoob] at ho; cases ho
      · have : 0 ≤ lag S seg ((p : Nat) / N) k := by
          by_contra h0
          exact hamb (by rw [abs_of_neg (not_le.1 h0)]; linarith)
        rw [if_pos this]
        exact ev q x y t hd e
  have total := (Finset.abs_sum_le_sum_abs (fun p => v p - (if 0 ≤ lag S seg ((p : Nat) / N) k then pointValue kn F S seg N p k else 0)) (Finset.range (N + 1))).trans (Finset.sum_le_sum each)
  have cs : (∑ p ∈ Finset.range (N + 1), if |lag S seg ((p : Nat) / N) k| ≤ slack u S seg then Lam ^ 3 * M * currentMag seg * ((seg.t1 - seg.t0) / N * |S.weight|) else 0) =
      ((Finset.range (N + 1)).filter fun p => |lag S seg ((p : Nat) / N) k| ≤ slack u S seg).card * (Lam ^ 3 * M * currentMag seg * ((seg.t1 - seg.t0) / N * |S.weight|)) := by
    rw [← Finset.sum_filter, Finset.sum_const, nsmul_eq_mul]
  rw [Finset.sum_sub_distrib, Finset.sum_add_distrib, ← Finset.mul_sum, wt_sum, cs] at total
  have t1 := abs_sub_le (out'.getD k 0) (signal.getD k 0 + ∑ p ∈ Finset.range (N + 1), v p)
    (signal.getD k 0 + ∑ p ∈ Finset.range (N + 1), if 0 ≤ lag S seg ((p : Nat) / N) k then pointValue kn F S seg N p k else 0)
  rw [add_sub_add_left_eq_sub] at t1
  have a3 := a2.trans (mul_le_mul_of_nonneg_left (add_le_add (le_refl |signal.getD k 0|) msum) (eps_nonneg hu0 (perPoint kn kk * (N + 1))))
  linarith

/-! ### Witness: an assertion that fails because of rounding -/

theorem round24_zero : round24 0 = 0 := by
  have := round24_error 0
  rw [abs_zero, mul_zero, sub_zero] at this
  exact abs_eq_zero.1 (le_antisymm this (abs_nonneg _))

theorem round24_neg {x : ℝ} (h : x < 0) : round24 x < 0 := by
  have := (abs_le.1 (round24_error x)).2
  rw [abs_of_neg h] at this
  norm_num at this
  linarith

/-- Single precision, with or without contraction of products and sums. -/
def Single (A : Arith) : Prop := A = singleA ∨ A = fusedA

/-- `0.8f` and `0.16f`. -/
noncomputable def t08 : ℝ := 13421773 / 2 ^ 24
noncomputable def t016 : ℝ := 10737418 / 2 ^ 26

theorem round24_t08 : round24 t08 = t08 := by
  rw [round24_eq (-1) 13421773] <;> unfold t08 <;> norm_num

theorem round24_quot : round24 (t08 / t016) = 5 := by
  have : round24 (t08 / t016) = ((5 * 2 ^ 21 : ℤ) : ℝ) * 2 ^ ((2 : ℤ) - 23) := by
    apply round24_eq <;> unfold t08 t016
    · norm_num
    · norm_num
    · rw [abs_lt]; norm_num
  rw [this]; norm_num

theorem round24_five : round24 (5 * t016) = 13421772 / 2 ^ 24 := by
  have : round24 (5 * t016) = ((13421772 : ℤ) : ℝ) * 2 ^ ((-1 : ℤ) - 23) := by
    apply round24_tie <;> try unfold t016
    · norm_num
    · norm_num
    · norm_num
    · decide
  rw [this]; norm_num

theorem Single.ops (h : Single A) :
    (∀ a b, A.sub a b = round24 (a - b)) ∧ (∀ a b, A.div a b = round24 (a / b)) ∧ A.ofNat 0 = 0 ∧ A.ofNat 1 = 1 ∧ A.ofNat 5 = 5 ∧
      (∀ a b, round24 (round24 (a * b)) = round24 (a * b) → A.mulAdd a b 0 = round24 (a * b)) := by
  have c := singleA_counts
  rcases h with rfl | rfl
  · refine ⟨fun _ _ => rfl, fun _ _ => rfl, by simpa using c 0 (by norm_num), by simpa using c 1 (by norm_num), by simpa using c 5 (by norm_num), fun a b e => ?_⟩
    show round24 (0 + round24 (a * b)) = _
    rw [zero_add, e]
  · refine ⟨fun _ _ => rfl, fun _ _ => rfl, ?_, ?_, ?_, fun a b e => ?_⟩
    · show singleA.ofNat 0 = 0; simpa using c 0 (by norm_num)
    · show singleA.ofNat 1 = 1; simpa using c 1 (by norm_num)
    · show singleA.ofNat 5 = 5; simpa using c 5 (by norm_num)
    · show round24 (0 + a * b) = _
      rw [zero_add]

/-- C85, violation: `assert(convolution_t_start >= 0.0)` (GreensFunction.hxx 324) fails because of rounding. In single precision, a track from time 0 to 0.8f and at least six samples from time 0 on in
    steps of 0.16f: whatever the Green's function, the path of the charge, the kernel and the mode, the request is never completed. (The end of the track coincides with sample 5; `0.8f / 0.16f` rounds to
    5, but `5 * 0.16f` rounds to the number before `0.8f`.) -/
theorem C85_abort (hA : Single A) (S : Setup σ ℝ) (h0 : S.tsig = 0) (hsamp : S.tsamp = t016) (hn : 6 ≤ S.n) (hI : 2 ≤ S.maxI ∧ S.maxI < 2 ^ 62) (hS : 6 ≤ S.maxS ∧ S.maxS < 2 ^ 62)
    (seg : Segment ℝ) (ht0 : seg.t0 = 0) (ht1 : seg.t1 = t08) (signal : List ℝ) (s : σ) (r : σ × List ℝ) : applyAccumulateF A S seg signal s ≠ .ok r := by
  have hU : U64 = 2 ^ 64 := rfl
  obtain ⟨osub, odiv, on0, on1, on5, oma⟩ := hA.ops
  have p08 : 0 < t08 := by unfold t08; norm_num
  have l08 : t08 ≤ 1 := by unfold t08; norm_num
  have p016 : 0 < t016 := by unfold t016; norm_num
  have eD : A.sub seg.t1 seg.t0 = t08 := by rw [osub, ht0, ht1, sub_zero, round24_t08]
  have ed1 : ∀ x : ℝ, A.div t08 1 = t08 := fun _ => by rw [odiv, div_one, round24_t08]
  have ec : ⌈t08⌉ = 1 := by rw [Int.ceil_eq_iff]; constructor <;> norm_num <;> assumption
  obtain ⟨T, hT, hTn, hTs, hTg⟩ : ∃ T, trackOfF A seg = .ok (some T) ∧ T.num = 2 ∧ T.step = t08 ∧ T.seg = seg := by
    unfold trackOfF
    simp only
    rw [eD, ed1 0, ec, toSize_ok (by norm_num) (by norm_num)]
    simp only [Res.ok_bind]
    rw [if_neg (by decide), show (1 : Int).toNat = 1 from rfl, on1, ed1 0]
    exact ⟨_, rfl, by show wadd 1 1 = 2; decide +kernel, rfl, rfl⟩
  have time0 : timeF A T 0 = 0 := by
    unfold timeF
    rw [on0, hTg, ht0, oma _ _ (by rw [zero_mul, round24_zero, round24_zero]), zero_mul, round24_zero]
  have time1 : timeF A T 1 = t08 := by
    unfold timeF
    rw [on1, hTg, ht0, hTs, oma _ _ (by rw [one_mul, round24_t08, round24_t08]), one_mul, round24_t08]
  have c0 : causalIndF A (timeF A T 0) S.tsig S.tsamp = .ok 0 := by
    unfold causalIndF
    rw [time0, h0, hsamp, if_neg p016.ne', osub, odiv, sub_zero, round24_zero, zero_div, round24_zero, Int.ceil_zero]
    rfl
  have c1 : causalIndF A (timeF A T 1) S.tsig S.tsamp = .ok 5 := by
    unfold causalIndF
    rw [time1, h0, hsamp, if_neg p016.ne', osub, odiv, sub_zero, round24_t08, round24_quot, show (5 : ℝ) = ((5 : Int) : ℝ) by norm_num, Int.ceil_intCast]
    rfl
  have neg : ¬ 0 ≤ A.sub (A.mulAdd (A.ofNat 5) S.tsamp S.tsig) (timeF A T 1) := by
    rw [time1, h0, hsamp, on5, oma _ _ (by
      rw [round24_five]
      have : round24 (13421772 / 2 ^ 24) = ((13421772 : ℤ) : ℝ) * 2 ^ ((-1 : ℤ) - 23) := by
        apply round24_eq <;> norm_num
      rw [this]; norm_num), round24_five, osub]
    exact not_le.2 (round24_neg (by unfold t08; norm_num))
  -- the loop over the points never succeeds
  have pt : ∀ (w : List ℝ) (b1 : Nat), 6 ≤ b1 → ∀ st r, ptLoopF A S T w 0 0 b1 (List.range 2) st ≠ .ok r := by
    intro w b1 hb1 st r hr
    rw [show List.range 2 = [0, 1] from rfl] at hr
    unfold ptLoopF at hr
    simp only [Nat.zero_add] at hr
    rw [c0] at hr
    simp only [Res.ok_bind] at hr
    rw [if_neg (by unfold clampN; split_ifs <;> omega)] at hr
    obtain ⟨_, -, hr⟩ := Res.bind_eq_ok.1 hr
    obtain ⟨_, -, hr⟩ := Res.bind_eq_ok.1 hr
    obtain ⟨st', -, hr⟩ := Res.bind_eq_ok.1 hr
    unfold ptLoopF at hr
    simp only [Nat.add_zero] at hr
    rw [c1] at hr
    simp only [Res.ok_bind] at hr
    have e : clampN 5 0 b1 = 5 := by unfold clampN; split_ifs <;> omega
    rw [e, if_neg (by omega), decide_eq_false neg] at hr
    obtain ⟨_, hf, -⟩ := Res.bind_eq_ok.1 hr
    exact absurd hf (by simp [Res.assert])
  intro h
  unfold applyAccumulateF at h
  rw [hT] at h
  simp only [Res.ok_bind] at h
  rw [hTn] at h
  unfold itgrLoopF at h
  rw [hTn, if_pos (by decide)] at h
  simp only [Nat.sub_zero] at h
  rw [show min S.maxI 2 = 2 by omega] at h
  obtain ⟨w, -, h⟩ := Res.bind_eq_ok.1 h
  obtain ⟨st, h, -⟩ := Res.bind_eq_ok.1 h
  unfold sampleLoopF at h
  rw [if_pos (by omega), wadd_eq (by omega)] at h
  obtain ⟨st', h, -⟩ := Res.bind_eq_ok.1 h
  exact pt w _ (by omega) _ _ h

/-! ### Example -/

/-- A Green's function that consists of one chunk with overlap 3, with arbitrary content. -/
def room : Meta := mkMeta .specified [] 0 [0, 0, 0] [8, 8, 64] 3

noncomputable def roomLib (data : List ℝ) : Library Unit ℝ where
  find _ p := .ok ((), @ite _ (InBox room.start room.stop p) (Classical.propDecidable _) (some room) none)
  load _ m := .ok ((), m.shape.map (· + 2 * m.overlap), data)

noncomputable def roomField (data : List ℝ) (c : Nat) (i j k : Int) : ℝ :=
  component 2 (mkHdr 2 (room.shape.map (· + 2 * room.overlap))) data c (i - room.start.getD 0 0 + room.overlap) (j - room.start.getD 1 0 + room.overlap) (k - room.start.getD 2 0 + room.overlap)

theorem roomLib_serves {data : List ℝ} (hd : data.length = volume 2 (room.shape.map (· + 2 * room.overlap))) : Serves (roomLib data) (fun _ => True) [room] (roomField data) where
  ok m hm := by
    rw [List.mem_singleton.1 hm]
    exact ⟨rfl, rfl, by decide +kernel, by decide +kernel, by decide +kernel, by decide +kernel⟩
  found s p m _ hm hb := by
    rw [List.mem_singleton.1 hm] at hb ⊢
    refine ⟨(), ?_, trivial⟩
    simp only [roomLib]
    rw [if_pos hb]
  missing s p _ _ _ h := by
    refine ⟨(), ?_, trivial⟩
    simp only [roomLib]
    rw [if_neg (h room (by simp))]
  load s m _ hm _ := by
    rw [List.mem_singleton.1 hm]
    exact ⟨(), _, rfl, trivial, hd, fun c i j k _ _ _ => rfl⟩
  null m hm h := by
    rw [List.mem_singleton.1 hm] at h
    cases h

/-- A request of 20 samples in steps of 0.16f, in single precision, with the kernel that the program uses. -/
noncomputable def roomSetup (data : List ℝ) : Setup Unit ℝ where
  L := roomLib data
  G := ⟨0, 0, 0, 1, 1, 1⟩
  kn := keysF singleA
  sqrt a := round24 (Real.sqrt a)
  grow := id
  junk _ _ _ := 0
  wjunk _ := 0
  maxI := 100
  maxS := 100
  tsig := 0
  tsamp := t016
  n := 20
  weight := 1
  oob := .raise

/-- A charge that moves from (1, 0, 2) to (2, 1, 3) between the times 0 and `t1`. -/
noncomputable def walk (t1 : ℝ) : Segment ℝ := ⟨⟨1, 0, 2⟩, ⟨2, 1, 3⟩, 0, t1, 1⟩

theorem room_env {data : List ℝ} (hd : data.length = volume 2 (room.shape.map (· + 2 * room.overlap))) :
    Env singleA (2 ^ 24)⁻¹ (roomSetup data) (fun _ => True) [room] (roomField data) (keys (Real.sqrt 7)) 13 (2 ^ 24) where
  serves := roomLib_serves hd
  rounds := singleA_rounds
  small := by norm_num
  counts := singleA_counts
  sqrt a ha := by
    have := round24_error (Real.sqrt a)
    rwa [abs_of_nonneg (Real.sqrt_nonneg a)] at this
  kernel := keys_close singleA_rounds
  last := (keys_usable _).last
  grow := rfl

theorem walk_rho {t1 l : ℝ} (h0 : 0 ≤ l) : 1 ≤ rho ((walk t1).place l) := by
  unfold rho walk Segment.place
  rw [Real.one_le_sqrt]
  norm_num
  nlinarith

theorem three_le {a b c e : ℝ} (h : |a| + |b| + |c| ≤ e) : |a| ≤ e ∧ |b| ≤ e ∧ |c| ≤ e := by
  have := abs_nonneg a; have := abs_nonneg b; have := abs_nonneg c
  exact ⟨by linarith, by linarith, by linarith⟩

theorem room_safe {t1 : ℝ} (ht0 : 0 < t1) (ht1 : t1 ≤ 1) (data : List ℝ) : TrackSafe (2 ^ 24)⁻¹ 67 (2 ^ 24) 2 (roomSetup data) (walk t1) [room] := by
  have hst : room.stop = [8, 8, 64] := by decide +kernel
  have hsa : room.start = [0, 0, 0] := by decide +kernel
  have hsh : room.shape = [8, 8, 64] := by decide +kernel
  have hov : room.overlap = 3 := by decide +kernel
  have p016 : 0 < t016 := by unfold t016; norm_num
  have l016 : t016 ≤ 1 / 5 := by unfold t016; norm_num
  have near : ∀ lam k, 0 ≤ lam → lam ≤ 1 → k < 20 → ∀ q x y t, Displaced (2 ^ 24)⁻¹ (67 : Nat) (roomSetup data) (walk t1) lam k q x y t →
      x ≤ 4 ∧ 1 ≤ y ∧ y ≤ 4 ∧ t ≤ 5 := by
    intro lam k h0 h1 hk q x y t hd
    obtain ⟨h, -⟩ := hd.shift (by positivity) (by simp [roomSetup]) h0 h1
    have hk' : (k : ℝ) ≤ 20 := by exact_mod_cast hk.le
    have hk0 : (0 : ℝ) ≤ k := Nat.cast_nonneg k
    have hkt : (k : ℝ) * t016 ≤ 20 * (1 / 5) := mul_le_mul hk' l016 p016.le (by norm_num)
    have hkt0 : 0 ≤ (k : ℝ) * t016 := by positivity
    have sh : shift (2 ^ 24)⁻¹ (67 : Nat) (roomSetup data) (walk t1) k ≤ 1 / 100 := by
      unfold shift eps reachXY reachZ roomSetup walk
      norm_num
      nlinarith
    have r1 := rho_le_sum ((walk t1).place lam)
    have l0 := mul_nonneg h0 ht0.le
    have r0 := Real.sqrt_nonneg (((walk t1).place lam).x ^ 2 + ((walk t1).place lam).y ^ 2)
    change 0 ≤ rho ((walk t1).place lam) at r0
    set R := rho ((walk t1).place lam) with hR
    clear hR
    simp only [roomSetup, walk, Segment.place, lag, Segment.moment, sub_zero, div_one, zero_add] at h r1
    rw [abs_of_nonneg (by linarith : (0 : ℝ) ≤ 1 + lam * (2 - 1)), abs_of_nonneg (by linarith : (0 : ℝ) ≤ lam * 1)] at r1
    obtain ⟨b1, b2, b3⟩ := three_le (h.trans sh)
    rw [abs_le] at b1 b2 b3
    refine ⟨by linarith [b1.2], by linarith [b2.1], by linarith [b2.2], by linarith [b3.2]⟩
  refine ⟨ht0, p016, by simp [roomSetup], by simp [roomSetup], by simp [roomSetup], by norm_num, by simp [roomSetup], ?_, ?_, ⟨?_, ?_, ?_, ?_⟩, ?_, ?_, ?_⟩
  · simp only [walk]; norm_num; linarith
  · simp only [walk, roomSetup]; unfold t016; norm_num; linarith
  · intro m hm; rw [List.mem_singleton.1 hm, hov]; decide
  · intro m hm d hd
    rw [List.mem_singleton.1 hm, hsh, hov]
    interval_cases d <;> norm_num
  · intro m hm d hd
    rw [List.mem_singleton.1 hm, hst, hov]
    interval_cases d <;> norm_num
  · intro m hm
    rw [List.mem_singleton.1 hm, hst]
    simp only [roomSetup]; unfold t016; norm_num
  · intro m hm d hd
    rw [List.mem_singleton.1 hm, hsh, hov]
    interval_cases d <;> decide
  · intro lam k h0 h1 hk _ q x y t hd
    obtain ⟨c1, c2, c3, c4⟩ := near lam k h0 h1 hk q x y t hd
    refine ⟨by linarith, by linarith, by linarith, by linarith, fun _ x0 t0 => ⟨room, by simp, ?_⟩⟩
    have f : ∀ (v : ℝ) (n : Nat), v < n → 0 < n → ⌊v⌋.toNat < n := by
      intro v n hv hn
      have : ⌊v⌋ < (n : Int) := Int.floor_lt.2 (by exact_mod_cast hv)
      omega
    have f1 := f x 8 (by norm_num; linarith) (by decide)
    have f2 := f y 8 (by norm_num; linarith) (by decide)
    have f3 := f t 64 (by norm_num; linarith) (by decide)
    rw [hst, hsa]
    refine ⟨rfl, rfl, fun d hd => ?_⟩
    have hd : d < 3 := hd
    unfold cell
    interval_cases d
    · exact ⟨Nat.zero_le _, f1⟩
    · exact ⟨Nat.zero_le _, f2⟩
    · exact ⟨Nat.zero_le _, f3⟩
  · intro lam j k _ _ _ _ _ q x y t t' _ _ m hm m' _ _ _ hn
    rw [List.mem_singleton.1 hm] at hn
    cases hn

/-- The hypotheses of `C85_signal_partial` are met, in single precision: any content of the chunk and any end of the track until time 1. -/
example (data : List ℝ) (hd : data.length = volume 2 (room.shape.map (· + 2 * room.overlap))) (t1 : ℝ) (h0 : 0 < t1) (h1 : t1 ≤ 1) (signal : List ℝ) (hs : signal.length = 20) :
    applyAccumulateF singleA (roomSetup data) (walk t1) signal () = .abort ∨ ∃ signal', applyAccumulateF singleA (roomSetup data) (walk t1) signal () = .ok ((), signal') := by
  rcases C85_signal_partial (room_env hd) (room_safe h0 h1 data) signal hs.ge () trivial with h | ⟨s', out', N, h, -⟩
  · exact Or.inl h
  · exact Or.inr ⟨out', h⟩

/-- And those of `C85_error_partial`: the distance from the axis is at least one. -/
example (data : List ℝ) (hd : data.length = volume 2 (room.shape.map (· + 2 * room.overlap))) (M : ℝ) (hM0 : 0 ≤ M) (hM : ∀ v ∈ data, |v| ≤ M) (t1 : ℝ) (h0 : 0 < t1) (h1 : t1 ≤ 1)
    (signal : List ℝ) (hs : signal.length = 20) :
    applyAccumulateF singleA (roomSetup data) (walk t1) signal () = .abort ∨ ∃ signal', ∃ N : Nat, applyAccumulateF singleA (roomSetup data) (walk t1) signal () = .ok ((), signal') ∧ 0 < N ∧
      ∀ k < 20, |signal'.getD k 0 - (signal.getD k 0 + ∑ p ∈ Finset.range (N + 1),
          if 0 ≤ lag (roomSetup data) (walk t1) (p / N) k then pointValue (keys (Real.sqrt 7)) (roomField data) (roomSetup data) (walk t1) N p k else 0)| ≤
        eps (2 ^ 24)⁻¹ (perPoint (keys (Real.sqrt 7)) 13 * (N + 1)) * (|signal.getD k 0| + (5 / 4) ^ 3 * M * currentMag (walk t1) * ((t1 - 0) * |1|)) +
        pointError (2 ^ 24)⁻¹ (67 : Nat) 4 (5 / 4) 1 (roomSetup data) (walk t1) k * M * currentMag (walk t1) * ((t1 - 0) * |1|) +
        ((Finset.range (N + 1)).filter fun p => |lag (roomSetup data) (walk t1) ((p : Nat) / N) k| ≤ slack (2 ^ 24)⁻¹ (roomSetup data) (walk t1)).card *
          ((5 / 4) ^ 3 * M * currentMag (walk t1) * ((t1 - 0) / N * |1|)) := by
  rcases C85_error_partial (room_env hd) (room_safe h0 h1 data) rfl keys_steady (M := M) (fun c _ i j k => component_le hM hM0 c _ _ _) (rmin := 1) one_pos (fun l h _ => walk_rho h) signal hs.ge () trivial
    with h | ⟨s', out', N, h, -, -, -, hN, -, -, h3⟩
  · exact Or.inl h
  · exact Or.inr ⟨out', N, h, hN, h3⟩

/-- The track that ends at 0.8f: a request inside of the domain that stops the program. -/
example (data : List ℝ) (hd : data.length = volume 2 (room.shape.map (· + 2 * room.overlap))) (signal : List ℝ) (hs : signal.length = 20) :
    applyAccumulateF singleA (roomSetup data) (walk t08) signal () = .abort := by
  rcases C85_signal_partial (room_env hd) (room_safe (t1 := t08) (by unfold t08; norm_num) (by unfold t08; norm_num) data) signal hs.ge () trivial with h | ⟨s', out', N, h, -⟩
  · exact h
  · exact absurd h (C85_abort (Or.inl rfl) _ rfl rfl (by simp [roomSetup]) (by simp [roomSetup]) (by simp [roomSetup]) _ rfl rfl _ _ _)

end Verif.Green
