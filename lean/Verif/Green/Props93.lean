import Verif.Green.FastMath
import Verif.Green.Props79
/-
C93: rearranged arithmetic. The compiler may rearrange the sums and products of the interpolation and of the signal; the results differ only by rounding.
-/
namespace Verif.Green
open Verif Verif.ND

set_option linter.unusedSectionVars false

/-! ### Specification -/

/-- The arithmetic of a machine that executes the operations as they are written. -/
def opsOf (A : Arith) : Ops ℝ := ⟨id, A.const, A.sub, A.mul, A.mulAdd⟩

/-- One contribution to a sample of the signal: a chunk, the position in it, the source and the weight of the point of the track. -/
structure Part where
  (s0 s1 s2 : Nat)
  buf : List ℝ
  (x y t : ℝ)
  (src0 src1 weight : ℝ)

/-- The kernel of `SignalCalculator`, written down. -/
noncomputable abbrev keysE : ℝ → Res (List Expr) := keysS exprOps

/-- The interpolated field, as the program writes it down. -/
noncomputable def Part.field (p : Part) : Expr × Expr :=
  match interpolateS exprOps 2 keysE 2 (mkHdr 2 [p.s0, p.s1, p.s2]) p.buf (mkHdr 2 [1]) [.lit 0, .lit 0] p.x p.y (fun _ => p.t) 1 (fun _ => .lit 0) with
  | .ok r => (r.2.getD 0 (.lit 0), r.2.getD 1 (.lit 0))
  | _ => (.lit 0, .lit 0)

/-- A sample of the signal that was `o` before, as the program writes it down. -/
noncomputable def signalE (o : ℝ) (parts : List Part) : Expr := parts.foldl (fun acc p => contributeS exprOps p.field p.src0 p.src1 p.weight acc) (.lit o)

/-- The position is far enough inside of the chunk, whose values are at most `M`. -/
structure Part.Ok (M : ℝ) (p : Part) : Prop where
  len : p.buf.length = volume 2 [p.s0, p.s1, p.s2]
  small : p.s0 < U64 ∧ p.s1 < U64 ∧ p.s2 < U64
  inside : Inside 2 p.s0 p.x ∧ Inside 2 p.s1 p.y ∧ Inside 2 p.s2 p.t
  bound : ∀ v ∈ p.buf, |v| ≤ M

/-- What it contributes: the exact interpolation, multiplied with the source and the weight. -/
noncomputable def Part.value (p : Part) : ℝ :=
  (interpAt (keys (Real.sqrt 7)) (component 2 (mkHdr 2 [p.s0, p.s1, p.s2]) p.buf 0) p.x p.y p.t * p.src0 +
    interpAt (keys (Real.sqrt 7)) (component 2 (mkHdr 2 [p.s0, p.s1, p.s2]) p.buf 1) p.x p.y p.t * p.src1) * p.weight

/-- A machine that computes an expression in single precision, without contraction. -/
noncomputable def single : Expr → ℝ
  | .lit x => x
  | .const c => round24 c
  | .neg a => -single a
  | .add a b => round24 (single a + single b)
  | .sub a b => round24 (single a - single b)
  | .mul a b => round24 (single a * single b)

/-! ### Expressions of loops -/

variable {u : ℝ}

theorem eval_fold {ι : Type} (f g : ι → Expr) (L : List ι) (a : Expr) :
    (L.foldl (fun acc i => exprOps.mulAdd (f i) (g i) acc) a).eval = a.eval + (L.map fun i => (f i).eval * (g i).eval).sum := by
  induction L generalizing a with
  | nil => simp
  | cons i L ih =>
    rw [List.foldl_cons, ih, List.map_cons, List.sum_cons, ← add_assoc]
    rfl

theorem mag_fold {ι : Type} (f g : ι → Expr) (L : List ι) (a : Expr) :
    (L.foldl (fun acc i => exprOps.mulAdd (f i) (g i) acc) a).mag = a.mag + (L.map fun i => (f i).mag * (g i).mag).sum := by
  induction L generalizing a with
  | nil => simp
  | cons i L ih =>
    rw [List.foldl_cons, ih, List.map_cons, List.sum_cons, ← add_assoc]
    rfl

theorem eval_fold2 {ι κ : Type} (f g : ι → κ → Expr) (L : List ι) (N : List κ) (a : Expr) :
    (L.foldl (fun acc i => N.foldl (fun acc j => exprOps.mulAdd (f i j) (g i j) acc) acc) a).eval = a.eval + (L.map fun i => (N.map fun j => (f i j).eval * (g i j).eval).sum).sum := by
  induction L generalizing a with
  | nil => simp
  | cons i L ih => rw [List.foldl_cons, ih, List.map_cons, List.sum_cons, eval_fold, add_assoc]

theorem mag_fold2 {ι κ : Type} (f g : ι → κ → Expr) (L : List ι) (N : List κ) (a : Expr) :
    (L.foldl (fun acc i => N.foldl (fun acc j => exprOps.mulAdd (f i j) (g i j) acc) acc) a).mag = a.mag + (L.map fun i => (N.map fun j => (f i j).mag * (g i j).mag).sum).sum := by
  induction L generalizing a with
  | nil => simp
  | cons i L ih => rw [List.foldl_cons, ih, List.map_cons, List.sum_cons, mag_fold, add_assoc]

/-- The weights `w` are written for the kernel `kn` at `f`, with magnitudes that add up to at most `m`. -/
structure WrittenAt (kn : Kern ℝ) (f m : ℝ) (w : List Expr) : Prop where
  len : w.length = 2 * kn.support
  eval : ∀ c < 2 * kn.support, (w.getD c (.lit 0)).eval = kn.weight f c
  mag : ∑ c ∈ Finset.range (2 * kn.support), (w.getD c (.lit 0)).mag ≤ m

/-- The value and the magnitude of an interpolated component. -/
theorem outer_ok {kn : Kern ℝ} {m : ℝ} {vd s0 s1 s2 : Nat} {buf : List ℝ} (hl : buf.length = volume vd [s0, s1, s2]) {M : ℝ} (hM0 : 0 ≤ M) (hM : ∀ v ∈ buf, |v| ≤ M)
    {x y t : ℝ} (hx : Inside kn.support s0 x) (hy : Inside kn.support s1 y) (ht : Inside kn.support s2 t) {kx ky kt : List Expr} (wx : WrittenAt kn (Int.fract x) m kx)
    (wy : WrittenAt kn (Int.fract y) m ky) (wt : WrittenAt kn (Int.fract t) m kt) {j : Nat} (hj : j < vd) (old : Expr) :
    (outerS exprOps kn.support kx ky kt vd s1 s2 buf x y t j old).eval = old.eval + interpAt kn (component vd (mkHdr vd [s0, s1, s2]) buf j) x y t ∧
      (outerS exprOps kn.support kx ky kt vd s1 s2 buf x y t j old).mag ≤ old.mag + m ^ 3 * M := by
  have x1 := hx.1
  have x2 := hx.2
  have y1 := hy.1
  have y2 := hy.2
  have t1 := ht.1
  have t2 := ht.2
  have bd : ∀ i, |buf.getD i 0| ≤ M := by
    intro i
    by_cases h : i < buf.length
    · rw [List.getD_eq_getElem?_getD, List.getElem?_eq_getElem h]
      exact hM _ (List.getElem_mem h)
    · rw [List.getD_eq_getElem?_getD, List.getElem?_eq_none (by omega)]
      simpa using hM0
  have m0 : 0 ≤ m := (Finset.sum_nonneg fun c _ => Expr.mag_nonneg _).trans wx.mag
  have ie : ∀ b, (innerS exprOps kn.support kt vd buf b t j).eval =
      ∑ c ∈ Finset.range (2 * kn.support), kn.weight (Int.fract t) c * buf.getD (b + vd * (⌊t⌋ - (kn.support - 1 : Int)).toNat + (vd * c + j)) 0 := by
    intro b
    unfold innerS
    rw [eval_fold, sum_range_list]
    show (0 : ℝ) + _ = _
    rw [zero_add]
    exact Finset.sum_congr rfl fun c hc => congrArg (· * _) (wt.eval c (Finset.mem_range.1 hc))
  have im : ∀ b, (innerS exprOps kn.support kt vd buf b t j).mag ≤ m * M := by
    intro b
    unfold innerS
    rw [mag_fold, sum_range_list]
    show |(0 : ℝ)| + _ ≤ _
    rw [abs_zero, zero_add]
    calc _ ≤ ∑ c ∈ Finset.range (2 * kn.support), (kt.getD c (.lit 0)).mag * M := Finset.sum_le_sum fun c _ => mul_le_mul_of_nonneg_left (bd _) (Expr.mag_nonneg _)
      _ ≤ m * M := by rw [← Finset.sum_mul]; exact mul_le_mul_of_nonneg_right wt.mag hM0
  constructor
  · unfold outerS
    rw [eval_fold2, sum_range'_list]
    congr 1
    unfold interpAt
    refine Finset.sum_congr rfl fun a ha => ?_
    have ha := Finset.mem_range.1 ha
    rw [sum_range'_list]
    refine Finset.sum_congr rfl fun b hb => ?_
    have hb := Finset.mem_range.1 hb
    rw [Nat.add_sub_cancel_left, Nat.add_sub_cancel_left, ie]
    show _ * ((kx.getD a (.lit 0)).eval * (ky.getD b (.lit 0)).eval) = _
    rw [wx.eval a ha, wy.eval b hb, Finset.sum_mul]
    refine Finset.sum_congr rfl fun c hc => ?_
    have hc := Finset.mem_range.1 hc
    have e1 : ⌊x⌋ - (kn.support - 1 : Int) + a = (((⌊x⌋ - (kn.support - 1 : Int)).toNat + a : Nat) : Int) := by push_cast; omega
    have e2 : ⌊y⌋ - (kn.support - 1 : Int) + b = (((⌊y⌋ - (kn.support - 1 : Int)).toNat + b : Nat) : Int) := by push_cast; omega
    have e3 : ⌊t⌋ - (kn.support - 1 : Int) + c = (((⌊t⌋ - (kn.support - 1 : Int)).toNat + c : Nat) : Int) := by push_cast; omega
    rw [e1, e2, e3, component_eq hl (by omega) (by omega) (by omega) hj]
    have e4 : (((⌊x⌋ - (kn.support - 1 : Int)).toNat + a) * s1 + ((⌊y⌋ - (kn.support - 1 : Int)).toNat + b)) * s2 * vd + vd * (⌊t⌋ - (kn.support - 1 : Int)).toNat + (vd * c + j) =
        ((((⌊x⌋ - (kn.support - 1 : Int)).toNat + a) * s1 + ((⌊y⌋ - (kn.support - 1 : Int)).toNat + b)) * s2 + ((⌊t⌋ - (kn.support - 1 : Int)).toNat + c)) * vd + j := by ring
    rw [e4]
    ring
  · unfold outerS
    rw [mag_fold2, sum_range'_list]
    refine add_le_add le_rfl ?_
    calc _ ≤ ∑ a ∈ Finset.range (2 * kn.support), (kx.getD a (.lit 0)).mag * (m * (m * M)) := by
          refine Finset.sum_le_sum fun a _ => ?_
          rw [sum_range'_list]
          calc _ ≤ ∑ b ∈ Finset.range (2 * kn.support), (m * M) * ((kx.getD a (.lit 0)).mag * (ky.getD b (.lit 0)).mag) := by
                refine Finset.sum_le_sum fun b _ => ?_
                rw [Nat.add_sub_cancel_left, Nat.add_sub_cancel_left]
                exact mul_le_mul_of_nonneg_right (im _) (mul_nonneg (Expr.mag_nonneg _) (Expr.mag_nonneg _))
            _ = (kx.getD a (.lit 0)).mag * (∑ b ∈ Finset.range (2 * kn.support), (ky.getD b (.lit 0)).mag) * (m * M) := by
                rw [Finset.mul_sum, Finset.sum_mul]
                exact Finset.sum_congr rfl fun b _ => by ring
            _ ≤ (kx.getD a (.lit 0)).mag * m * (m * M) :=
                mul_le_mul_of_nonneg_right (mul_le_mul_of_nonneg_left wy.mag (Expr.mag_nonneg _)) (mul_nonneg m0 hM0)
            _ = _ := by ring
      _ = (∑ a ∈ Finset.range (2 * kn.support), (kx.getD a (.lit 0)).mag) * (m * (m * M)) := by rw [Finset.sum_mul]
      _ ≤ m * (m * (m * M)) := mul_le_mul_of_nonneg_right wx.mag (mul_nonneg m0 (mul_nonneg m0 hM0))
      _ = m ^ 3 * M := by ring

/-! ### The kernels -/

theorem keysE_ok {f : ℝ} (h0 : 0 ≤ f) (h1 : f < 1) : ∃ w, keysE f = .ok w ∧ WrittenAt (keys (Real.sqrt 7)) f 18 w := by
  have hd : (decide (0 ≤ f) && decide (f < 1)) = true := by simp [h0, h1]
  have hk : keysE f = .ok (keysWeights exprOps f) := by
    unfold keysE keysS
    rw [hd]
    rfl
  have hw : ∃ w, (keys (Real.sqrt 7)).kern f = .ok w ∧ ∀ c < 4, ((keysWeights exprOps f).getD c (.lit 0)).eval = w.getD c 0 := by
    unfold keys
    simp only
    rw [hd]
    refine ⟨_, rfl, fun c hc => ?_⟩
    interval_cases c <;> rfl
  obtain ⟨w, hw, he⟩ := hw
  obtain ⟨q1, q2⟩ := sqrt7_bounds
  refine ⟨_, hk, rfl, ?_, ?_⟩
  · intro c hc
    rw [weight_of hw]
    exact he c hc
  · show ∑ c ∈ Finset.range 4, _ ≤ _
    rw [Finset.sum_range_succ, Finset.sum_range_succ, Finset.sum_range_succ, Finset.sum_range_succ, Finset.sum_range_zero]
    simp only [keysWeights, exprOps, List.getD_cons_zero, List.getD_cons_succ, Expr.mag]
    have a1 : |f| = f := abs_of_nonneg h0
    have a2 : |(1 - Real.sqrt 7) / 3| = (Real.sqrt 7 - 1) / 3 := by rw [abs_of_neg (by linarith)]; ring
    have a3 : |(1 + Real.sqrt 7) / 3| = (1 + Real.sqrt 7) / 3 := abs_of_pos (by linarith)
    have a4 : |1 / 3 * (2 - Real.sqrt 7)| = (Real.sqrt 7 - 2) / 3 := by rw [abs_of_neg (by linarith)]; ring
    have a5 : |1 / 3 * (2 + Real.sqrt 7)| = (2 + Real.sqrt 7) / 3 := by rw [abs_of_pos (by linarith)]; ring
    have a6 : |(-(1 / 2) : ℝ)| = 1 / 2 := by rw [abs_neg]; norm_num
    have a7 : |(3 / 2 : ℝ)| = 3 / 2 := by norm_num
    have a8 : |(-(3 / 2) : ℝ)| = 3 / 2 := by rw [abs_neg]; norm_num
    have a9 : |(1 / 2 : ℝ)| = 1 / 2 := by norm_num
    rw [a1, a2, a3, a4, a5, a6, a7, a8, a9, abs_one]
    have b1 : 1 / 2 * f * (f + 1) * (f + 1) ≤ 1 / 2 * 1 * (1 + 1) * (1 + 1) := by gcongr
    have b2 : 3 / 2 * (f + (Real.sqrt 7 - 1) / 3) * ((f + (1 + Real.sqrt 7) / 3) * (f + 1)) ≤ 3 / 2 * (1 + (2.65 - 1) / 3) * ((1 + (1 + 2.65) / 3) * (1 + 1)) := by
      have : 0 ≤ Real.sqrt 7 - 1 := by linarith
      gcongr
    have b3 : (f + (Real.sqrt 7 - 2) / 3) * (f + (2 + Real.sqrt 7) / 3) * (f * (3 / 2)) ≤ (1 + (2.65 - 2) / 3) * (1 + (2 + 2.65) / 3) * (1 * (3 / 2)) := by
      have : 0 ≤ Real.sqrt 7 - 2 := by linarith
      gcongr
    have b4 : (f + 1) * (1 / 2) * (f * f) ≤ (1 + 1) * (1 / 2) * (1 * 1) := by gcongr
    norm_num at b1 b2 b3 b4 ⊢
    linarith

theorem keysE_weights : Weights 2 keysE := fun f h0 h1 => by
  obtain ⟨w, e, h⟩ := keysE_ok h0 h1
  exact ⟨w, e, h.len⟩

theorem linearE_ok {f : ℝ} (h0 : 0 ≤ f) (h1 : f < 1) : ∃ w, linearS exprOps f = .ok w ∧ WrittenAt (linear : Kern ℝ) f 3 w := by
  have hd : (decide (0 ≤ f) && decide (f < 1)) = true := by simp [h0, h1]
  have hk : linearS exprOps f = .ok [exprOps.sub (exprOps.lit 1) (exprOps.lit f), exprOps.lit f] := by
    unfold linearS
    rw [hd]
    rfl
  have hw : (linear : Kern ℝ).kern f = .ok [1 - f, f] := by
    unfold linear
    simp only
    rw [hd]
    rfl
  refine ⟨_, hk, rfl, ?_, ?_⟩
  · intro c hc
    rw [weight_of hw]
    have hc : c < 2 := hc
    interval_cases c <;> rfl
  · show ∑ c ∈ Finset.range 2, _ ≤ _
    rw [Finset.sum_range_succ, Finset.sum_range_succ, Finset.sum_range_zero]
    simp only [exprOps, List.getD_cons_zero, List.getD_cons_succ, Expr.mag]
    rw [abs_of_nonneg h0, abs_one]
    linarith

/-! ### The program as it is written is one of the rearrangements -/

theorem runs_fold {A : Arith} (hA : A.Rounds u) {ι : Type} {f g : ι → ℝ} {f' g' : ι → Expr} (L : List ι) (hf : ∀ i ∈ L, Runs u (f' i) (f i)) (hg : ∀ i ∈ L, Runs u (g' i) (g i)) :
    ∀ {a : ℝ} {a' : Expr}, Runs u a' a → Runs u (L.foldl (fun acc i => exprOps.mulAdd (f' i) (g' i) acc) a') (L.foldl (fun acc i => A.mulAdd (f i) (g i) acc) a) := by
  induction L with
  | nil => intro a a' h; exact h
  | cons i L ih =>
    intro a a' h
    rw [List.foldl_cons, List.foldl_cons]
    refine ih (fun i hi => hf i (by simp [hi])) (fun i hi => hg i (by simp [hi])) ?_
    obtain ⟨p, h1, h2⟩ := hA.mulAdd (f i) (g i) a
    exact .add h (.mul (hf i (by simp)) (hg i (by simp)) h1) h2

theorem runs_fold2 {A : Arith} (hA : A.Rounds u) {ι κ : Type} {f g : ι → κ → ℝ} {f' g' : ι → κ → Expr} (L : List ι) (N : List κ) (hf : ∀ i ∈ L, ∀ j ∈ N, Runs u (f' i j) (f i j))
    (hg : ∀ i ∈ L, ∀ j ∈ N, Runs u (g' i j) (g i j)) : ∀ {a : ℝ} {a' : Expr}, Runs u a' a →
    Runs u (L.foldl (fun acc i => N.foldl (fun acc j => exprOps.mulAdd (f' i j) (g' i j) acc) acc) a') (L.foldl (fun acc i => N.foldl (fun acc j => A.mulAdd (f i j) (g i j) acc) acc) a) := by
  induction L with
  | nil => intro a a' h; exact h
  | cons i L ih =>
    intro a a' h
    rw [List.foldl_cons, List.foldl_cons]
    exact ih (fun i hi => hf i (by simp [hi])) (fun i hi => hg i (by simp [hi])) (runs_fold hA N (hf i (by simp)) (hg i (by simp)) h)

theorem keys_runs {A : Arith} (hA : A.Rounds u) (f : ℝ) (c : Nat) : Runs u ((keysWeights exprOps f).getD c (.lit 0)) ((keysWeights (opsOf A) f).getD c 0) := by
  have sb : ∀ {a b : Expr} {x y : ℝ}, Runs u a x → Runs u b y → Runs u (.sub a b) (A.sub x y) := fun ha hb => .sub ha hb (hA.sub _ _)
  have ml : ∀ {a b : Expr} {x y : ℝ}, Runs u a x → Runs u b y → Runs u (.mul a b) (A.mul x y) := fun ha hb => .mul ha hb (hA.mul _ _)
  have cn : ∀ c : ℝ, Runs u (.const c) (A.const c) := fun c => .const (hA.const c)
  have F := Runs.lit (u := u) f
  have l1 := sb F (Runs.lit 1)
  match c with
  | 0 => exact ml (ml (ml (.lit _) F) l1) l1
  | 1 => exact ml (ml (.lit _) (sb F (cn _))) (ml (sb F (cn _)) l1)
  | 2 => exact ml (ml (sb F (cn _)) (sb F (cn _))) (ml F (.lit _))
  | 3 => exact ml (ml l1 (.lit _)) (ml F F)
  | c + 4 => exact Runs.lit 0

theorem outer_runs {A : Arith} (hA : A.Rounds u) (support : Nat) {kx ky kt : List ℝ} {kx' ky' kt' : List Expr} (hx : ∀ c, Runs u (kx'.getD c (.lit 0)) (kx.getD c 0))
    (hy : ∀ c, Runs u (ky'.getD c (.lit 0)) (ky.getD c 0)) (ht : ∀ c, Runs u (kt'.getD c (.lit 0)) (kt.getD c 0)) (vd s1 s2 : Nat) (buf : List ℝ) (x y t : ℝ) (j : Nat) {old : ℝ} {old' : Expr}
    (h : Runs u old' old) : Runs u (outerS exprOps support kx' ky' kt' vd s1 s2 buf x y t j old') (outerS (opsOf A) support kx ky kt vd s1 s2 buf x y t j old) := by
  unfold outerS
  refine runs_fold2 hA _ _ (fun i1 _ i2 _ => ?_) (fun i1 _ i2 _ => .mul (hx _) (hy _) (hA.mul _ _)) h
  unfold innerS
  exact runs_fold hA _ (fun c _ => ht c) (fun c _ => .lit _) (.lit 0)

/-! ### C93 -/

/-- **C93**: whatever the compiler makes of an expression, the machine computes its exact value up to the roundings of the operations that are then left, relative to the size of the terms as they were written. -/
theorem C93_any_order (hu : 0 ≤ u) {e e' : Expr} (h : Rewrites e e') {r : ℝ} (hr : Runs u e' r) : |r - e.eval| ≤ ((1 + u) ^ e'.cost - 1) * e.mag := by
  have := hr.near hu
  rw [h.eval] at this
  exact (this.mono hu le_rfl h.mag).1

/-- The same for both kernels. -/
theorem interpolation_written {kn : Kern ℝ} {m : ℝ} {kern : ℝ → Res (List Expr)} (hsup : 0 < kn.support) (hkern : ∀ {f : ℝ}, 0 ≤ f → f < 1 → ∃ w, kern f = .ok w ∧ WrittenAt kn f m w) (hu : 0 ≤ u)
    {vd s0 s1 s2 : Nat} (hv : 0 < vd) {buf : List ℝ} (hl : buf.length = volume vd [s0, s1, s2]) (hs0 : s0 < U64) (hs1 : s1 < U64) (hs2 : s2 < U64)
    {M : ℝ} (hM0 : 0 ≤ M) (hM : ∀ v ∈ buf, |v| ≤ M) (x y : ℝ) (pos : Nat → ℝ) (n : Nat) (junk : Nat → Expr) (hx : Inside kn.support s0 x) (hy : Inside kn.support s1 y) (ht : ∀ k < n, Inside kn.support s2 (pos k)) :
    ∃ d, interpolateS exprOps kn.support kern vd (mkHdr vd [s0, s1, s2]) buf (mkHdr vd [n]) (List.replicate (n * vd) (.lit 0)) x y pos n junk = .ok (mkHdr vd [n], d) ∧ d.length = n * vd ∧
      ∀ k < n, ∀ j < vd, ∀ e', Rewrites (d.getD (vd * k + j) (.lit 0)) e' → ∀ r, Runs u e' r →
        |r - interpAt kn (component vd (mkHdr vd [s0, s1, s2]) buf j) x y (pos k)| ≤ ((1 + u) ^ e'.cost - 1) * (m ^ 3 * M) := by
  obtain ⟨kx, ex, wx⟩ := hkern (Int.fract_nonneg x) (Int.fract_lt_one x)
  obtain ⟨ky, ey, wy⟩ := hkern (Int.fract_nonneg y) (Int.fract_lt_one y)
  have hw : Weights kn.support kern := fun f h0 h1 => by
    obtain ⟨w, e, h⟩ := hkern h0 h1
    exact ⟨w, e, h.len⟩
  obtain ⟨d, e1, e2, e3⟩ := interpolateS_ok exprOps hsup hw hv hl hs0 hs1 hs2 (hr := mkHdr vd [n]) rfl (List.replicate (n * vd) (.lit 0)) x y pos n junk hx hy ht ex ey
  refine ⟨d, e1, e2, fun k hk j hj e' he r hr => ?_⟩
  obtain ⟨kt, et, wt⟩ := hkern (Int.fract_nonneg (pos k)) (Int.fract_lt_one (pos k))
  have hkj : vd * k + j < n * vd := by
    have : (k + 1) * vd ≤ n * vd := Nat.mul_le_mul_right _ hk
    have e : (k + 1) * vd = vd * k + vd := by ring
    omega
  have e4 := e3 k hk j hj kt et
  have e5 : (List.replicate (n * vd) (Expr.lit 0)).getD (vd * k + j) (junk (vd * k + j)) = .lit 0 := by
    rw [List.getD_eq_getElem?_getD, List.getElem?_replicate, if_pos hkj]; rfl
  rw [e5] at e4
  have e4 : d.getD (vd * k + j) (.lit 0) = _ := e4
  rw [e4] at he
  obtain ⟨o1, o2⟩ := outer_ok (kn := kn) hl hM0 hM hx hy (ht k hk) wx wy wt hj (.lit 0)
  have b := C93_any_order hu he hr
  rw [o1] at b
  have z : (Expr.lit 0).eval = 0 := rfl
  have z' : (Expr.lit 0).mag = 0 := abs_zero
  rw [z, zero_add] at b
  rw [z', zero_add] at o2
  refine b.trans (mul_le_mul_of_nonneg_left o2 ?_)
  linarith [one_le_pow hu e'.cost]

/-- **C93**, interpolation: the program writes down one expression for each component of each sample. However the compiler rearranges it, the result is the kernel interpolation of the array up to rounding errors. -/
theorem C93_interpolation (hu : 0 ≤ u) {vd s0 s1 s2 : Nat} (hv : 0 < vd) {buf : List ℝ} (hl : buf.length = volume vd [s0, s1, s2]) (hs0 : s0 < U64) (hs1 : s1 < U64) (hs2 : s2 < U64)
    {M : ℝ} (hM0 : 0 ≤ M) (hM : ∀ v ∈ buf, |v| ≤ M) (x y : ℝ) (pos : Nat → ℝ) (n : Nat) (junk : Nat → Expr) (hx : Inside 2 s0 x) (hy : Inside 2 s1 y) (ht : ∀ k < n, Inside 2 s2 (pos k)) :
    ∃ d, interpolateS exprOps 2 keysE vd (mkHdr vd [s0, s1, s2]) buf (mkHdr vd [n]) (List.replicate (n * vd) (.lit 0)) x y pos n junk = .ok (mkHdr vd [n], d) ∧ d.length = n * vd ∧
      ∀ k < n, ∀ j < vd, ∀ e', Rewrites (d.getD (vd * k + j) (.lit 0)) e' → ∀ r, Runs u e' r →
        |r - interpAt (keys (Real.sqrt 7)) (component vd (mkHdr vd [s0, s1, s2]) buf j) x y (pos k)| ≤ ((1 + u) ^ e'.cost - 1) * (18 ^ 3 * M) :=
  interpolation_written (kn := keys (Real.sqrt 7)) (by decide) keysE_ok hu hv hl hs0 hs1 hs2 hM0 hM x y pos n junk hx hy ht

/-- **C93**, interpolation with the linear kernel. -/
theorem C93_linear (hu : 0 ≤ u) {vd s0 s1 s2 : Nat} (hv : 0 < vd) {buf : List ℝ} (hl : buf.length = volume vd [s0, s1, s2]) (hs0 : s0 < U64) (hs1 : s1 < U64) (hs2 : s2 < U64)
    {M : ℝ} (hM0 : 0 ≤ M) (hM : ∀ v ∈ buf, |v| ≤ M) (x y : ℝ) (pos : Nat → ℝ) (n : Nat) (junk : Nat → Expr) (hx : Inside 1 s0 x) (hy : Inside 1 s1 y) (ht : ∀ k < n, Inside 1 s2 (pos k)) :
    ∃ d, interpolateS exprOps 1 (linearS exprOps) vd (mkHdr vd [s0, s1, s2]) buf (mkHdr vd [n]) (List.replicate (n * vd) (.lit 0)) x y pos n junk = .ok (mkHdr vd [n], d) ∧ d.length = n * vd ∧
      ∀ k < n, ∀ j < vd, ∀ e', Rewrites (d.getD (vd * k + j) (.lit 0)) e' → ∀ r, Runs u e' r →
        |r - interpAt (linear : Kern ℝ) (component vd (mkHdr vd [s0, s1, s2]) buf j) x y (pos k)| ≤ ((1 + u) ^ e'.cost - 1) * (3 ^ 3 * M) :=
  interpolation_written (kn := (linear : Kern ℝ)) (by decide) linearE_ok hu hv hl hs0 hs1 hs2 hM0 hM x y pos n junk hx hy ht

/-- **C93**: a compiler that leaves the program as it is is one of those considered. If the operations are executed one by one as they are written, with any arithmetic that rounds with relative error `u` and with products and
    sums fused or not, the numbers that come out are among those the machine may compute for the expressions of `C93_interpolation`. -/
theorem C93_program {A : Arith} (hA : A.Rounds u) {vd s0 s1 s2 : Nat} (hv : 0 < vd) {buf : List ℝ} (hl : buf.length = volume vd [s0, s1, s2]) (hs0 : s0 < U64) (hs1 : s1 < U64) (hs2 : s2 < U64)
    (x y start delta : ℝ) (n : Nat) (junk : Nat → ℝ) (junk' : Nat → Expr) (hx : Inside 2 s0 x) (hy : Inside 2 s1 y) (ht : ∀ k < n, Inside 2 s2 (sampleInd A start delta k)) :
    ∃ d d', interpolateF A (keysF A) vd (mkHdr vd [s0, s1, s2]) buf (mkHdr vd [n]) (List.replicate (n * vd) 0) x y start delta n junk = .ok (mkHdr vd [n], d) ∧
      interpolateS exprOps 2 keysE vd (mkHdr vd [s0, s1, s2]) buf (mkHdr vd [n]) (List.replicate (n * vd) (.lit 0)) x y (sampleInd A start delta) n junk' = .ok (mkHdr vd [n], d') ∧
      ∀ k < n, ∀ j < vd, Runs u (d'.getD (vd * k + j) (.lit 0)) (d.getD (vd * k + j) 0) := by
  have hw : ∀ {S : Type} (O : Ops S), Weights 2 (keysS O) := by
    intro S O f h0 h1
    refine ⟨keysWeights O f, ?_, rfl⟩
    have hd : (decide (0 ≤ f) && decide (f < 1)) = true := by simp [h0, h1]
    unfold keysS
    rw [hd]
    rfl
  have hk : ∀ {S : Type} (O : Ops S) (z : ℝ), keysS O (Int.fract z) = .ok (keysWeights O (Int.fract z)) := by
    intro S O z
    have hd : (decide (0 ≤ Int.fract z) && decide (Int.fract z < 1)) = true := by simp [Int.fract_lt_one]
    unfold keysS
    rw [hd]
    rfl
  have same : interpolateF A (keysF A) vd (mkHdr vd [s0, s1, s2]) buf (mkHdr vd [n]) (List.replicate (n * vd) 0) x y start delta n junk =
      interpolateS (opsOf A) 2 (keysS (opsOf A)) vd (mkHdr vd [s0, s1, s2]) buf (mkHdr vd [n]) (List.replicate (n * vd) 0) x y (sampleInd A start delta) n junk := rfl
  obtain ⟨d, e1, _, e3⟩ := interpolateS_ok (opsOf A) (by decide) (hw _) hv hl hs0 hs1 hs2 (hr := mkHdr vd [n]) rfl (List.replicate (n * vd) 0) x y (sampleInd A start delta) n junk hx hy ht (hk _ x) (hk _ y)
  obtain ⟨d', f1, _, f3⟩ := interpolateS_ok exprOps (by decide) (hw _) hv hl hs0 hs1 hs2 (hr := mkHdr vd [n]) rfl (List.replicate (n * vd) (.lit 0)) x y (sampleInd A start delta) n junk' hx hy ht (hk _ x) (hk _ y)
  refine ⟨d, d', same.trans e1, f1, fun k hkn j hj => ?_⟩
  have hkj : vd * k + j < n * vd := by
    have : (k + 1) * vd ≤ n * vd := Nat.mul_le_mul_right _ hkn
    have e : (k + 1) * vd = vd * k + vd := by ring
    omega
  have a := e3 k hkn j hj _ (hk _ _)
  have b := f3 k hkn j hj _ (hk _ _)
  have a' : d.getD (vd * k + j) 0 = _ := a
  have b' : d'.getD (vd * k + j) (.lit 0) = _ := b
  have e5 : (List.replicate (n * vd) (Expr.lit 0)).getD (vd * k + j) (junk' (vd * k + j)) = .lit 0 := by
    rw [List.getD_eq_getElem?_getD, List.getElem?_replicate, if_pos hkj]; rfl
  have e6 : (List.replicate (n * vd) (0 : ℝ)).getD (vd * k + j) (junk (vd * k + j)) = 0 := by
    rw [List.getD_eq_getElem?_getD, List.getElem?_replicate, if_pos hkj]; rfl
  rw [a', b', e5, e6]
  exact outer_runs hA 2 (keys_runs hA _) (keys_runs hA _) (keys_runs hA _) vd s1 s2 buf x y _ j (.lit 0)

theorem Part.Ok.field {M : ℝ} (hM0 : 0 ≤ M) {p : Part} (h : p.Ok M) :
    p.field.1.eval = interpAt (keys (Real.sqrt 7)) (component 2 (mkHdr 2 [p.s0, p.s1, p.s2]) p.buf 0) p.x p.y p.t ∧
      p.field.2.eval = interpAt (keys (Real.sqrt 7)) (component 2 (mkHdr 2 [p.s0, p.s1, p.s2]) p.buf 1) p.x p.y p.t ∧ p.field.1.mag ≤ 18 ^ 3 * M ∧ p.field.2.mag ≤ 18 ^ 3 * M := by
  obtain ⟨hx, hy, ht⟩ := h.inside
  obtain ⟨kx, ex, wx⟩ := keysE_ok (Int.fract_nonneg p.x) (Int.fract_lt_one p.x)
  obtain ⟨ky, ey, wy⟩ := keysE_ok (Int.fract_nonneg p.y) (Int.fract_lt_one p.y)
  obtain ⟨kt, et, wt⟩ := keysE_ok (Int.fract_nonneg p.t) (Int.fract_lt_one p.t)
  obtain ⟨d, e1, e2, e3⟩ := interpolateS_ok exprOps (by decide) keysE_weights (by decide) h.len h.small.1 h.small.2.1 h.small.2.2 (hr := mkHdr 2 [1]) rfl [.lit 0, .lit 0] p.x p.y (fun _ => p.t) 1
    (fun _ => .lit 0) hx hy (fun _ _ => ht) ex ey
  have ef : p.field = (d.getD 0 (.lit 0), d.getD 1 (.lit 0)) := by
    unfold Part.field
    rw [e1]
  have c0 : d.getD 0 (.lit 0) = outerS exprOps 2 kx ky kt 2 p.s1 p.s2 p.buf p.x p.y p.t 0 (.lit 0) := e3 0 (by decide) 0 (by decide) kt et
  have c1 : d.getD 1 (.lit 0) = outerS exprOps 2 kx ky kt 2 p.s1 p.s2 p.buf p.x p.y p.t 1 (.lit 0) := e3 0 (by decide) 1 (by decide) kt et
  have z : (Expr.lit 0).eval = 0 := rfl
  have z' : (Expr.lit 0).mag = 0 := abs_zero
  obtain ⟨a1, a2⟩ := outer_ok (kn := keys (Real.sqrt 7)) h.len hM0 h.bound hx hy ht wx wy wt (j := 0) (by decide) (.lit 0)
  obtain ⟨b1, b2⟩ := outer_ok (kn := keys (Real.sqrt 7)) h.len hM0 h.bound hx hy ht wx wy wt (j := 1) (by decide) (.lit 0)
  rw [z, zero_add] at a1 b1
  rw [z', zero_add] at a2 b2
  rw [ef]
  refine ⟨?_, ?_, ?_, ?_⟩
  · exact (congrArg Expr.eval c0).trans a1
  · exact (congrArg Expr.eval c1).trans b1
  · exact (congrArg Expr.mag c0).trans_le a2
  · exact (congrArg Expr.mag c1).trans_le b2

theorem signal_ok {M : ℝ} (hM0 : 0 ≤ M) : ∀ (parts : List Part) (a : Expr), (∀ p ∈ parts, p.Ok M) →
    (parts.foldl (fun acc p => contributeS exprOps p.field p.src0 p.src1 p.weight acc) a).eval = a.eval + (parts.map Part.value).sum ∧
    (parts.foldl (fun acc p => contributeS exprOps p.field p.src0 p.src1 p.weight acc) a).mag ≤
      a.mag + (parts.map fun p => (|p.src0| + |p.src1|) * |p.weight|).sum * (18 ^ 3 * M)
  | [], a, _ => by simp
  | p :: ps, a, h => by
    obtain ⟨f1, f2, f3, f4⟩ := (h p (by simp)).field hM0
    obtain ⟨i1, i2⟩ := signal_ok hM0 ps (contributeS exprOps p.field p.src0 p.src1 p.weight a) fun q hq => h q (by simp [hq])
    have g1 : (contributeS exprOps p.field p.src0 p.src1 p.weight a).eval = a.eval + p.value := by
      show a.eval + (p.field.1.eval * p.src0 + p.field.2.eval * p.src1) * p.weight = _
      rw [f1, f2]
      rfl
    have g2 : (contributeS exprOps p.field p.src0 p.src1 p.weight a).mag ≤ a.mag + (|p.src0| + |p.src1|) * |p.weight| * (18 ^ 3 * M) := by
      show a.mag + (p.field.1.mag * |p.src0| + p.field.2.mag * |p.src1|) * |p.weight| ≤ _
      refine add_le_add le_rfl ?_
      calc (p.field.1.mag * |p.src0| + p.field.2.mag * |p.src1|) * |p.weight| ≤ (18 ^ 3 * M * |p.src0| + 18 ^ 3 * M * |p.src1|) * |p.weight| :=
            mul_le_mul_of_nonneg_right (add_le_add (mul_le_mul_of_nonneg_right f3 (abs_nonneg _)) (mul_le_mul_of_nonneg_right f4 (abs_nonneg _))) (abs_nonneg _)
        _ = _ := by ring
    rw [List.foldl_cons, List.map_cons, List.sum_cons, List.map_cons, List.sum_cons]
    refine ⟨by rw [i1, g1, add_assoc], i2.trans ?_⟩
    rw [add_mul]
    linarith

/-- **C93**, signals: a sample of the signal is the number that was there and the contributions of the points of a track, added up. However the compiler rearranges this sum, the products in it, and the interpolations they
    consist of, the result is the exact sum up to rounding errors. -/
theorem C93_signal (hu : 0 ≤ u) {M : ℝ} (hM0 : 0 ≤ M) (o : ℝ) (parts : List Part) (h : ∀ p ∈ parts, p.Ok M) {e' : Expr} (he : Rewrites (signalE o parts) e') {r : ℝ} (hr : Runs u e' r) :
    |r - (o + (parts.map Part.value).sum)| ≤ ((1 + u) ^ e'.cost - 1) * (|o| + (parts.map fun p => (|p.src0| + |p.src1|) * |p.weight|).sum * (18 ^ 3 * M)) := by
  have b := C93_any_order hu he hr
  obtain ⟨s1, s2⟩ := signal_ok hM0 parts (.lit o) h
  have s1 : (signalE o parts).eval = _ := s1
  have s2 : (signalE o parts).mag ≤ _ := s2
  rw [s1] at b
  refine b.trans (mul_le_mul_of_nonneg_left s2 ?_)
  linarith [one_le_pow hu e'.cost]

theorem single_runs : ∀ e : Expr, Runs (2 ^ 24)⁻¹ e (single e)
  | .lit x => .lit x
  | .const _ => .const (round24_error _)
  | .neg a => .neg (single_runs a)
  | .add a b => .add (single_runs a) (single_runs b) (round24_error _)
  | .sub a b => .sub (single_runs a) (single_runs b) (round24_error _)
  | .mul a b => .mul (single_runs a) (single_runs b) (round24_error _)

theorem round24_small {m : ℤ} (e : ℤ) (h1 : (2 : ℝ) ^ e ≤ m) (h2 : (m : ℝ) < 2 ^ (e + 1)) (k : ℤ) (hk : (m : ℝ) / 2 ^ (e - 23) = k) : round24 m = m := by
  have hq : (0 : ℝ) < 2 ^ (e - 23) := zpow_pos (by norm_num) _
  rw [round24_eq e k h1 h2 (by rw [hk, sub_self, abs_zero]; norm_num), ← hk, div_mul_cancel₀ _ hq.ne']

theorem round24_one : round24 1 = 1 := by
  have := round24_small (m := 1) 0 (by norm_num) (by norm_num) (2 ^ 23) (by norm_num [zpow_neg])
  simpa using this

/-- C93, what does not hold: the numbers themselves depend on the order. Two contributions of one each to a sample that is 2^24: as written, the sample stays what it is; if they are added to each other first, it becomes
    2^24 + 2. -/
theorem C93_orders_differ : ∃ e', Rewrites (contributeS exprOps (.lit 1, .lit 0) 1 0 1 (contributeS exprOps (.lit 1, .lit 0) 1 0 1 (.lit (2 ^ 24)))) e' ∧
    single (contributeS exprOps (.lit 1, .lit 0) 1 0 1 (contributeS exprOps (.lit 1, .lit 0) 1 0 1 (.lit (2 ^ 24)))) = 2 ^ 24 ∧ single e' = 2 ^ 24 + 2 := by
  have z : round24 0 = 0 := by
    have := round24_error 0
    simpa using this
  have o := round24_one
  have t : round24 (2 ^ 24 + 1) = 2 ^ 24 := by
    rw [round24_tie 24 (2 ^ 23) (by norm_num) (by norm_num) (by norm_num) (by decide)]
    norm_num
  have two : round24 (1 + 1) = 1 + 1 := by
    have := round24_small (m := 1 + 1) 1 (by norm_num) (by norm_num) (2 ^ 23) (by norm_num [zpow_neg])
    norm_num at this ⊢
    exact this
  have b : round24 (2 ^ 24 + (1 + 1)) = 2 ^ 24 + (1 + 1) := by
    have := round24_small (m := 2 ^ 24 + (1 + 1)) 24 (by norm_num) (by norm_num) (2 ^ 23 + 1) (by norm_num)
    norm_num at this ⊢
    exact this
  have c : round24 (round24 (round24 (1 * 1) + round24 (0 * 0)) * 1) = 1 := by rw [mul_one, mul_one, mul_zero, o, z, add_zero, o, o]
  refine ⟨_, .addRight _ _ _, ?_, ?_⟩
  · show round24 (round24 (2 ^ 24 + round24 (round24 (round24 (1 * 1) + round24 (0 * 0)) * 1)) + round24 (round24 (round24 (1 * 1) + round24 (0 * 0)) * 1)) = _
    rw [c, t, t]
  · show round24 (2 ^ 24 + round24 (round24 (round24 (round24 (1 * 1) + round24 (0 * 0)) * 1) + round24 (round24 (round24 (1 * 1) + round24 (0 * 0)) * 1))) = _
    rw [c, two, b]
    norm_num

/-! ### The hypotheses can be met -/

/-- A chunk of 5 x 5 x 6 elements with two components, and a position in it. -/
noncomputable def part93 : Part := ⟨5, 5, 6, List.replicate 300 (3 / 7), 3 / 2, 7 / 4, 9 / 4, 1, -2, 1 / 2⟩

theorem part93_ok : part93.Ok (3 / 7) where
  len := List.length_replicate
  small := by decide
  inside := by
    have a : ⌊(3 / 2 : ℝ)⌋ = 1 := by norm_num
    have b : ⌊(7 / 4 : ℝ)⌋ = 1 := by norm_num
    have c : ⌊(9 / 4 : ℝ)⌋ = 2 := by norm_num
    refine ⟨?_, ?_, ?_⟩ <;> unfold Inside part93 <;> simp only [a, b, c] <;> norm_num
  bound := by
    intro v hv
    rw [List.eq_of_mem_replicate hv, abs_of_pos (by norm_num)]

/-- Two contributions to a sample, evaluated in single precision in another order than written: the contributions first, then the number that was there. -/
example : ∃ e', Rewrites (signalE 5 [part93, part93]) e' ∧ e' ≠ signalE 5 [part93, part93] ∧
    |single e' - (5 + (part93.value + part93.value))| ≤ ((1 + (2 ^ 24)⁻¹) ^ e'.cost - 1) * (5 + (3 / 2 + 3 / 2) * (18 ^ 3 * (3 / 7))) := by
  refine ⟨_, .addRight _ _ _, ?_, ?_⟩
  · intro h
    have : (Expr.lit 5) = Expr.add (.lit 5) _ := (Expr.add.inj h).1
    cases this
  · have := C93_signal (u := (2 ^ 24)⁻¹) (by positivity) (M := 3 / 7) (by norm_num) 5 [part93, part93] (by
      intro p hp
      have : p = part93 := by simpa using hp
      rw [this]
      exact part93_ok) (.addRight _ _ _) (single_runs _)
    have e1 : |part93.src0| + |part93.src1| = 3 := by norm_num [part93]
    have e2 : |part93.weight| = 1 / 2 := by norm_num [part93]
    have e3 : |(5 : ℝ)| = 5 := by norm_num
    simp only [List.map_cons, List.map_nil, List.sum_cons, List.sum_nil, add_zero, e1, e2, e3] at this
    norm_num at this ⊢
    exact this

/-- Two samples with the linear kernel in a cube of 2 x 2 x 3 elements, the first sample in the first cell, both evaluated in single precision. -/
example : ∃ d, interpolateS exprOps 1 (linearS exprOps) 1 (mkHdr 1 [2, 2, 3]) (List.replicate 12 (3 / 7)) (mkHdr 1 [2]) [.lit 0, .lit 0] (1 / 4) (1 / 2) (fun k => k + 1 / 2) 2 (fun _ => .lit 9) = .ok (mkHdr 1 [2], d) ∧
    ∀ k < 2, |single (d.getD k (.lit 0)) - interpAt (linear : Kern ℝ) (component 1 (mkHdr 1 [2, 2, 3]) (List.replicate 12 (3 / 7)) 0) (1 / 4) (1 / 2) (k + 1 / 2)| ≤
      ((1 + (2 ^ 24)⁻¹) ^ (d.getD k (.lit 0)).cost - 1) * (27 * (3 / 7)) := by
  have a : ⌊(1 / 4 : ℝ)⌋ = 0 := by norm_num
  have b : ⌊(1 / 2 : ℝ)⌋ = 0 := by norm_num
  obtain ⟨d, e1, _, e2⟩ := C93_linear (u := (2 ^ 24)⁻¹) (by positivity) (vd := 1) (s0 := 2) (s1 := 2) (s2 := 3) (by decide) (buf := List.replicate 12 (3 / 7)) (by decide) (by decide) (by decide) (by decide) (M := 3 / 7)
    (by norm_num) (fun v hv => by rw [List.eq_of_mem_replicate hv, abs_of_pos (by norm_num)]) (1 / 4) (1 / 2) (fun k => k + 1 / 2) 2 (fun _ => .lit 9) (by unfold Inside; rw [a]; norm_num) (by unfold Inside; rw [b]; norm_num)
    (fun k hk => by
      have : ⌊((k : ℝ) + 1 / 2)⌋ = k := by
        rw [Int.floor_eq_iff]
        constructor <;> push_cast <;> linarith
      unfold Inside
      rw [this]
      omega)
  refine ⟨d, e1, fun k hk => ?_⟩
  have := e2 k hk 0 (by decide) _ (.refl _) _ (single_runs _)
  rw [Nat.one_mul, Nat.add_zero] at this
  norm_num at this ⊢
  exact this

end Verif.Green
