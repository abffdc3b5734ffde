import Verif.Green.Rounding
/-
Interpolation.hxx for a compiler that may rearrange the arithmetic.

CMakeLists.txt 6 asks for `-O3 -ffast-math`: sums and products may be evaluated in any order, common factors taken out or multiplied in, and multiplications and additions contracted. Here the program is run with expressions
instead of numbers, so that the arithmetic it asks for can be seen (`interpolateS` with `exprOps`); the compiler may replace an expression by any other one that the rules in `Rewrites` lead to; the machine evaluates that
expression with a rounding after each operation (`Runs`).

The numbers that decide which elements are read (`std::modf`, conversions to integers) are values of the machine, they are not part of the expressions. Not modelled: overflow, underflow, NaN.
-/
namespace Verif.Green
open Verif Verif.ND

set_option linter.unusedSectionVars false

/-! ### The program -/

/-- What the program does with numbers of type `scalar_t`: a number that is known already, a constant of the source, sums, differences, products, and the statement `c += a * b` (as `mulAdd a b c`). -/
structure Ops (S : Type) where
  lit : ℝ → S
  const : ℝ → S
  sub : S → S → S
  mul : S → S → S
  mulAdd : S → S → S → S

variable {S : Type}

/-- Interpolation.hxx 5-11 `Kernel::Linear`. -/
noncomputable def linearS (O : Ops S) (f : ℝ) : Res (List S) :=
  (Res.assert (decide (0 ≤ f) && decide (f < 1))).bind fun _ => .ok [O.sub (O.lit 1) (O.lit f), O.lit f]

/-- Interpolation.hxx 18-59 `Kernel::Keys`: the four weights. -/
noncomputable def keysWeights (O : Ops S) (x : ℝ) : List S :=
  let f := O.lit x
  let p1_1 := O.mul (O.lit (-(1 / 2))) f
  let p1_2 := O.sub f (O.lit 1)
  let p1_3 := O.mul p1_1 p1_2
  let c2_1 := O.const ((1 - Real.sqrt 7) / 3)
  let p2_1 := O.sub f c2_1
  let c2_2 := O.const ((1 + Real.sqrt 7) / 3)
  let p2_2 := O.sub f c2_2
  let p2_3 := O.sub f (O.lit 1)
  let p2_4 := O.mul p2_2 p2_3
  let c2_5 := O.lit (3 / 2)
  let p2_5 := O.mul c2_5 p2_1
  let c3_1 := O.const (1 / 3 * (2 - Real.sqrt 7))
  let p3_1 := O.sub f c3_1
  let c3_2 := O.const (1 / 3 * (2 + Real.sqrt 7))
  let p3_2 := O.sub f c3_2
  let p3_3 := O.mul p3_1 p3_2
  let c3_4 := O.lit (-(3 / 2))
  let p3_4 := O.mul f c3_4
  let p4_1 := O.sub f (O.lit 1)
  let p4_2 := O.mul f f
  let c4_3 := O.lit (1 / 2)
  let p4_3 := O.mul p4_1 c4_3
  [O.mul p1_3 p1_2, O.mul p2_5 p2_4, O.mul p3_3 p3_4, O.mul p4_3 p4_2]

/-- Interpolation.hxx 13-60 `Kernel::Keys`, with its assertion. -/
noncomputable def keysS (O : Ops S) (x : ℝ) : Res (List S) := (Res.assert (decide (0 ≤ x) && decide (x < 1))).bind fun _ => .ok (keysWeights O x)

/-- Interpolation.hxx 65-80 `interpolate_1d`: the products are added one after the other to `accum[j]`, which starts at zero. -/
def interp1dS (O : Ops S) (vd : Nat) (kernel : List S) (buf : List ℝ) (pos : Nat) : Res (List S) :=
  if pos + vd * kernel.length ≤ buf.length then
    .ok ((List.range vd).map fun j =>
      (List.range kernel.length).foldl (fun acc i => O.mulAdd (kernel.getD i (O.lit 0)) (O.lit (buf.getD (pos + (vd * i + j)) 0)) acc) (O.lit 0))
  else .ub

/-- Interpolation.hxx 145-180: one turn of the loop over the samples; `p k` is the position of sample `k` (line 148). -/
noncomputable def sampleStepS (O : Ops S) (support : Nat) (kern : ℝ → Res (List S)) (vd : Nat) (buf : List ℝ) (col : Nat) (w : S) (p : Nat → ℝ) (hr : Hdr) (k : Nat) (ret : List S) : Res (List S) :=
  let m := modf (p k)
  (toSize m.1).bind fun inner =>
  (kern m.2).bind fun ker =>
  (interp1dS O vd ker buf (col + vd * wsub inner (support - 1))).bind fun v =>
  (read1 vd hr ret k).bind fun old =>
  copyN (List.zipWith (fun o x => O.mulAdd x w o) old v) 0 vd ret (vd * k)

/-- Interpolation.hxx 82-183 `interpolate(arr, retval, outer_inds, inner_ind_start, inner_ind_delta, num_samples)`. -/
noncomputable def interpolateS (O : Ops S) (support : Nat) (kern : ℝ → Res (List S)) (vd : Nat) (h : Hdr) (buf : List ℝ) (hr : Hdr) (ret : List S) (x y : ℝ) (p : Nat → ℝ) (n : Nat)
    (junk : Nat → S) : Res (Hdr × List S) :=
  (resize vd hr ret [n] junk).bind fun r =>
  (toSize (modf x).1).bind fun o0 =>
  (toSize (modf y).1).bind fun o1 =>
  (kern (modf x).2).bind fun k0 =>
  (kern (modf y).2).bind fun k1 =>
  (runLoop (fun i1 ret => runLoop (fun i2 ret =>
      let col := flatInd h [i1, i2, 0]
      let w := O.mul (k0.getD (wsub i1 (wsub o0 (support - 1))) (O.lit 0)) (k1.getD (wsub i2 (wsub o1 (support - 1))) (O.lit 0))
      runLoop (sampleStepS O support kern vd buf col w p r.1) (List.range n) ret)
    (columns support o1) ret) (columns support o0) r.2).bind fun d => .ok (r.1, d)

/-- GreensFunction.hxx 425-432 (`*result += inner_product(interp_buffer[i], source) * weight`) and 461-463 `inner_product`: one contribution to a sample of the signal. `d` are the two components of the interpolated field. -/
def contributeS (O : Ops S) (d : S × S) (s0 s1 weight : ℝ) (out : S) : S :=
  O.mulAdd (O.mulAdd d.2 (O.lit s1) (O.mul d.1 (O.lit s0))) (O.lit weight) out

/-! ### The compiler and the machine -/

/-- Expressions: `const c` is a number in the source, which is rounded when it is compiled; `lit x` is a number the machine already has. -/
inductive Expr
  | lit (x : ℝ)
  | const (c : ℝ)
  | neg (a : Expr)
  | add (a b : Expr)
  | sub (a b : Expr)
  | mul (a b : Expr)

/-- The operations of the program, written down. -/
def exprOps : Ops Expr := ⟨.lit, .const, .sub, .mul, fun a b c => .add c (.mul a b)⟩

/-- The exact value. -/
def Expr.eval : Expr → ℝ
  | .lit x => x
  | .const c => c
  | .neg a => -a.eval
  | .add a b => a.eval + b.eval
  | .sub a b => a.eval - b.eval
  | .mul a b => a.eval * b.eval

/-- The value if no terms cancelled. -/
def Expr.mag : Expr → ℝ
  | .lit x => |x|
  | .const c => |c|
  | .neg a => a.mag
  | .add a b => a.mag + b.mag
  | .sub a b => a.mag + b.mag
  | .mul a b => a.mag * b.mag

/-- How many roundings can meet in the value. -/
def Expr.cost : Expr → Nat
  | .lit _ => 0
  | .const _ => 1
  | .neg a => a.cost
  | .add a b => max a.cost b.cost + 1
  | .sub a b => max a.cost b.cost + 1
  | .mul a b => a.cost + b.cost + 1

/-- What a machine that rounds each result with relative error at most `u` may compute. A fused operation is one whose product has no error. -/
inductive Runs (u : ℝ) : Expr → ℝ → Prop
  | lit (x : ℝ) : Runs u (.lit x) x
  | const {c r : ℝ} (h : |r - c| ≤ u * |c|) : Runs u (.const c) r
  | neg {a : Expr} {x : ℝ} (ha : Runs u a x) : Runs u (.neg a) (-x)
  | add {a b : Expr} {x y r : ℝ} (ha : Runs u a x) (hb : Runs u b y) (h : |r - (x + y)| ≤ u * |x + y|) : Runs u (.add a b) r
  | sub {a b : Expr} {x y r : ℝ} (ha : Runs u a x) (hb : Runs u b y) (h : |r - (x - y)| ≤ u * |x - y|) : Runs u (.sub a b) r
  | mul {a b : Expr} {x y r : ℝ} (ha : Runs u a x) (hb : Runs u b y) (h : |r - x * y| ≤ u * |x * y|) : Runs u (.mul a b) r

/-- What `-ffast-math` allows the compiler to make of an expression, also inside of larger ones: other orders and groupings of sums and products, taking out or multiplying in common factors, moving signs,
    leaving out zeros and ones, and cancelling equal terms. -/
inductive Rewrites : Expr → Expr → Prop
  | refl (a : Expr) : Rewrites a a
  | trans {a b c : Expr} (h : Rewrites a b) (g : Rewrites b c) : Rewrites a c
  | inNeg {a a' : Expr} (h : Rewrites a a') : Rewrites (.neg a) (.neg a')
  | inAdd {a a' b b' : Expr} (h : Rewrites a a') (g : Rewrites b b') : Rewrites (.add a b) (.add a' b')
  | inSub {a a' b b' : Expr} (h : Rewrites a a') (g : Rewrites b b') : Rewrites (.sub a b) (.sub a' b')
  | inMul {a a' b b' : Expr} (h : Rewrites a a') (g : Rewrites b b') : Rewrites (.mul a b) (.mul a' b')
  | addComm (a b : Expr) : Rewrites (.add a b) (.add b a)
  | addLeft (a b c : Expr) : Rewrites (.add a (.add b c)) (.add (.add a b) c)
  | addRight (a b c : Expr) : Rewrites (.add (.add a b) c) (.add a (.add b c))
  | mulComm (a b : Expr) : Rewrites (.mul a b) (.mul b a)
  | mulLeft (a b c : Expr) : Rewrites (.mul a (.mul b c)) (.mul (.mul a b) c)
  | mulRight (a b c : Expr) : Rewrites (.mul (.mul a b) c) (.mul a (.mul b c))
  | expand (a b c : Expr) : Rewrites (.mul a (.add b c)) (.add (.mul a b) (.mul a c))
  | factor (a b c : Expr) : Rewrites (.add (.mul a b) (.mul a c)) (.mul a (.add b c))
  | subNeg (a b : Expr) : Rewrites (.sub a b) (.add a (.neg b))
  | negSub (a b : Expr) : Rewrites (.add a (.neg b)) (.sub a b)
  | negMul (a b : Expr) : Rewrites (.neg (.mul a b)) (.mul (.neg a) b)
  | mulNeg (a b : Expr) : Rewrites (.mul (.neg a) b) (.neg (.mul a b))
  | negAdd (a b : Expr) : Rewrites (.neg (.add a b)) (.add (.neg a) (.neg b))
  | addNeg (a b : Expr) : Rewrites (.add (.neg a) (.neg b)) (.neg (.add a b))
  | negNeg (a : Expr) : Rewrites (.neg (.neg a)) a
  | noZero (a : Expr) : Rewrites (.add (.lit 0) a) a
  | noOne (a : Expr) : Rewrites (.mul (.lit 1) a) a
  | timesZero (a : Expr) : Rewrites (.mul (.lit 0) a) (.lit 0)
  | cancel (a : Expr) : Rewrites (.add a (.neg a)) (.lit 0)

/-! ### Every rearrangement has the same value, and terms that are not larger -/

theorem Expr.mag_nonneg : ∀ e : Expr, 0 ≤ e.mag
  | .lit x => abs_nonneg x
  | .const c => abs_nonneg c
  | .neg a => a.mag_nonneg
  | .add a b => add_nonneg a.mag_nonneg b.mag_nonneg
  | .sub a b => add_nonneg a.mag_nonneg b.mag_nonneg
  | .mul a b => mul_nonneg a.mag_nonneg b.mag_nonneg

theorem Rewrites.eval {a b : Expr} (h : Rewrites a b) : b.eval = a.eval := by
  induction h with
  | refl => rfl
  | trans _ _ h g => exact g.trans h
  | inNeg _ h => simp only [Expr.eval, h]
  | inAdd _ _ h g => simp only [Expr.eval, h, g]
  | inSub _ _ h g => simp only [Expr.eval, h, g]
  | inMul _ _ h g => simp only [Expr.eval, h, g]
  | _ => simp only [Expr.eval]; ring

theorem Rewrites.mag {a b : Expr} (h : Rewrites a b) : b.mag ≤ a.mag := by
  induction h with
  | refl => exact le_rfl
  | trans _ _ h g => exact g.trans h
  | inNeg _ h => exact h
  | inAdd _ _ h g => exact add_le_add h g
  | inSub _ _ h g => exact add_le_add h g
  | @inMul a a' b b' _ _ h g => exact mul_le_mul h g b'.mag_nonneg a.mag_nonneg
  | timesZero a => simp [Expr.mag]
  | cancel a => simp only [Expr.mag, abs_zero]; exact add_nonneg a.mag_nonneg a.mag_nonneg
  | noZero a => simp [Expr.mag]
  | noOne a => simp [Expr.mag]
  | _ => simp only [Expr.mag]; first | exact le_rfl | exact le_of_eq (by ring)

variable {u : ℝ}

theorem Near.negate {k : Nat} {x' x X : ℝ} (h : Near u k x' x X) : Near u k (-x') (-x) X := by
  refine ⟨?_, by rw [abs_neg]; exact h.2⟩
  have e : -x' - -x = -(x' - x) := by ring
  rw [e, abs_neg]
  exact h.1

theorem Runs.near (hu : 0 ≤ u) {e : Expr} {r : ℝ} (h : Runs u e r) : Near u e.cost r e.eval e.mag := by
  induction h with
  | lit x => exact Near.refl hu 0 x
  | const h => exact round_exact hu h
  | neg _ ih => exact ih.negate
  | add _ _ h i1 i2 => exact ((i1.mono hu (le_max_left _ _) le_rfl).plus (i2.mono hu (le_max_right _ _) le_rfl)).round hu h
  | @sub a b x y r _ _ h i1 i2 =>
    have := (i1.mono hu (le_max_left a.cost b.cost) le_rfl).plus ((i2.mono hu (le_max_right a.cost b.cost) le_rfl).negate)
    rw [← sub_eq_add_neg, ← sub_eq_add_neg] at this
    exact this.round hu h
  | mul _ _ h i1 i2 => exact (i1.prod i2).round hu h

/-! ### The program, run with any kind of numbers -/

/-- What `interpolate_1d` computes for component `j` of the column that starts at `base`, at the position `t`; `w` are the weights. -/
noncomputable def innerS (O : Ops S) (support : Nat) (w : List S) (vd : Nat) (buf : List ℝ) (base : Nat) (t : ℝ) (j : Nat) : S :=
  (List.range (2 * support)).foldl (fun acc c => O.mulAdd (w.getD c (O.lit 0)) (O.lit (buf.getD (base + vd * (⌊t⌋ - (support - 1 : Int)).toNat + (vd * c + j)) 0)) acc) (O.lit 0)

/-- What `interpolate` adds to `old` for component `j` at the position `(x, y, t)`. -/
noncomputable def outerS (O : Ops S) (support : Nat) (kx ky kt : List S) (vd s1 s2 : Nat) (buf : List ℝ) (x y t : ℝ) (j : Nat) (old : S) : S :=
  (List.range' (⌊x⌋ - (support - 1 : Int)).toNat (2 * support)).foldl (fun acc i1 => (List.range' (⌊y⌋ - (support - 1 : Int)).toNat (2 * support)).foldl (fun acc i2 =>
    O.mulAdd (innerS O support kt vd buf ((i1 * s1 + i2) * s2 * vd) t j)
      (O.mul (kx.getD (i1 - (⌊x⌋ - (support - 1 : Int)).toNat) (O.lit 0)) (ky.getD (i2 - (⌊y⌋ - (support - 1 : Int)).toNat) (O.lit 0))) acc) acc) old

theorem runLoop_updS {ι : Type} (z : S) (f : ι → List S → Res (List S)) (g : ι → Nat → S → S) (N : Nat) (l : List ι)
    (step : ∀ i ∈ l, ∀ s : List S, s.length = N → ∃ s', f i s = .ok s' ∧ s'.length = N ∧ ∀ p, p < N → s'.getD p z = g i p (s.getD p z)) :
    ∀ s : List S, s.length = N → ∃ s', runLoop f l s = .ok s' ∧ s'.length = N ∧ ∀ p, p < N → s'.getD p z = l.foldl (fun acc i => g i p acc) (s.getD p z) := by
  induction l with
  | nil => intro s hs; exact ⟨s, rfl, hs, by simp⟩
  | cons i l ih =>
    intro s hs
    obtain ⟨s1, h1, l1, e1⟩ := step i (by simp) s hs
    obtain ⟨s2, h2, l2, e2⟩ := ih (fun i hi => step i (by simp [hi])) s1 l1
    refine ⟨s2, by rw [runLoop, h1]; exact h2, l2, fun p hp => ?_⟩
    rw [e2 p hp, e1 p hp, List.foldl_cons]

theorem foldl_singleS {n q : Nat} (φ : S → S) (v : S) : (List.range n).foldl (fun acc k => if q = k then φ acc else acc) v = if q < n then φ v else v := by
  induction n with
  | zero => simp
  | succ n ih =>
    rw [List.range_succ, List.foldl_append, ih]
    simp only [List.foldl_cons, List.foldl_nil]
    by_cases h : q = n
    · rw [if_pos h, if_neg (by omega), if_pos (by omega)]
    · rw [if_neg h]
      by_cases h' : q < n
      · rw [if_pos h', if_pos (by omega)]
      · rw [if_neg h', if_neg (by omega)]

variable (O : Ops S)

theorem sampleStepS_ok {support : Nat} (hp : 0 < support) {kern : ℝ → Res (List S)} {vd s0 s1 s2 : Nat} (hv : 0 < vd) {buf : List ℝ} (hl : buf.length = volume vd [s0, s1, s2]) (hs2 : s2 < U64)
    {i1 i2 : Nat} (h1 : i1 < s0) (h2 : i2 < s1) (w : S) (pos : Nat → ℝ) {n k : Nat} (hkn : k < n) (hin : Inside support s2 (pos k)) {ker : List S} (hker : kern (Int.fract (pos k)) = .ok ker)
    (hlen : ker.length = 2 * support) (ret : List S) (hr : ret.length = n * vd) :
    ∃ ret', sampleStepS O support kern vd buf (flatInd (mkHdr vd [s0, s1, s2]) [i1, i2, 0]) w pos (mkHdr vd [n]) k ret = .ok ret' ∧ ret'.length = n * vd ∧
      ∀ p, p < n * vd → ret'.getD p (O.lit 0) = if p / vd = k then O.mulAdd (innerS O support ker vd buf ((i1 * s1 + i2) * s2 * vd) (pos k) (p % vd)) w (ret.getD p (O.lit 0)) else ret.getD p (O.lit 0) := by
  set t := pos k with ht
  have a1 : (support : Int) - 1 ≤ ⌊t⌋ := hin.1
  have a2 : ⌊t⌋ + support < s2 := hin.2
  have hn0 : 0 ≤ t := Int.floor_nonneg.1 (by omega)
  unfold sampleStepS
  rw [← ht, modf_nonneg hn0]
  simp only
  rw [toSize_ok (by omega) (by omega)]
  simp only [Res.ok_bind, hker]
  rw [wsub_eq (by omega) (by omega)]
  have elo : ⌊t⌋.toNat - (support - 1) = (⌊t⌋ - (support - 1 : Int)).toNat := by omega
  rw [elo, flat3]
  set lo := (⌊t⌋ - (support - 1 : Int)).toNat with hlo
  have hb : ((i1 * s1 + i2) * s2 + 0) * vd + vd * lo + vd * ker.length ≤ buf.length := by
    rw [hl, volume3, hlen]
    have base : ((i1 * s1 + i2) * s2 + 0) * vd + vd * lo + vd * (2 * support) = ((i1 * s1 + i2) * s2 + (lo + 2 * support)) * vd := by ring
    rw [base]
    apply Nat.mul_le_mul_right
    have := flat3_lt (vd := 1) (i := i1) (j := i2) (k := lo + 2 * support - 1) h1 h2 (s2 := s2) (by omega)
    simp only [Nat.mul_one] at this
    omega
  unfold interp1dS
  rw [if_pos hb]
  simp only [Res.ok_bind]
  have hkv : vd * k + vd ≤ n * vd := by
    calc vd * k + vd = (k + 1) * vd := by ring
      _ ≤ n * vd := Nat.mul_le_mul_right _ hkn
  unfold read1
  rw [if_pos (by simp [hasIndex, mkHdr, hkn]), if_pos (by omega)]
  simp only [Res.ok_bind]
  unfold copyN
  rw [if_pos (by simp; omega)]
  refine ⟨_, rfl, by simp; omega, fun p hpn => ?_⟩
  have hpv : p / vd * vd + p % vd = p := by rw [Nat.mul_comm]; exact Nat.div_add_mod p vd
  have hpm : p % vd < vd := Nat.mod_lt _ hv
  by_cases hpk : p / vd = k
  · rw [if_pos hpk]
    have ep : p = vd * k + p % vd := by rw [← hpk, Nat.mul_comm]; exact hpv.symm
    have hlt : (ret.take (vd * k)).length = vd * k := by simp; omega
    rw [List.append_assoc, List.getD_eq_getElem?_getD, List.getElem?_append_right (by omega), hlt]
    have e2 : p - vd * k = p % vd := by omega
    rw [e2, List.getElem?_append_left (by simp; omega)]
    rw [List.getElem?_take_of_lt hpm, List.getElem?_drop, Nat.zero_add, List.getElem?_zipWith]
    rw [List.getElem?_take_of_lt hpm, List.getElem?_drop, ← ep, List.getElem?_map, List.getElem?_range hpm]
    have hpr : p < ret.length := by omega
    rw [List.getElem?_eq_getElem hpr, List.getD_eq_getElem?_getD, List.getElem?_eq_getElem hpr]
    simp only [Option.map_some, Option.getD_some]
    congr 1
    unfold innerS
    rw [hlen, Nat.add_zero]
  · rw [if_neg hpk]
    rcases Nat.lt_or_gt_of_ne hpk with hlt | hgt
    · have : p < vd * k := by
        have : (p / vd + 1) * vd ≤ k * vd := Nat.mul_le_mul_right _ hlt
        have e : (p / vd + 1) * vd = p / vd * vd + vd := by ring
        have e' : k * vd = vd * k := Nat.mul_comm _ _
        omega
      rw [List.append_assoc, List.getD_eq_getElem?_getD, List.getElem?_append_left (by simp; omega), List.getElem?_take_of_lt this, List.getD_eq_getElem?_getD]
    · have : vd * k + vd ≤ p := by
        have : (k + 1) * vd ≤ p / vd * vd := Nat.mul_le_mul_right _ hgt
        have e : (k + 1) * vd = vd * k + vd := by ring
        omega
      rw [List.getD_eq_getElem?_getD, List.getElem?_append_right (by simp; omega), List.getElem?_drop, List.getD_eq_getElem?_getD]
      congr 2
      simp only [List.length_append, List.length_take, List.length_drop, List.length_zipWith, List.length_map, List.length_range]
      have q1 : min (vd * k) ret.length = vd * k := by omega
      have q2 : min vd (min (min vd (ret.length - vd * k)) vd - 0) = vd := by omega
      rw [q1, q2]
      omega

/-- The kernel gives `2 * support` weights at every fractional position. -/
def Weights (support : Nat) (kern : ℝ → Res (List S)) : Prop := ∀ f : ℝ, 0 ≤ f → f < 1 → ∃ w, kern f = .ok w ∧ w.length = 2 * support

/-- The program ends, and adds `outerS` to each element. -/
theorem interpolateS_ok {support : Nat} (hp : 0 < support) {kern : ℝ → Res (List S)} (hk : Weights support kern) {vd s0 s1 s2 : Nat} (hv : 0 < vd) {buf : List ℝ}
    (hl : buf.length = volume vd [s0, s1, s2]) (hs0 : s0 < U64) (hs1 : s1 < U64) (hs2 : s2 < U64) {hr : Hdr} (hown : hr.owns = true) (ret : List S) (x y : ℝ) (pos : Nat → ℝ) (n : Nat) (junk : Nat → S)
    (hx : Inside support s0 x) (hy : Inside support s1 y) (ht : ∀ k < n, Inside support s2 (pos k)) {kx ky : List S} (hkx : kern (Int.fract x) = .ok kx) (hky : kern (Int.fract y) = .ok ky) :
    ∃ d, interpolateS O support kern vd (mkHdr vd [s0, s1, s2]) buf hr ret x y pos n junk = .ok (mkHdr vd [n], d) ∧ d.length = n * vd ∧
      ∀ k < n, ∀ j < vd, ∀ kt, kern (Int.fract (pos k)) = .ok kt →
        d.getD (vd * k + j) (O.lit 0) = outerS O support kx ky kt vd s1 s2 buf x y (pos k) j (ret.getD (vd * k + j) (junk (vd * k + j))) := by
  have hU : U64 = 2 ^ 64 := rfl
  unfold interpolateS
  have hres : resize vd hr ret [n] junk = .ok (mkHdr vd [n], (List.range (n * vd)).map fun k => ret.getD k (junk k)) := by
    simp [resize, hown, mkHdr, volume, numElems]
  rw [hres]
  simp only [Res.ok_bind]
  rw [modf_nonneg (hx.nonneg hp), modf_nonneg (hy.nonneg hp)]
  simp only
  have x1 := hx.1
  have x2 := hx.2
  have y1 := hy.1
  have y2 := hy.2
  rw [toSize_ok (n := ⌊x⌋) (by omega) (by omega), toSize_ok (n := ⌊y⌋) (by omega) (by omega)]
  simp only [Res.ok_bind, hkx, hky]
  obtain ⟨ex, cx⟩ := columns_eq hp hs0 hx
  obtain ⟨ey, cy⟩ := columns_eq hp hs1 hy
  rw [cx, cy, ex, ey]
  unfold outerS
  set lx := (⌊x⌋ - (support - 1 : Int)).toNat with hlx
  set ly := (⌊y⌋ - (support - 1 : Int)).toNat with hly
  have hkt : ∀ k : Nat, ∃ w, k < n → kern (Int.fract (pos k)) = .ok w ∧ w.length = 2 * support := by
    intro k
    obtain ⟨w, h⟩ := hk _ (Int.fract_nonneg (pos k)) (Int.fract_lt_one (pos k))
    exact ⟨w, fun _ => h⟩
  choose kt hkt using hkt
  let T : Nat → Nat → Nat → S := fun i1 i2 p => innerS O support (kt (p / vd)) vd buf ((i1 * s1 + i2) * s2 * vd) (pos (p / vd)) (p % vd)
  let W : Nat → Nat → S := fun i1 i2 => O.mul (kx.getD (wsub i1 lx) (O.lit 0)) (ky.getD (wsub i2 ly) (O.lit 0))
  have L1 : ∀ i1 ∈ List.range' lx (2 * support), ∀ i2 ∈ List.range' ly (2 * support), ∀ s : List S, s.length = n * vd →
      ∃ s', runLoop (sampleStepS O support kern vd buf (flatInd (mkHdr vd [s0, s1, s2]) [i1, i2, 0]) (W i1 i2) pos (mkHdr vd [n])) (List.range n) s = .ok s' ∧
        s'.length = n * vd ∧ ∀ p, p < n * vd → s'.getD p (O.lit 0) = O.mulAdd (T i1 i2 p) (W i1 i2) (s.getD p (O.lit 0)) := by
    intro i1 hi1 i2 hi2 s hs
    simp only [List.mem_range'_1] at hi1 hi2
    obtain ⟨s', e1, e2, e3⟩ := runLoop_updS (O.lit 0) _ (fun k p v => if p / vd = k then
        O.mulAdd (innerS O support (kt k) vd buf ((i1 * s1 + i2) * s2 * vd) (pos k) (p % vd)) (W i1 i2) v else v) (n * vd)
      (List.range n) (fun k hk' s hs => sampleStepS_ok O hp hv hl hs2 (by omega) (by omega) (W i1 i2) pos
        (List.mem_range.1 hk') (ht k (List.mem_range.1 hk')) (hkt k (List.mem_range.1 hk')).1 (hkt k (List.mem_range.1 hk')).2 s hs) s hs
    refine ⟨s', e1, e2, fun p hp' => ?_⟩
    rw [e3 p hp']
    have hpn : p / vd < n := by rw [Nat.div_lt_iff_lt_mul hv]; exact hp'
    have e4 : (List.range n).foldl (fun acc k => if p / vd = k then
        O.mulAdd (innerS O support (kt k) vd buf ((i1 * s1 + i2) * s2 * vd) (pos k) (p % vd)) (W i1 i2) acc else acc) (s.getD p (O.lit 0)) =
        (List.range n).foldl (fun acc k => if p / vd = k then O.mulAdd (T i1 i2 p) (W i1 i2) acc else acc) (s.getD p (O.lit 0)) := by
      congr 1
      funext acc k
      by_cases h : p / vd = k
      · rw [if_pos h, if_pos h, ← h]
      · rw [if_neg h, if_neg h]
    rw [e4, foldl_singleS (q := p / vd) (fun acc => O.mulAdd (T i1 i2 p) (W i1 i2) acc), if_pos hpn]
  have L2 : ∀ i1 ∈ List.range' lx (2 * support), ∀ s : List S, s.length = n * vd →
      ∃ s', runLoop (fun i2 ret => runLoop (sampleStepS O support kern vd buf (flatInd (mkHdr vd [s0, s1, s2]) [i1, i2, 0]) (W i1 i2) pos (mkHdr vd [n])) (List.range n) ret)
          (List.range' ly (2 * support)) s = .ok s' ∧
        s'.length = n * vd ∧ ∀ p, p < n * vd → s'.getD p (O.lit 0) = (List.range' ly (2 * support)).foldl (fun acc i2 => O.mulAdd (T i1 i2 p) (W i1 i2) acc) (s.getD p (O.lit 0)) :=
    fun i1 hi1 s hs => runLoop_updS (O.lit 0) _ (fun i2 p acc => O.mulAdd (T i1 i2 p) (W i1 i2) acc) (n * vd) _ (L1 i1 hi1) s hs
  obtain ⟨d, e1, e2, e3⟩ := runLoop_updS (O.lit 0) _ (fun i1 p acc => (List.range' ly (2 * support)).foldl (fun acc i2 => O.mulAdd (T i1 i2 p) (W i1 i2) acc) acc) (n * vd) _ L2
    ((List.range (n * vd)).map fun k => ret.getD k (junk k)) (by simp)
  refine ⟨d, ?_, e2, fun k hkn j hj w hw => ?_⟩
  · rw [e1]; rfl
  · have hkj : vd * k + j < n * vd := by
      have : (k + 1) * vd ≤ n * vd := Nat.mul_le_mul_right _ hkn
      have e : (k + 1) * vd = vd * k + vd := by ring
      omega
    rw [e3 _ hkj]
    have e0 : ((List.range (n * vd)).map fun k => ret.getD k (junk k)).getD (vd * k + j) (O.lit 0) = ret.getD (vd * k + j) (junk (vd * k + j)) := by
      rw [List.getD_eq_getElem?_getD, List.getElem?_map, List.getElem?_range hkj]; rfl
    rw [e0]
    obtain ⟨d1, d2⟩ := mod_div_of (k := k) hj
    have ew : kt k = w := by
      have := (hkt k hkn).1
      rw [hw] at this
      cases this
      rfl
    apply List.foldl_ext
    intro acc i1 hi1
    apply List.foldl_ext
    intro acc i2 hi2
    simp only [List.mem_range'_1] at hi1 hi2
    simp only [T, W, d1, d2, ew]
    rw [wsub_eq (by omega) (by omega), wsub_eq (by omega) (by omega)]

end Verif.Green
