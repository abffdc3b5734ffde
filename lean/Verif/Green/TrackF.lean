import Verif.Green.Track
import Verif.Green.Props81
/-
Model of `CylindricalGreensFunction::apply_accumulate` (GreensFunction.hxx 199-342) and its helpers in floating-point arithmetic.

The arithmetic is that of `Verif.Green.Rounding`: every operation on `scalar_t` rounds, a sum of a product and another number may or may not be contracted (`mulAdd`). `std::ceil`, negation and
comparisons are exact, `std::sqrt` is the field `sqrt` of the setup. The factor `(-1.0)` in line 330 changes only the sign. Overflow and underflow are not modelled. The rest is that of `Verif.Green.Track`.
-/
namespace Verif.Green
open Verif Verif.ND Verif.Dist

set_option linter.unusedSectionVars false

/-- GreensFunction.hxx 439-444 `coord_cart_to_cyl`, see `coordCyl`. -/
noncomputable def coordCylF (A : Arith) (sqrt : ℝ → ℝ) (p : XYZ ℝ) : ℝ × ℝ := (sqrt (A.mulAdd p.y p.y (A.mul p.x p.x)), p.z)

/-- GreensFunction.hxx 446-459 `field_cart_to_cyl`, see `fieldCyl`. -/
noncomputable def fieldCylF (A : Arith) (sqrt : ℝ → ℝ) (f p : XYZ ℝ) : List ℝ :=
  let r := sqrt (A.mulAdd p.y p.y (A.mul p.x p.x))
  let c := if 0 < r then A.div p.x r else 0
  let s := if 0 < r then A.div p.y r else 0
  [A.mulAdd f.y s (A.mul f.x c), f.z]

/-- GreensFunction.hxx 293-294 `sample_ind_causal`, see `causalInd`. -/
noncomputable def causalIndF (A : Arith) (tp tsig tsamp : ℝ) : Res Nat :=
  if tsamp = 0 then .ub else (toInt32 ⌈A.div (A.sub tp tsig) tsamp⌉).bind fun i => .ok (max 0 i).toNat

/-- GreensFunction.hxx 280-281: position of integration point `p`. -/
noncomputable def posF (A : Arith) (T : Track ℝ) (p : Nat) : XYZ ℝ :=
  ⟨A.mulAdd (A.ofNat p) T.dpos.x T.seg.p0.x, A.mulAdd (A.ofNat p) T.dpos.y T.seg.p0.y, A.mulAdd (A.ofNat p) T.dpos.z T.seg.p0.z⟩

/-- GreensFunction.hxx 290: time of the integration point `p`. -/
noncomputable def timeF (A : Arith) (T : Track ℝ) (p : Nat) : ℝ := A.mulAdd (A.ofNat p) T.step T.seg.t0

/-- GreensFunction.hxx 465-468 `coords_to_index`, one component, and 357: from a coordinate to an index. -/
noncomputable def indexF (A : Arith) (c c0 d : ℝ) : ℝ := A.div (A.sub c c0) d

variable {σ : Type}

/-- GreensFunction.hxx 344-437 `accumulate_inner_product`, see `accumulate` and `accumulateF`: 356-358 are the conversions to indices. -/
noncomputable def innerF (A : Arith) (S : Setup σ ℝ) (junk : Nat → ℝ) (r z ts : ℝ) (m : Nat) (source out : List ℝ) (b : Nat) (weight : ℝ) (s : σ) : Res (σ × List ℝ) :=
  accumulateF A S.L S.kn S.grow junk (indexF A r S.G.r0 S.G.dr) (indexF A z S.G.z0 S.G.dz) (indexF A ts S.G.t0 S.G.dt) (A.div S.tsamp S.G.dt) m source out b weight S.oob s

/-- GreensFunction.hxx 283-336, the loop over the integration points of a block, see `ptLoop`. -/
noncomputable def ptLoopF (A : Arith) (S : Setup σ ℝ) (T : Track ℝ) (w : List ℝ) (start b0 b1 : Nat) : List Nat → σ × List ℝ → Res (σ × List ℝ)
  | [], st => .ok st
  | i :: is, st =>
    let p := i + start
    let tp := timeF A T p
    (causalIndF A tp S.tsig S.tsamp).bind fun c =>
    let b := clampN c b0 b1
    let m := b1 - b
    if m = 0 then .ok st
    else
      let ts := A.sub (A.mulAdd (A.ofNat b) S.tsamp S.tsig) tp
      (Res.assert (decide (0 ≤ ts))).bind fun _ =>
      (Res.assert (decide (b + m ≤ st.2.length))).bind fun _ =>
      let rz := coordCylF A S.sqrt (posF A T p)
      (innerF A S (S.junk p b0) rz.1 rz.2 ts m (fieldCylF A S.sqrt T.src (posF A T p)) st.2 b (-(A.mul (A.mul (w.getD i 0) T.step) S.weight)) st.1).bind fun st =>
      ptLoopF A S T w start b0 b1 is st

/-- GreensFunction.hxx 278-339, the loop over the sample blocks, see `sampleLoop`. -/
noncomputable def sampleLoopF (A : Arith) (S : Setup σ ℝ) (T : Track ℝ) (w : List ℝ) (start size : Nat) : Nat → Nat → σ × List ℝ → Res (σ × List ℝ)
  | 0, _, _ => .diverge
  | fuel + 1, b, st =>
    if b < S.n then
      (ptLoopF A S T w start b (min (wadd b S.maxS) S.n) (List.range size) st).bind fun st => sampleLoopF A S T w start size fuel (wadd b S.maxS) st
    else .ok st

/-- GreensFunction.hxx 250-340, the loop over the integration blocks, see `itgrLoop`. The weights 1/2 and 1 are exact. -/
noncomputable def itgrLoopF (A : Arith) (S : Setup σ ℝ) (T : Track ℝ) : Nat → Nat → σ × List ℝ → Res (σ × List ℝ)
  | 0, _, _ => .diverge
  | fuel + 1, b, st =>
    if b < T.num then
      let size := min S.maxI (T.num - b)
      (blockWeights T.num b size S.wjunk).bind fun w =>
      (sampleLoopF A S T w b size (S.n + 1) 0 st).bind fun st => itgrLoopF A S T fuel (wadd b S.maxI) st
    else .ok st

/-- GreensFunction.hxx 205-227, see `trackOf`. -/
noncomputable def trackOfF (A : Arith) (seg : Segment ℝ) : Res (Option (Track ℝ)) :=
  let D := A.sub seg.t1 seg.t0
  (toSize ⌈A.div D 1⌉).bind fun n =>
  if n = 0 then .ok none
  else
    let step := A.div D (A.ofNat n)
    let vel : XYZ ℝ := ⟨A.div (A.sub seg.p1.x seg.p0.x) D, A.div (A.sub seg.p1.y seg.p0.y) D, A.div (A.sub seg.p1.z seg.p0.z) D⟩
    .ok (some ⟨wadd n 1, step, ⟨A.mul vel.x step, A.mul vel.y step, A.mul vel.z step⟩, ⟨A.mul vel.x seg.charge, A.mul vel.y seg.charge, A.mul vel.z seg.charge⟩, seg⟩)

/-- GreensFunction.hxx 199-342 `apply_accumulate`, see `applyAccumulate`. -/
noncomputable def applyAccumulateF (A : Arith) (S : Setup σ ℝ) (seg : Segment ℝ) (signal : List ℝ) (s : σ) : Res (σ × List ℝ) :=
  (trackOfF A seg).bind fun o =>
  match o with
  | none => if S.n = 0 then .ok (s, signal) else .ub
  | some T => itgrLoopF A S T (T.num + 1) 0 (s, signal)

end Verif.Green
