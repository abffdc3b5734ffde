import Verif.Green.Inner
import Verif.Green.Quad
/-
Model of `LineCurrentSegment` (Current.hh, Current.hxx) and of `CylindricalGreensFunction::apply_accumulate` (GreensFunction.hxx 199-342) with its helpers
`coord_cart_to_cyl` and `field_cart_to_cyl` (439-459).

Arithmetic is exact (field `K`); `std::sqrt` is the parameter `sqrt`.  The conversions of floating-point numbers to integers are undefined where the language says so.
-/
namespace Verif.Green
open Verif Verif.ND Verif.Dist

set_option linter.unusedSectionVars false

variable {K : Type} [Field K] [LinearOrder K] [IsStrictOrderedRing K] [FloorRing K]

/-- Vector.hh `XYZVector`. -/
structure XYZ (K : Type) where
  x : K
  y : K
  z : K

/-- Vector.hxx: componentwise arithmetic. -/
def XYZ.add (a b : XYZ K) : XYZ K := ⟨a.x + b.x, a.y + b.y, a.z + b.z⟩
def XYZ.sub (a b : XYZ K) : XYZ K := ⟨a.x - b.x, a.y - b.y, a.z - b.z⟩
def XYZ.scale (a : XYZ K) (c : K) : XYZ K := ⟨a.x * c, a.y * c, a.z * c⟩
def XYZ.div (a : XYZ K) (c : K) : XYZ K := ⟨a.x / c, a.y / c, a.z / c⟩

/-- Current.hh 5-14. -/
structure Segment (K : Type) where
  p0 : XYZ K
  p1 : XYZ K
  t0 : K
  t1 : K
  charge : K

/-- Current.hxx 1-7: the constructor. -/
def mkSegment (p0 p1 : XYZ K) (t0 t1 charge : K) : Res (Segment K) := if t1 ≤ t0 then .throw else .ok ⟨p0, p1, t0, t1, charge⟩

/-- GreensFunction.hxx 439-444 `coord_cart_to_cyl`. -/
def coordCyl (sqrt : K → K) (p : XYZ K) : K × K := (sqrt (p.x * p.x + p.y * p.y), p.z)

/-- GreensFunction.hxx 446-459 `field_cart_to_cyl`; `f` is the field at the position `p`. -/
def fieldCyl (sqrt : K → K) (f p : XYZ K) : List K :=
  let r := sqrt (p.x * p.x + p.y * p.y)
  let c := if 0 < r then p.x / r else 0
  let s := if 0 < r then p.y / r else 0
  [f.x * c + f.y * s, f.z]

/-- The conversion of an integral floating-point number to `int`; undefined if the value does not fit. -/
def toInt32 (n : Int) : Res Int := if -2 ^ 31 ≤ n ∧ n < 2 ^ 31 then .ok n else .ub

/-- `std::clamp(v, lo, hi)`, for `lo <= hi`. -/
def clampN (v lo hi : Nat) : Nat := if v < lo then lo else if hi < v then hi else v

/-- GreensFunction.hxx 293-294 `sample_ind_causal`. A division by zero gives a value (infinite or not a number) that cannot be converted to `int`. -/
def causalInd (tp tsig tsamp : K) : Res Nat :=
  if tsamp = 0 then .ub else (toInt32 ⌈(tp - tsig) / tsamp⌉).bind fun i => .ok (max 0 i).toNat

/-- What is computed once per call (GreensFunction.hxx 205-227) and the arguments of the call: number of integration points `num_itgr_steps`, `itgr_step`, `seg_step`,
    `source_xyz`. -/
structure Track (K : Type) where
  num : Nat
  step : K
  dpos : XYZ K
  src : XYZ K
  seg : Segment K

/-- GreensFunction.hxx 280-281: position of integration point `p`. -/
def Track.pos (T : Track K) (p : Nat) : XYZ K := T.seg.p0.add (T.dpos.scale p)

/-- GreensFunction.hxx 290: time of the integration point `p`. -/
def Track.time (T : Track K) (p : Nat) : K := p * T.step + T.seg.t0

/-- What the call of `apply_accumulate` fixes for its loops. `maxI`, `maxS`: the block sizes; `junk p b`: uninitialised memory of the interpolation buffer in the call for
    integration point `p` and sample block start `b`; `wjunk`: that of the quadrature weights. -/
structure Setup (σ K : Type) where
  L : Library σ K
  G : GMeta K
  kn : Kern K
  sqrt : K → K
  grow : K → K
  junk : Nat → Nat → Nat → K
  wjunk : Nat → K
  maxI : Nat
  maxS : Nat
  tsig : K
  tsamp : K
  n : Nat
  weight : K
  oob : OOB

variable {σ : Type}

/-- GreensFunction.hxx 283-336, the loop over the integration points `i_pt` of one block (list `is`), for the samples `[b0, b1)`. The values in `coords_rz`, `source_rz`
    (258-271) are functions of the integration point and are not stored in the model. -/
def ptLoop (S : Setup σ K) (T : Track K) (w : List K) (start b0 b1 : Nat) : List Nat → σ × List K → Res (σ × List K)
  | [], st => .ok st
  | i :: is, st =>
    let p := i + start
    let tp := T.time p
    (causalInd tp S.tsig S.tsamp).bind fun c =>
    let b := clampN c b0 b1
    let m := b1 - b
    if m = 0 then .ok st
    else
      let ts := b * S.tsamp + S.tsig - tp
      (Res.assert (decide (0 ≤ ts))).bind fun _ =>
      (Res.assert (decide (b + m ≤ st.2.length))).bind fun _ =>
      let rz := coordCyl S.sqrt (T.pos p)
      (accumulate S.L S.G S.kn S.grow (S.junk p b0) rz.1 rz.2 ts S.tsamp m (fieldCyl S.sqrt T.src (T.pos p)) st.2 b (w.getD i 0 * T.step * S.weight * (-1)) S.oob st.1).bind fun st =>
      ptLoop S T w start b0 b1 is st

/-- GreensFunction.hxx 278-339, the loop over the sample blocks. -/
def sampleLoop (S : Setup σ K) (T : Track K) (w : List K) (start size : Nat) : Nat → Nat → σ × List K → Res (σ × List K)
  | 0, _, _ => .diverge
  | fuel + 1, b, st =>
    if b < S.n then
      (ptLoop S T w start b (min (wadd b S.maxS) S.n) (List.range size) st).bind fun st => sampleLoop S T w start size fuel (wadd b S.maxS) st
    else .ok st

/-- GreensFunction.hxx 250-340, the loop over the integration blocks. -/
def itgrLoop (S : Setup σ K) (T : Track K) : Nat → Nat → σ × List K → Res (σ × List K)
  | 0, _, _ => .diverge
  | fuel + 1, b, st =>
    if b < T.num then
      let size := min S.maxI (T.num - b)
      (blockWeights T.num b size S.wjunk).bind fun w =>
      (sampleLoop S T w b size (S.n + 1) 0 st).bind fun st => itgrLoop S T fuel (wadd b S.maxI) st
    else .ok st

/-- GreensFunction.hxx 205-227. `none`: there is no quadrature interval, and step, velocity and source are infinite or not a number. -/
def trackOf (seg : Segment K) : Res (Option (Track K)) :=
  (toSize ⌈(seg.t1 - seg.t0) / 1⌉).bind fun n =>
  if n = 0 then .ok none
  else
    let step := (seg.t1 - seg.t0) / (n : K)
    let vel := (seg.p1.sub seg.p0).div (seg.t1 - seg.t0)
    .ok (some ⟨wadd n 1, step, vel.scale step, vel.scale seg.charge, seg⟩)

/-- GreensFunction.hxx 199-342 `apply_accumulate(seg, t_sig_start, t_sig_samp, num_samples, signal, oob_mode, weight)`. Without quadrature interval the only integration time is
    not a number, and its conversion to an index is undefined; if no samples are requested, nothing happens. -/
def applyAccumulate (S : Setup σ K) (seg : Segment K) (signal : List K) (s : σ) : Res (σ × List K) :=
  (trackOf seg).bind fun o =>
  match o with
  | none => if S.n = 0 then .ok (s, signal) else .ub
  | some T => itgrLoop S T (T.num + 1) 0 (s, signal)

end Verif.Green
