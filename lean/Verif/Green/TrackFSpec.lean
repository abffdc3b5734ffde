import Verif.Green.TrackF
import Verif.Green.TrackProof
/-
C85, specification: what `AccumulateSignal` computes in floating-point arithmetic.
-/
namespace Verif.Green
open Verif Verif.ND Verif.Dist

set_option linter.unusedSectionVars false

/-- The relative error of `k` operations, each of which is off by at most a factor `1 + u`. -/
noncomputable def eps (u : ℝ) (k : Nat) : ℝ := (1 + u) ^ k - 1

/-- A charge in uniform motion from one end of the segment to the other: position and time after the fraction `lam` of the way, and its current. -/
noncomputable def Segment.place (seg : Segment ℝ) (lam : ℝ) : XYZ ℝ :=
  ⟨seg.p0.x + lam * (seg.p1.x - seg.p0.x), seg.p0.y + lam * (seg.p1.y - seg.p0.y), seg.p0.z + lam * (seg.p1.z - seg.p0.z)⟩
noncomputable def Segment.moment (seg : Segment ℝ) (lam : ℝ) : ℝ := seg.t0 + lam * (seg.t1 - seg.t0)
noncomputable def Segment.current (seg : Segment ℝ) : XYZ ℝ :=
  ⟨(seg.p1.x - seg.p0.x) / (seg.t1 - seg.t0) * seg.charge, (seg.p1.y - seg.p0.y) / (seg.t1 - seg.t0) * seg.charge, (seg.p1.z - seg.p0.z) / (seg.t1 - seg.t0) * seg.charge⟩

/-- The distance from the axis, and the radial component of a vector at a point (zero on the axis). -/
noncomputable def rho (q : XYZ ℝ) : ℝ := Real.sqrt (q.x ^ 2 + q.y ^ 2)
noncomputable def radial (f q : XYZ ℝ) : ℝ := f.x * (q.x / rho q) + f.y * (q.y / rho q)
noncomputable def radialMag (f q : XYZ ℝ) : ℝ := |f.x * (q.x / rho q)| + |f.y * (q.y / rho q)|

variable {σ : Type}

/-- The time between the moment `lam` of the track and sample `k`. -/
noncomputable def lag (S : Setup σ ℝ) (seg : Segment ℝ) (lam : ℝ) (k : Nat) : ℝ := S.tsig + k * S.tsamp - seg.moment lam

/-- The uncertainty of this time. -/
noncomputable def slack (u : ℝ) (S : Setup σ ℝ) (seg : Segment ℝ) : ℝ := eps u 6 * (|seg.t0| + (seg.t1 - seg.t0) + |S.tsig|)

/-- `q` differs from the place `lam` of the track only by roundings, and the position `(x, y, t)` on the grid of the Green's function from the one that belongs to `q` and to the lag of sample `k`. -/
structure Displaced (u W : ℝ) (S : Setup σ ℝ) (seg : Segment ℝ) (lam : ℝ) (k : Nat) (q : XYZ ℝ) (x y t : ℝ) : Prop where
  qx : |q.x - (seg.place lam).x| ≤ eps u 9 * (|seg.p0.x| + |seg.p1.x - seg.p0.x|)
  qy : |q.y - (seg.place lam).y| ≤ eps u 9 * (|seg.p0.y| + |seg.p1.y - seg.p0.y|)
  qz : |q.z - (seg.place lam).z| ≤ eps u 9 * (|seg.p0.z| + |seg.p1.z - seg.p0.z|)
  r : |x - (rho q - S.G.r0) / S.G.dr| ≤ eps u 5 * ((rho q + |S.G.r0|) / S.G.dr) + u * W
  z : |y - (q.z - S.G.z0) / S.G.dz| ≤ eps u 2 * ((|q.z| + |S.G.z0|) / S.G.dz) + u * W
  t : |t - (lag S seg lam k - S.G.t0) / S.G.dt| ≤
    eps u 10 * ((|S.tsig| + k * S.tsamp + (|seg.t0| + (seg.t1 - seg.t0)) + |S.G.t0|) / S.G.dt) + eps u 5 * W

/-- What point `p` of `N + 1` equally spaced points of the track contributes to sample `k`: `v`, a sum of terms of total magnitude `m`. It is zero if the sample is before the point, up to roundings, or if
    points outside of the domain are ignored and this sample or an earlier one is there. Otherwise, it is the weight of the point in the trapezoidal rule times the inner product of current and
    interpolated Green's function, with the sign of its definition; only the place of evaluation is displaced. -/
def Share (kn : Kern ℝ) (F : Nat → Int → Int → Int → ℝ) (ms : List Meta) (u W : ℝ) (S : Setup σ ℝ) (seg : Segment ℝ) (N p k : Nat) (v m : ℝ) : Prop :=
  (lag S seg (p / N) k ≤ slack u S seg ∧ v = 0 ∧ m = 0) ∨
  (S.oob = .ignore ∧ (∃ j ≤ k, -slack u S seg ≤ lag S seg (p / N) j ∧ ∃ q x y t, Displaced u W S seg (p / N) j q x y t ∧ ∀ c ∈ ms, ¬ InBox c.start c.stop (cell x y t)) ∧ v = 0 ∧ m = 0) ∨
  (-slack u S seg ≤ lag S seg (p / N) k ∧ ∃ q x y t, Displaced u W S seg (p / N) k q x y t ∧
    v = (interpAt kn (F 0) x y t * radial seg.current q + interpAt kn (F 1) x y t * seg.current.z) * -(trapezoid (N + 1) p * ((seg.t1 - seg.t0) / N) * S.weight) ∧
    m = (interpMag kn (F 0) x y t * radialMag seg.current q + interpMag kn (F 1) x y t * |seg.current.z|) * |trapezoid (N + 1) p * ((seg.t1 - seg.t0) / N) * S.weight|)

/-- What is required of the request. -/
structure TrackSafe (u : ℝ) (W B support : Nat) (S : Setup σ ℝ) (seg : Segment ℝ) (ms : List Meta) : Prop where
  late : seg.t0 < seg.t1
  samp : 0 < S.tsamp
  grid : 0 < S.G.dr ∧ 0 < S.G.dz ∧ 0 < S.G.dt
  /-- the Green's function starts on the axis and at time zero -/
  origin : S.G.r0 ≤ 0 ∧ S.G.t0 ≤ 0
  blocks : 0 < S.maxI ∧ S.maxI < 2 ^ 62 ∧ 0 < S.maxS ∧ S.maxS < 2 ^ 62
  big : B < 2 ^ 61
  many : S.n ≤ B
  num : (1 + u) ^ 2 * (seg.t1 - seg.t0) ≤ B
  int : (1 + u) ^ 6 * (|seg.t0| + (seg.t1 - seg.t0) + |S.tsig|) ≤ (2 ^ 31 - 1) * S.tsamp
  chunks : ChunksOk B u support ((1 - u) * (S.tsamp / S.G.dt)) ms
  width : WithinWidth W ms
  /-- all positions that occur lie in the domain, or samples outside of it are ignored -/
  range : ∀ lam k, 0 ≤ lam → lam ≤ 1 → k < S.n → -slack u S seg ≤ lag S seg lam k → ∀ q x y t, Displaced u W S seg lam k q x y t →
    x < 2 ^ 62 ∧ 0 ≤ y ∧ y < 2 ^ 62 ∧ t < 2 ^ 62 ∧ (S.oob = .raise → 0 ≤ x → 0 ≤ t → ∃ m ∈ ms, InBox m.start m.stop (cell x y t))
  /-- no sample in a stored chunk comes after one in an all-zero chunk -/
  nulls : ∀ lam j k, 0 ≤ lam → lam ≤ 1 → j < k → k < S.n → -slack u S seg ≤ lag S seg lam j → ∀ q x y t t', Displaced u W S seg lam j q x y t → Displaced u W S seg lam k q x y t' →
    ∀ m ∈ ms, ∀ m' ∈ ms, InBox m.start m.stop (cell x y t) → InBox m'.start m'.stop (cell x y t') → m.ctype = .all_null → m'.ctype = .all_null

/-- What is known about arithmetic, library and kernel. -/
structure Env (A : Arith) (u : ℝ) (S : Setup σ ℝ) (I : σ → Prop) (ms : List Meta) (F : Nat → Int → Int → Int → ℝ) (kn : Kern ℝ) (kk B : Nat) : Prop where
  serves : Serves S.L I ms F
  rounds : A.Rounds u
  small : u ≤ 1 / 8
  counts : A.Counts B
  sqrt : ∀ a, 0 ≤ a → |S.sqrt a - Real.sqrt a| ≤ u * Real.sqrt a
  kernel : KernClose u S.kn kn kk
  last : kn.weight 0 (2 * kn.support - 1) = 0
  grow : S.grow 0 = 0

/-- The number of roundings per integration point. -/
def perPoint (kn : Kern ℝ) (kk : Nat) : Nat := roundings kn.support kk + 22

end Verif.Green
