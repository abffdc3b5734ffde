import Verif.Green.TrackProof
import Mathlib.Analysis.Real.Sqrt
import Mathlib.Algebra.Order.Floor.Semiring
/-
C39: the signal computed by `apply_accumulate` is the causal quadrature sum, whatever the block sizes are.
C41: the projection onto cylindrical coordinates.
-/
namespace Verif.Green
open Verif Verif.ND Verif.Dist Verif.Tree Verif.NullSup

set_option linter.unusedSectionVars false

/-! ### Specification

A charge moves on a straight line from `p0` at time `t0` to `p1` at time `t1`. -/

/-- The number of quadrature intervals: the step is at most 1. -/
noncomputable def intervals (seg : Segment ℝ) : Nat := ⌈seg.t1 - seg.t0⌉₊

/-- Time and position at the integration point `p = 0, ..., intervals`. -/
noncomputable def lineTime (seg : Segment ℝ) (p : Nat) : ℝ := seg.t0 + p * ((seg.t1 - seg.t0) / intervals seg)
noncomputable def lineX (seg : Segment ℝ) (p : Nat) : ℝ := seg.p0.x + p / intervals seg * (seg.p1.x - seg.p0.x)
noncomputable def lineY (seg : Segment ℝ) (p : Nat) : ℝ := seg.p0.y + p / intervals seg * (seg.p1.y - seg.p0.y)
noncomputable def lineZ (seg : Segment ℝ) (p : Nat) : ℝ := seg.p0.z + p / intervals seg * (seg.p1.z - seg.p0.z)

/-- The distance to the z axis. -/
noncomputable def lineR (seg : Segment ℝ) (p : Nat) : ℝ := Real.sqrt (lineX seg p ^ 2 + lineY seg p ^ 2)

/-- The radial component of the current, charge times velocity projected on the direction away from the axis (zero on the axis, as `x / 0 = 0`), and the component along z. -/
noncomputable def currentR (seg : Segment ℝ) (p : Nat) : ℝ :=
  seg.charge * ((seg.p1.x - seg.p0.x) / (seg.t1 - seg.t0) * lineX seg p + (seg.p1.y - seg.p0.y) / (seg.t1 - seg.t0) * lineY seg p) / lineR seg p
noncomputable def currentZ (seg : Segment ℝ) : ℝ := seg.charge * ((seg.p1.z - seg.p0.z) / (seg.t1 - seg.t0))

/-- The time between integration point `p` and output sample `k`. -/
noncomputable def delay (seg : Segment ℝ) (tsig tsamp : ℝ) (p k : Nat) : ℝ := tsig + k * tsamp - lineTime seg p

/-- Grid point below integration point `p` at the delay for sample `k`. -/
noncomputable def lineCell (G : GMeta ℝ) (seg : Segment ℝ) (tsig tsamp : ℝ) (p k : Nat) : List Nat :=
  cell (G.x (lineR seg p)) (G.y (lineZ seg p)) (G.t (delay seg tsig tsamp p k))

/-- The Green's function has a chunk for the pair of integration point `p` and sample `k`. -/
def InDomain (G : GMeta ℝ) (ms : List Meta) (seg : Segment ℝ) (tsig tsamp : ℝ) (p k : Nat) : Prop := ∃ m ∈ ms, InBox m.start m.stop (lineCell G seg tsig tsamp p k)

/-- The trapezoidal rule. -/
noncomputable def trapez (n p : Nat) : ℝ := if p = 0 ∨ p = n then 1 / 2 else 1

/-- The inner product of Green's function and current. -/
noncomputable def response (G : GMeta ℝ) (kn : Kern ℝ) (A : Nat → Int → Int → Int → ℝ) (seg : Segment ℝ) (tsig tsamp : ℝ) (p k : Nat) : ℝ :=
  greenAt G kn A 0 (lineR seg p) (lineZ seg p) (delay seg tsig tsamp p k) * currentR seg p +
  greenAt G kn A 1 (lineR seg p) (lineZ seg p) (delay seg tsig tsamp p k) * currentZ seg

/-- The conditions on a request for `n` samples `tsig + k * tsamp`. All concern only causal pairs, i.e. those with `0 ≤ delay`. -/
structure LineOk (G : GMeta ℝ) (kn : Kern ℝ) (ms : List Meta) (seg : Segment ℝ) (tsig tsamp : ℝ) (n : Nat) (oob : OOB)
    (Q : Int → Int → Int → Prop := fun _ _ _ => True) : Prop where
  samp : 0 < tsamp
  dt : 0 < G.dt
  /-- indices fit into the integer types used for them -/
  num : seg.t1 - seg.t0 < 2 ^ 61
  many : n < 2 ^ 62
  int : ∀ p ≤ intervals seg, -2 ^ 31 < (lineTime seg p - tsig) / tsamp ∧ (lineTime seg p - tsig) / tsamp ≤ 2 ^ 31 - 1
  fits : ∀ m ∈ ms, ((m.stop.getD 2 0 : Nat) : ℝ) / (tsamp / G.dt) < 2 ^ 62
  /-- the track is at non-negative grid coordinates -/
  x : ∀ p ≤ intervals seg, 0 ≤ G.x (lineR seg p) ∧ G.x (lineR seg p) < 2 ^ 62
  y : ∀ p ≤ intervals seg, 0 ≤ G.y (lineZ seg p) ∧ G.y (lineZ seg p) < 2 ^ 62
  t : ∀ p k, p ≤ intervals seg → k < n → 0 ≤ delay seg tsig tsamp p k → 0 ≤ G.t (delay seg tsig tsamp p k) ∧ G.t (delay seg tsig tsamp p k) < 2 ^ 62
  /-- the chunks have enough padding for the kernel; if just enough, the case of C37 is excluded -/
  padded : ∀ m ∈ ms, kn.support ≤ m.overlap
  edge : ∀ m ∈ ms, m.ctype = .specified → m.overlap = kn.support → ∀ p k, p ≤ intervals seg → k < n → 0 ≤ delay seg tsig tsamp p k →
    G.t (delay seg tsig tsamp p k) = ((m.stop.getD 2 0 : Nat) : ℝ) → ¬ (⌊G.x (lineR seg p)⌋ + 1 = (m.stop.getD 0 0 : Int) ∧ ⌊G.y (lineZ seg p)⌋ + 1 = (m.stop.getD 1 0 : Int))
  /-- no stored chunk follows on an all-zero one (see C38) -/
  zeros : ∀ p j k m m', p ≤ intervals seg → j < k → k < n → 0 ≤ delay seg tsig tsamp p j → m ∈ ms → m' ∈ ms → InBox m.start m.stop (lineCell G seg tsig tsamp p j) →
    InBox m'.start m'.stop (lineCell G seg tsig tsamp p k) → m.ctype = .all_null → m'.ctype = .all_null
  /-- with the mode `RaiseError` all causal pairs are in the domain -/
  cov : oob = .raise → ∀ p k, p ≤ intervals seg → k < n → 0 ≤ delay seg tsig tsamp p k → InDomain G ms seg tsig tsamp p k
  /-- with the mode `Ignore`, the domain has no gaps in time, and no sample lies exactly on its end -/
  down : oob = .ignore → ∀ p j k, p ≤ intervals seg → j < k → k < n → 0 ≤ delay seg tsig tsamp p j → InDomain G ms seg tsig tsamp p k → InDomain G ms seg tsig tsamp p j
  inner : oob = .ignore → ∀ p k, p ≤ intervals seg → k < n → 0 ≤ delay seg tsig tsamp p k →
    OnChunk ms (G.x (lineR seg p)) (G.y (lineZ seg p)) (G.t (delay seg tsig tsamp p k)) → InDomain G ms seg tsig tsamp p k
  /-- if only the grid points with `Q` have the right values, all points used for the interpolation are such points -/
  region : ∀ p k, p ≤ intervals seg → k < n → 0 ≤ delay seg tsig tsamp p k → StencilIn kn Q (G.x (lineR seg p)) (G.y (lineZ seg p)) (G.t (delay seg tsig tsamp p k))

/-! ### C41 -/

/-- Rotation by the angle with cosine `c` and sine `s` about the z axis. -/
def XYZ.rotate (c s : ℝ) (p : XYZ ℝ) : XYZ ℝ := ⟨c * p.x - s * p.y, s * p.x + c * p.y, p.z⟩

/-- C41: the cylindrical coordinates and field components do not change if position and field are rotated together about the z axis. -/
theorem C41_rotation_invariant (c s : ℝ) (h : c ^ 2 + s ^ 2 = 1) (f p : XYZ ℝ) :
    coordCyl Real.sqrt (p.rotate c s) = coordCyl Real.sqrt p ∧ fieldCyl Real.sqrt (f.rotate c s) (p.rotate c s) = fieldCyl Real.sqrt f p := by
  have e : (p.rotate c s).x * (p.rotate c s).x + (p.rotate c s).y * (p.rotate c s).y = p.x * p.x + p.y * p.y := by
    show (c * p.x - s * p.y) * (c * p.x - s * p.y) + (s * p.x + c * p.y) * (s * p.x + c * p.y) = _
    linear_combination (p.x * p.x + p.y * p.y) * h
  constructor
  · unfold coordCyl
    rw [e]; rfl
  · unfold fieldCyl
    simp only [e]
    by_cases hr : 0 < Real.sqrt (p.x * p.x + p.y * p.y)
    · simp only [if_pos hr]
      show [(c * f.x - s * f.y) * ((c * p.x - s * p.y) / _) + (s * f.x + c * f.y) * ((s * p.x + c * p.y) / _), f.z] = _
      congr 1
      generalize Real.sqrt (p.x * p.x + p.y * p.y) = R
      linear_combination ((f.x * p.x + f.y * p.y) / R) * h
    · simp only [if_neg hr, mul_zero, add_zero]
      rfl

/-- C41: `r` is the distance to the axis: non-negative, its square is `x² + y²`, and it is zero exactly on the axis. The z coordinate is kept. -/
theorem C41_distance (p : XYZ ℝ) : 0 ≤ (coordCyl Real.sqrt p).1 ∧ (coordCyl Real.sqrt p).1 ^ 2 = p.x ^ 2 + p.y ^ 2 ∧ ((coordCyl Real.sqrt p).1 = 0 ↔ p.x = 0 ∧ p.y = 0) ∧
    (coordCyl Real.sqrt p).2 = p.z := by
  have h0 : 0 ≤ p.x * p.x + p.y * p.y := add_nonneg (mul_self_nonneg _) (mul_self_nonneg _)
  refine ⟨Real.sqrt_nonneg _, ?_, ?_, rfl⟩
  · show Real.sqrt _ ^ 2 = _
    rw [Real.sq_sqrt h0]; ring
  · show Real.sqrt _ = 0 ↔ _
    rw [Real.sqrt_eq_zero h0]
    constructor
    · intro h
      constructor
      · nlinarith [mul_self_nonneg p.x, mul_self_nonneg p.y]
      · nlinarith [mul_self_nonneg p.x, mul_self_nonneg p.y]
    · rintro ⟨h1, h2⟩; rw [h1, h2]; ring

/-- C41: on the axis the radial component is zero; the z component is always kept. Off the axis the radial component is the projection on the direction away from the axis, so
    a field without azimuthal part keeps its magnitude, and for any other field the magnitude does not increase. -/
theorem C41_components (f p : XYZ ℝ) : (fieldCyl Real.sqrt f p).length = 2 ∧ (fieldCyl Real.sqrt f p).getD 1 0 = f.z ∧
    (p.x = 0 ∧ p.y = 0 → (fieldCyl Real.sqrt f p).getD 0 0 = 0) ∧
    (fieldCyl Real.sqrt f p).getD 0 0 = (f.x * p.x + f.y * p.y) / Real.sqrt (p.x ^ 2 + p.y ^ 2) ∧
    (¬ (p.x = 0 ∧ p.y = 0) → f.x * p.y = f.y * p.x → (fieldCyl Real.sqrt f p).getD 0 0 ^ 2 + (fieldCyl Real.sqrt f p).getD 1 0 ^ 2 = f.x ^ 2 + f.y ^ 2 + f.z ^ 2) ∧
    (fieldCyl Real.sqrt f p).getD 0 0 ^ 2 + (fieldCyl Real.sqrt f p).getD 1 0 ^ 2 ≤ f.x ^ 2 + f.y ^ 2 + f.z ^ 2 := by
  have e2 : p.x * p.x + p.y * p.y = p.x ^ 2 + p.y ^ 2 := by ring
  have h1 : (fieldCyl Real.sqrt f p).getD 1 0 = f.z := rfl
  have h0 : (fieldCyl Real.sqrt f p).getD 0 0 = (f.x * p.x + f.y * p.y) / Real.sqrt (p.x ^ 2 + p.y ^ 2) := by
    show f.x * (if 0 < Real.sqrt (p.x * p.x + p.y * p.y) then p.x / Real.sqrt (p.x * p.x + p.y * p.y) else 0) +
      f.y * (if 0 < Real.sqrt (p.x * p.x + p.y * p.y) then p.y / Real.sqrt (p.x * p.x + p.y * p.y) else 0) = _
    rw [e2]
    by_cases hr : 0 < Real.sqrt (p.x ^ 2 + p.y ^ 2)
    · simp only [if_pos hr]; ring
    · simp only [if_neg hr]
      have : Real.sqrt (p.x ^ 2 + p.y ^ 2) = 0 := le_antisymm (not_lt.1 hr) (Real.sqrt_nonneg _)
      rw [this, div_zero]; ring
  have hn : 0 ≤ p.x ^ 2 + p.y ^ 2 := add_nonneg (sq_nonneg _) (sq_nonneg _)
  have hz : ∀ {q : XYZ ℝ}, q.x ^ 2 + q.y ^ 2 = 0 → q.x = 0 ∧ q.y = 0 := by
    intro q h
    constructor
    · nlinarith [sq_nonneg q.x, sq_nonneg q.y]
    · nlinarith [sq_nonneg q.x, sq_nonneg q.y]
  refine ⟨rfl, h1, fun h => ?_, h0, fun hne hpar => ?_, ?_⟩
  · rw [h0, h.1, h.2]; simp
  · have hpos : p.x ^ 2 + p.y ^ 2 ≠ 0 := fun h => hne (hz h)
    rw [h0, h1, div_pow, Real.sq_sqrt hn]
    field_simp
    have : (f.x * p.x + f.y * p.y) ^ 2 + (f.x * p.y - f.y * p.x) ^ 2 = (f.x ^ 2 + f.y ^ 2) * (p.x ^ 2 + p.y ^ 2) := by ring
    rw [hpar, sub_self] at this
    linear_combination this
  · rw [h0, h1, div_pow, Real.sq_sqrt hn]
    by_cases hpos : p.x ^ 2 + p.y ^ 2 = 0
    · rw [hpos, div_zero]
      nlinarith [sq_nonneg f.x, sq_nonneg f.y]
    · have hp' : 0 < p.x ^ 2 + p.y ^ 2 := lt_of_le_of_ne hn (Ne.symm hpos)
      have : (f.x * p.x + f.y * p.y) ^ 2 / (p.x ^ 2 + p.y ^ 2) ≤ f.x ^ 2 + f.y ^ 2 := by
        rw [div_le_iff₀ hp']
        have : (f.x * p.x + f.y * p.y) ^ 2 + (f.x * p.y - f.y * p.x) ^ 2 = (f.x ^ 2 + f.y ^ 2) * (p.x ^ 2 + p.y ^ 2) := by ring
        nlinarith [sq_nonneg (f.x * p.y - f.y * p.x)]
      linarith

/-- The hypotheses hold for a rotation by the angle with cosine 3/5 and sine 4/5. -/
example : coordCyl Real.sqrt ((⟨3, 4, 1⟩ : XYZ ℝ).rotate (3/5) (4/5)) = coordCyl Real.sqrt ⟨3, 4, 1⟩ := (C41_rotation_invariant (3/5) (4/5) (by norm_num) ⟨1, 0, 0⟩ ⟨3, 4, 1⟩).1

/-! ### C39 -/

/-- `apply_accumulate` for a Green's function whose chunks are the library `L`. -/
noncomputable def apply {σ : Type} (L : Library σ ℝ) (G : GMeta ℝ) (kn : Kern ℝ) (grow : ℝ → ℝ) (junk : Nat → Nat → Nat → ℝ) (wjunk : Nat → ℝ) (maxI maxS : Nat) (seg : Segment ℝ)
    (tsig tsamp : ℝ) (n : Nat) (signal : List ℝ) (oob : OOB) (weight : ℝ) (s : σ) : Res (σ × List ℝ) :=
  applyAccumulate ⟨L, G, kn, Real.sqrt, grow, junk, wjunk, maxI, maxS, tsig, tsamp, n, weight, oob⟩ seg signal s

/-- A segment that spans zero or negative time cannot be constructed. -/
theorem segment_order (p0 p1 : XYZ ℝ) (t0 t1 q : ℝ) : (t0 < t1 → mkSegment p0 p1 t0 t1 q = .ok ⟨p0, p1, t0, t1, q⟩) ∧ (t1 ≤ t0 → mkSegment p0 p1 t0 t1 q = .throw) := by
  unfold mkSegment
  exact ⟨fun h => if_neg (not_le.2 h), fun h => if_pos h⟩

open Classical in
/-- C39 for any library serving the chunks `ms` of the field `A`. -/
theorem apply_ok {σ : Type} {L : Library σ ℝ} {I : σ → Prop} {ms : List Meta} {A : Nat → Int → Int → Int → ℝ} {Q : Int → Int → Int → Prop} (hL : Serves L I ms A Q) {kn : Kern ℝ} (hk : kn.Usable)
    {grow : ℝ → ℝ} (hg : grow 0 = 0) (G : GMeta ℝ) (junk : Nat → Nat → Nat → ℝ) (wjunk : Nat → ℝ) (maxI maxS : Nat) (hI : 0 < maxI ∧ maxI < 2 ^ 62) (hS : 0 < maxS ∧ maxS < 2 ^ 62)
    (seg : Segment ℝ) (hseg : seg.t0 < seg.t1) (tsig tsamp : ℝ) (n : Nat) (signal : List ℝ) (hsig : n ≤ signal.length) (oob : OOB) (weight : ℝ)
    (h : LineOk G kn ms seg tsig tsamp n oob Q) (s : σ) (hs : I s) :
    ∃ s' signal', apply L G kn grow junk wjunk maxI maxS seg tsig tsamp n signal oob weight s = .ok (s', signal') ∧ I s' ∧ signal'.length = signal.length ∧
      ∀ k, signal'.getD k 0 = signal.getD k 0 + if k < n then
        -(weight * ((seg.t1 - seg.t0) / intervals seg) * ∑ p ∈ Finset.range (intervals seg + 1),
          if 0 ≤ delay seg tsig tsamp p k ∧ InDomain G ms seg tsig tsamp p k then trapez (intervals seg) p * response G kn A seg tsig tsamp p k else 0) else 0 := by
  have hU : U64 = 2 ^ 64 := rfl
  have hpos : 0 < seg.t1 - seg.t0 := by linarith
  have hN : 0 < intervals seg := Nat.ceil_pos.2 hpos
  have hNc : (⌈(seg.t1 - seg.t0) / 1⌉ : Int) = (intervals seg : Int) := by
    rw [div_one]; unfold intervals
    exact (Int.natCast_ceil_eq_ceil hpos.le).symm
  have hN62 : intervals seg ≤ 2 ^ 61 := by
    unfold intervals
    rw [Nat.ceil_le]
    have := h.num
    push_cast; linarith
  have hN0 : (intervals seg : ℝ) ≠ 0 := Nat.cast_ne_zero.2 (by omega)
  let T : Track ℝ := ⟨intervals seg + 1, (seg.t1 - seg.t0) / (intervals seg : ℝ),
    ((seg.p1.sub seg.p0).div (seg.t1 - seg.t0)).scale ((seg.t1 - seg.t0) / (intervals seg : ℝ)), ((seg.p1.sub seg.p0).div (seg.t1 - seg.t0)).scale seg.charge, seg⟩
  let S : Setup σ ℝ := ⟨L, G, kn, Real.sqrt, grow, junk, wjunk, maxI, maxS, tsig, tsamp, n, weight, oob⟩
  have hT : trackOf seg = .ok (some T) := by
    unfold trackOf
    rw [hNc, toSize_ok (by omega) (by omega)]
    simp only [Res.ok_bind, Int.toNat_natCast]
    rw [if_neg (by omega), wadd_eq (by omega)]
  have eTime : ∀ p, T.time p = lineTime seg p := by
    intro p
    show (p : ℝ) * ((seg.t1 - seg.t0) / (intervals seg : ℝ)) + seg.t0 = _
    unfold lineTime; ring
  have ePx : ∀ p, (T.pos p).x = lineX seg p := by
    intro p
    show seg.p0.x + (seg.p1.x - seg.p0.x) / (seg.t1 - seg.t0) * ((seg.t1 - seg.t0) / (intervals seg : ℝ)) * p = _
    unfold lineX
    have := hpos.ne'
    field_simp
  have ePy : ∀ p, (T.pos p).y = lineY seg p := by
    intro p
    show seg.p0.y + (seg.p1.y - seg.p0.y) / (seg.t1 - seg.t0) * ((seg.t1 - seg.t0) / (intervals seg : ℝ)) * p = _
    unfold lineY
    have := hpos.ne'
    field_simp
  have ePz : ∀ p, (T.pos p).z = lineZ seg p := by
    intro p
    show seg.p0.z + (seg.p1.z - seg.p0.z) / (seg.t1 - seg.t0) * ((seg.t1 - seg.t0) / (intervals seg : ℝ)) * p = _
    unfold lineZ
    have := hpos.ne'
    field_simp
  have eR : ∀ p, (coordCyl Real.sqrt (T.pos p)).1 = lineR seg p := by
    intro p
    show Real.sqrt ((T.pos p).x * (T.pos p).x + (T.pos p).y * (T.pos p).y) = _
    rw [ePx, ePy]; unfold lineR; congr 1; ring
  have eZ : ∀ p, (coordCyl Real.sqrt (T.pos p)).2 = lineZ seg p := ePz
  have eX : ∀ p, xOf S T p = G.x (lineR seg p) := fun p => by rw [← eR]; rfl
  have eY : ∀ p, yOf S T p = G.y (lineZ seg p) := fun p => by rw [← eZ]; rfl
  have eT : ∀ p k, tOf S T p k = G.t (delay seg tsig tsamp p k) := fun p k => by
    unfold tOf delay; rw [eTime]; rfl
  have eC : ∀ p k, Causal S T p k ↔ 0 ≤ delay seg tsig tsamp p k := fun p k => by
    unfold Causal delay; rw [eTime, sub_nonneg]; rfl
  have eCov : ∀ p k, Covered S T ms p k ↔ InDomain G ms seg tsig tsamp p k := fun p k => by
    unfold Covered InDomain lineCell; rw [eX, eY, eT]
  have hok : TrackOk S T ms Q := by
    refine ⟨(div_pos hpos (Nat.cast_pos.2 hN)).le, h.samp, h.dt, by show intervals seg + 1 < 2 ^ 62; omega, h.many, ⟨hI.1, hI.2, hS.1, hS.2⟩, ?_, ?_, ?_, ?_, h.fits, h.padded, ?_, ?_, ?_, ?_, ?_, fun p k hp hkn hc => by have hp : p < intervals seg + 1 := hp; rw [eX, eY, eT]; exact h.region p k (by omega) hkn ((eC p k).1 hc)⟩
    · intro p hp
      have hp : p < intervals seg + 1 := hp
      have := h.int p (by omega)
      rw [eTime]
      show _ ≤ ⌈(lineTime seg p - tsig) / tsamp⌉ ∧ ⌈(lineTime seg p - tsig) / tsamp⌉ < _
      constructor
      · have : (-2 ^ 31 : Int) < ⌈(lineTime seg p - tsig) / tsamp⌉ := Int.lt_ceil.2 (by norm_num at this ⊢; exact this.1)
        exact this.le
      · have : ⌈(lineTime seg p - tsig) / tsamp⌉ ≤ (2 ^ 31 - 1 : Int) := Int.ceil_le.2 (by norm_num at this ⊢; exact this.2)
        omega
    · intro p hp
      have hp : p < intervals seg + 1 := hp
      rw [eX]; exact h.x p (by omega)
    · intro p hp
      have hp : p < intervals seg + 1 := hp
      rw [eY]; exact h.y p (by omega)
    · intro p k hp hk' hc
      have hp : p < intervals seg + 1 := hp
      rw [eT]; exact h.t p k (by omega) hk' ((eC p k).1 hc)
    · intro m hm h1 h2 p k hp hk' hc he
      have hp : p < intervals seg + 1 := hp
      rw [eT] at he
      rw [eX, eY]
      exact h.edge m hm h1 h2 p k (by omega) hk' ((eC p k).1 hc) he
    · intro p j k m m' hp hjk hkn hc hm hm' h1 h2 h3
      have hp : p < intervals seg + 1 := hp
      rw [eX, eY, eT] at h1 h2
      exact h.zeros p j k m m' (by omega) hjk hkn ((eC p j).1 hc) hm hm' h1 h2 h3
    · intro ho p k hp hkn hc
      have hp : p < intervals seg + 1 := hp
      rw [eCov]; exact h.cov ho p k (by omega) hkn ((eC p k).1 hc)
    · intro p j k hp hjk hkn hc hcov
      have hp : p < intervals seg + 1 := hp
      rw [eCov] at hcov ⊢
      cases ho : oob with
      | raise => exact h.cov ho p j (by omega) (by have : k < n := hkn; omega) ((eC p j).1 hc)
      | ignore => exact h.down ho p j k (by omega) hjk hkn ((eC p j).1 hc) hcov
    · intro p k hp hkn hc hon
      have hp : p < intervals seg + 1 := hp
      rw [eX, eY, eT] at hon
      rw [eCov]
      cases ho : oob with
      | raise => exact h.cov ho p k (by omega) hkn ((eC p k).1 hc)
      | ignore => exact h.inner ho p k (by omega) hkn ((eC p k).1 hc) hon
  obtain ⟨s', out', g1, g2, g3, g4⟩ := itgrLoop_ok (S := S) (T := T) hL hk hg hok (T.num + 1) 0 s signal (by omega) (by omega) (by decide) hs hsig
  refine ⟨s', out', ?_, g2, g3, fun k => ?_⟩
  · unfold apply applyAccumulate
    rw [hT]
    simp only [Res.ok_bind]
    exact g1
  · rw [g4 k]
    congr 1
    show (if k < n then _ else (0 : ℝ)) = _
    by_cases hkn : k < n
    · rw [if_pos hkn, if_pos hkn]
      show ∑ p ∈ Finset.Ico 0 (intervals seg + 1), _ = _
      rw [← Finset.range_eq_Ico, Finset.mul_sum, ← Finset.sum_neg_distrib]
      apply Finset.sum_congr rfl
      intro p hp
      unfold term
      rw [eC, eCov]
      by_cases hc : 0 ≤ delay seg tsig tsamp p k ∧ InDomain G ms seg tsig tsamp p k
      · rw [if_pos hc, if_pos hc]
        have e1 : trapezoid (K := ℝ) T.num p = trapez (intervals seg) p := by
          unfold trapezoid trapez
          show (if p = 0 ∨ p + 1 = intervals seg + 1 then (1 / 2 : ℝ) else 1) = _
          simp
        have e2 : pairValue S T A p k = response G kn A seg tsig tsamp p k := by
          obtain ⟨_, f1, _, f0, _⟩ := C41_components T.src (T.pos p)
          unfold pairValue response greenAt
          rw [eX, eY, eT]
          show _ * (fieldCyl Real.sqrt T.src (T.pos p)).getD 0 0 + _ * (fieldCyl Real.sqrt T.src (T.pos p)).getD 1 0 = _
          rw [f0, f1, ePx, ePy]
          show _ * ((((seg.p1.x - seg.p0.x) / (seg.t1 - seg.t0) * seg.charge) * lineX seg p + ((seg.p1.y - seg.p0.y) / (seg.t1 - seg.t0) * seg.charge) * lineY seg p) / lineR seg p) +
            _ * ((seg.p1.z - seg.p0.z) / (seg.t1 - seg.t0) * seg.charge) = _
          unfold currentR currentZ
          congr 2
          · congr 1; ring
          · ring
        rw [e1, e2]
        show _ * (_ * ((seg.t1 - seg.t0) / (intervals seg : ℝ)) * weight * (-1)) = _
        ring
      · rw [if_neg hc, if_neg hc, mul_zero, neg_zero]
    · rw [if_neg hkn, if_neg hkn]

open Classical in
/-- C39 (partial). `apply_accumulate` adds to sample `k` of the signal minus the trapezoidal sum, over the integration points `p` of the segment with `t_p ≤ t_k`, of the Green's function at the
    position of `p` and the delay `t_k - t_p`, times the current, and changes nothing else. It does not depend on the block sizes `maxI`, `maxS` (100 and 100 in the code): each causal pair
    contributes exactly once, and no other. In the mode `Ignore` pairs outside of the domain of the Green's function are left out.
    Missing: exact arithmetic is assumed - with `float`, the function stops at an assertion for some inputs, see `C39_assertion_fails`; the conditions `edge` and `zeros` from C37 and C38; in the
    mode `Ignore`, samples exactly on the end of the domain (condition `inner`), see `C39_ignore_depends_on_blocks`. -/
theorem C39_causal_quadrature_partial {C : Cfg} {S : Sorter} {Z : SlabSize} (hC : C.Ok) (hd : C.dims = 3) (hv : C.vd = 2) {val : Nat → ℝ} (hval : ∀ x, FloatIsZero x → val x = 0)
    {cs : List (Meta × Arr)} (hne : cs ≠ []) {A : Nat → Int → Int → Int → ℝ} (hA : PartsOf val cs A) (lib : Lib) (fs : FS) (hLI : LInv C S Z lib fs cs) {kn : Kern ℝ} (hk : kn.Usable)
    {grow : ℝ → ℝ} (hg : grow 0 = 0) (G : GMeta ℝ) (junk : Nat → Nat → Nat → ℝ) (wjunk : Nat → ℝ) (maxI maxS : Nat) (hI : 0 < maxI ∧ maxI < 2 ^ 62) (hS : 0 < maxS ∧ maxS < 2 ^ 62)
    (seg : Segment ℝ) (hseg : seg.t0 < seg.t1) (tsig tsamp : ℝ) (n : Nat) (signal : List ℝ) (hsig : n ≤ signal.length) (oob : OOB) (weight : ℝ)
    (h : LineOk G kn (cs.map Prod.fst) seg tsig tsamp n oob) :
    ∃ lib' fs' signal', apply (libOf C val) G kn grow junk wjunk maxI maxS seg tsig tsamp n signal oob weight (lib, fs) = .ok ((lib', fs'), signal') ∧ LInv C S Z lib' fs' cs ∧
      signal'.length = signal.length ∧
      ∀ k, signal'.getD k 0 = signal.getD k 0 + if k < n then
        -(weight * ((seg.t1 - seg.t0) / intervals seg) * ∑ p ∈ Finset.range (intervals seg + 1),
          if 0 ≤ delay seg tsig tsamp p k ∧ InDomain G (cs.map Prod.fst) seg tsig tsamp p k then trapez (intervals seg) p * response G kn A seg tsig tsamp p k else 0) else 0 := by
  have hL := lib_serves hC hd hv hval hne hA (s0 := (lib, fs)) hLI
  obtain ⟨s', out', h1, h2, h3, h4⟩ := apply_ok hL hk hg G junk wjunk maxI maxS hI hS seg hseg tsig tsamp n signal hsig oob weight h (lib, fs) hLI
  exact ⟨s'.1, s'.2, out', h1, h2, h3, h4⟩

/-! ### Where the property fails -/

/-- `float`: round to nearest, ties to even, 24 significant bits (numbers between `2^-100` and `2^100` only). -/
def f32 (q : Rat) : Rat :=
  match (List.range 200).find? fun i => decide (|q| < 2 ^ (i + 1) / 2 ^ 100) with
  | none => q
  | some i =>
    let u : Rat := 2 ^ i / 2 ^ 123
    let f := ⌊q / u⌋
    let d := q / u - f
    u * (if d < 1 / 2 ∨ (d = 1 / 2 ∧ f % 2 = 0) then f else f + 1)

/-- GreensFunction.hxx 293-308 with a rounding after each operation: `convolution_t_start` for the sample block `[b0, b1)`. -/
def convStart (rnd : Rat → Rat) (tp tsig tsamp : Rat) (b0 b1 : Nat) : Rat :=
  let b := clampN (max 0 ⌈rnd (rnd (tp - tsig) / tsamp)⌉).toNat b0 b1
  rnd (rnd (rnd (b * tsamp) + tsig) - tp)

/-- Without rounding this is what the model computes, and it is not negative for the samples that are computed. -/
theorem convStart_exact (tp tsig tsamp : Rat) (h : 0 < tsamp) (b0 b1 : Nat) (_ : b0 < b1) (hc : (max 0 ⌈(tp - tsig) / tsamp⌉).toNat < b1) : 0 ≤ convStart id tp tsig tsamp b0 b1 := by
  unfold convStart
  simp only [id]
  set c := (max 0 ⌈(tp - tsig) / tsamp⌉).toNat with hcd
  have e : clampN c b0 b1 = max c b0 := by unfold clampN; split_ifs <;> omega
  rw [e]
  have h1 : ⌈(tp - tsig) / tsamp⌉ ≤ ((max c b0 : Nat) : Int) := by omega
  have h2 := Int.ceil_le.1 h1
  rw [div_le_iff₀ h] at h2
  push_cast at h2 ⊢
  linarith

/-- C39 fails with `float`: signal samples at `k * 0.3f` (`0.3f` is 10066330 / 2^25), segment that starts at the time `1.5000001f` (1.5 + 2^-23), first sample block. All three numbers are
    floats. The division rounds down to exactly 5, sample 5 is taken to be causal, but its time `5 * 0.3f` rounds to 1.5, and `assert(convolution_t_start >= 0.0)` stops the program. -/
theorem C39_assertion_fails : f32 (10066330 / 2 ^ 25) = 10066330 / 2 ^ 25 ∧ f32 (3 / 2 + 1 / 2 ^ 23) = 3 / 2 + 1 / 2 ^ 23 ∧
    convStart f32 (3 / 2 + 1 / 2 ^ 23) 0 (10066330 / 2 ^ 25) 0 100 = - (1 / 2 ^ 23) := by
  decide +kernel

namespace Ex39
open Ex38

/-- A chunk that ends at the time index 2, with padding 2. -/
def oneChunk : List (Meta × List Rat) := [(mkMeta .specified [1] 0 [0, 0, 0] [1, 1, 2] 2, List.replicate 300 1)]

/-- A charge at rest for a short time, then moved along the axis: the current is (0, 0, 1). The square root is only needed of 0. -/
def seg : Segment Rat := ⟨⟨0, 0, 0⟩, ⟨0, 0, 1/2⟩, 0, 1/2, 1⟩

def setup (maxS : Nat) : Setup Unit Rat := ⟨listLib oneChunk, unit, linear, fun x => x, id, fun _ _ _ => 9, fun _ => 9, 100, maxS, 0, 1, 3, 1, .ignore⟩

/-- C39 fails in the mode `Ignore` for a sample exactly on the end of the domain (here sample 2 of the first integration point, at the time 2): it contributes, unless it happens to be the
    first one of a sample block. -/
theorem C39_ignore_depends_on_blocks : applyAccumulate (setup 100) seg [0, 0, 0] () = .ok ((), [-1/4, -1/2, -1/2]) ∧ applyAccumulate (setup 2) seg [0, 0, 0] () = .ok ((), [-1/4, -1/2, -1/4]) := by
  decide +kernel

/-! The conditions of `C39_causal_quadrature_partial` hold for the library `Ex38.rampLib` (two chunks, times 0 to 4) and a charge that moves along the axis from 0 to 1/2 between the times
    0 and 1; samples at 1/4, 3/4, 5/4. There are two integration points, the second one is causal only for the last sample. -/

noncomputable def segR : Segment ℝ := ⟨⟨0, 0, 0⟩, ⟨0, 0, 1/2⟩, 0, 1, 1⟩
def unitR : GMeta ℝ := ⟨0, 0, 0, 1, 1, 1⟩
noncomputable def valR (w : Nat) : ℝ := ((val w : Rat) : ℝ)
noncomputable def rampR (c : Nat) (i j k : Int) : ℝ := ((ramp c i j k : Rat) : ℝ)

theorem N : intervals segR = 1 := by unfold intervals segR; norm_num

theorem hx (r : ℝ) : unitR.x r = r := by unfold GMeta.x unitR; simp
theorem hy (r : ℝ) : unitR.y r = r := by unfold GMeta.y unitR; simp
theorem ht (r : ℝ) : unitR.t r = r := by unfold GMeta.t unitR; simp

theorem rad (p : Nat) : lineR segR p = 0 := by
  unfold lineR lineX lineY segR; simp

theorem zed (p : Nat) : lineZ segR p = p / 2 := by
  unfold lineZ; rw [N]; unfold segR; norm_num; ring

theorem tim (p : Nat) : lineTime segR p = p := by
  unfold lineTime; rw [N]; unfold segR; norm_num

theorem dly (p k : Nat) : delay segR (1/4) (1/2) p k = 1/4 + k * (1/2) - p := by
  unfold delay; rw [tim]

theorem flo {x : ℝ} {n : Int} (h : (n : ℝ) ≤ x ∧ x < n + 1) : ⌊x⌋ = n := Int.floor_eq_iff.2 h

theorem green1 (r z t : ℝ) : greenAt unitR linear rampR 1 r z t = 3 := by
  unfold greenAt
  have h := C36_linear_exact (fun a b e => if a = 0 ∧ b = 0 ∧ e = 0 then 3 else 0) (unitR.x r) (unitR.y z) (unitR.t t)
  simp only [Finset.sum_range_succ, Finset.sum_range_zero] at h
  norm_num at h
  have e : rampR 1 = fun _ _ _ => 3 := by
    funext i j k; unfold rampR ramp; norm_num
  rw [e]; exact h

example : ∃ lib fs lib' fs' signal', apply (libOf cfg valR) unitR linear id (fun _ _ _ => 9) (fun _ => 9) 100 100 segR (1/4) (1/2) 3 [0, 0, 0] .raise 1 (lib, fs) = .ok ((lib', fs'), signal') ∧
    signal'.length = 3 ∧ signal'.getD 0 0 = -(3/4) ∧ signal'.getD 2 0 = -(3/2) := by
  obtain ⟨l, fs, m1, m2, I2, ⟨s1, t1, o1, c1⟩, s2, t2, o2, c2⟩ := rampLib
  have hcs : ∀ c ∈ [(m1, rampArr 0), (m2, rampArr 2)], c = (m1, rampArr 0) ∨ c = (m2, rampArr 2) := fun c h => by simpa using h
  have hms : ∀ m ∈ [(m1, rampArr 0), (m2, rampArr 2)].map Prod.fst, m = m1 ∨ m = m2 := fun m h => by simpa using h
  have hsp : ∀ m ∈ [(m1, rampArr 0), (m2, rampArr 2)].map Prod.fst, m.ctype = .specified := fun m h => by
    rcases hms m h with rfl | rfl
    · exact c1
    · exact c2
  have hst : ∀ m ∈ [(m1, rampArr 0), (m2, rampArr 2)].map Prod.fst, m.stop.getD 2 0 = 2 ∨ m.stop.getD 2 0 = 4 := fun m h => by
    rcases hms m h with rfl | rfl
    · rw [t1]; exact .inl rfl
    · rw [t2]; exact .inr rfl
  have hdom : ∀ p k, p ≤ 1 → k < 3 → 0 ≤ delay segR (1/4) (1/2) p k → InDomain unitR ([(m1, rampArr 0), (m2, rampArr 2)].map Prod.fst) segR (1/4) (1/2) p k := by
    intro p k hp hk hd
    refine ⟨m1, by simp, ?_⟩
    unfold lineCell cell
    rw [hx, hy, ht, rad, zed, dly]
    rw [dly] at hd
    have f1 : ⌊((p : Nat) : ℝ) / 2⌋ = 0 := by
      apply flo
      interval_cases p <;> norm_num
    have f2 : ⌊(1/4 : ℝ) + (k : Nat) * (1/2) - (p : Nat)⌋ = 0 ∨ ⌊(1/4 : ℝ) + (k : Nat) * (1/2) - (p : Nat)⌋ = 1 := by
      interval_cases p <;> interval_cases k
      · left; apply flo; norm_num
      · left; apply flo; norm_num
      · right; apply flo; norm_num
      · norm_num at hd
      · norm_num at hd
      · left; apply flo; norm_num
    rw [f1, Int.floor_zero, s1, t1]
    refine ⟨rfl, rfl, fun d hd => ?_⟩
    have hd : d < 3 := hd
    interval_cases d
    · exact ⟨Nat.le_refl 0, Nat.one_pos⟩
    · exact ⟨Nat.le_refl 0, Nat.one_pos⟩
    · rcases f2 with f2 | f2
      · rw [f2]; exact ⟨Nat.le_refl 0, by decide⟩
      · rw [f2]; exact ⟨Nat.zero_le _, by decide⟩
  obtain ⟨lib', fs', sig', g1, _, g2, g3⟩ := C39_causal_quadrature_partial cfg_ok rfl rfl (val := valR) (fun x h => by unfold valR val; rw [if_pos (by exact h)]; norm_num)
    (cs := [(m1, rampArr 0), (m2, rampArr 2)]) (by simp) (A := rampR)
    ⟨fun q hq hs c i j k hc hp _ => by
        rcases hcs q hq with rfl | rfl
        · obtain ⟨v, h1, h2⟩ := rampParts (s := 0) (.inl rfl) s1 t1 o1 hc hp
          exact ⟨v, h1, congrArg _ h2⟩
        · obtain ⟨v, h1, h2⟩ := rampParts (s := 2) (.inr rfl) s2 t2 o2 hc hp
          exact ⟨v, h1, congrArg _ h2⟩,
      fun q hq hs => by
        have := hsp q.1 (List.mem_map_of_mem hq)
        rw [this] at hs; cases hs⟩ l fs I2 (kn := linear) linear_usable (grow := id) rfl unitR (fun _ _ _ => 9) (fun _ => 9) 100 100 (by decide) (by decide) segR (by unfold segR; norm_num)
    (1/4) (1/2) 3 [0, 0, 0] (by decide) .raise 1
    (by
      refine ⟨by norm_num, by unfold unitR; norm_num, by unfold segR; norm_num, by decide, ?_, ?_, ?_, ?_, ?_, ?_, ?_, ?_, ?_, ?_, ?_, fun _ _ _ _ _ _ _ _ _ _ _ => trivial⟩
      · intro p hp
        rw [N] at hp; rw [tim]
        interval_cases p <;> norm_num
      · intro m hm
        rcases hst m hm with h | h <;> rw [h] <;> unfold unitR <;> norm_num
      · intro p hp; rw [hx, rad]; norm_num
      · intro p hp
        rw [N] at hp; rw [hy, zed]
        interval_cases p <;> norm_num
      · intro p k hp hk hd
        rw [N] at hp; rw [ht]
        refine ⟨hd, ?_⟩
        rw [dly]
        interval_cases p <;> interval_cases k <;> norm_num
      · intro m hm
        rcases hms m hm with rfl | rfl
        · rw [o1]; exact Nat.le_refl _
        · rw [o2]; exact Nat.le_refl _
      · intro m hm _ _ p k hp hk hd he
        exfalso
        rw [N] at hp; rw [ht, dly] at he
        rcases hst m hm with h | h <;> rw [h] at he <;> interval_cases p <;> interval_cases k <;> norm_num at he
      · intro p j k m m' _ _ _ _ hm _ _ _ h
        rw [hsp m hm] at h; cases h
      · intro _ p k hp hk hd
        rw [N] at hp
        exact hdom p k hp hk hd
      · intro h; cases h
      · intro h; cases h)
  refine ⟨l, fs, lib', fs', sig', g1, g2, ?_, ?_⟩
  · rw [g3 0, if_pos (by decide), N]
    rw [Finset.sum_range_succ, Finset.sum_range_one, if_pos ⟨by rw [dly]; norm_num, hdom 0 0 (by decide) (by decide) (by rw [dly]; norm_num)⟩,
      if_neg (by rintro ⟨h, _⟩; rw [dly] at h; norm_num at h)]
    unfold trapez response currentR currentZ
    rw [rad, green1]
    unfold segR
    norm_num
  · rw [g3 2, if_pos (by decide), N]
    rw [Finset.sum_range_succ, Finset.sum_range_one, if_pos ⟨by rw [dly]; norm_num, hdom 0 2 (by decide) (by decide) (by rw [dly]; norm_num)⟩,
      if_pos ⟨by rw [dly]; norm_num, hdom 1 2 (by decide) (by decide) (by rw [dly]; norm_num)⟩]
    unfold trapez response currentR currentZ
    rw [rad, rad, green1, green1]
    unfold segR
    norm_num

end Ex39

end Verif.Green
