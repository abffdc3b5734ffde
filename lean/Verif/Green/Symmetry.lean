import Verif.Green.Signal
/-
C71: what does not change the signal. The axis is a symmetry axis, only time differences matter, charge and weight are factors, and a track may be cut at its integration points.
-/
set_option linter.unusedSectionVars false
namespace Verif.Green
open Verif Verif.ND Verif.Dist Verif.Tree Verif.Bytes Verif.Ops

/-! ### Specification -/

/-- Rotation by the angle with cosine `c` and sine `s` about the z axis, combined with a reflection if `m` is -1. -/
def XYZ.turn (c s m : ℝ) (p : XYZ ℝ) : XYZ ℝ := ⟨c * p.x - m * s * p.y, s * p.x + m * c * p.y, p.z⟩

def TrackReq.turn (c s m : ℝ) (q : TrackReq) : TrackReq := { q with p0 := q.p0.turn c s m, p1 := q.p1.turn c s m }

/-- Track and samples at times later by `τ`. -/
def TrackReq.later (τ : ℝ) (q : TrackReq) : TrackReq := { q with t0 := q.t0 + τ, t1 := q.t1 + τ, tsig := q.tsig + τ }

/-- The charge multiplied by `c`. -/
def TrackReq.charged (c : ℝ) (q : TrackReq) : TrackReq := { q with charge := c * q.charge }

/-- Where the charge is at the integration point `p`. -/
noncomputable def TrackReq.point (q : TrackReq) (p : Nat) : XYZ ℝ := ⟨lineX q.seg p, lineY q.seg p, lineZ q.seg p⟩

/-- The track up to, and from, the integration point `p`. -/
noncomputable def TrackReq.before (q : TrackReq) (p : Nat) : TrackReq := { q with p1 := q.point p, t1 := lineTime q.seg p }
noncomputable def TrackReq.after (q : TrackReq) (p : Nat) : TrackReq := { q with p0 := q.point p, t0 := lineTime q.seg p }

/-! ### Proof -/

variable {G : GMeta ℝ} {kn : Kern ℝ} {A : Nat → Int → Int → Int → ℝ} {g : Grid}

/-- The part of the data of a track that matters. `S`: the times of the first samples may differ as well. -/
structure SameLine (seg seg' : Segment ℝ) (ts ts' : ℝ) : Prop where
  dur : seg'.t1 - seg'.t0 = seg.t1 - seg.t0
  rel : ts' - seg'.t0 = ts - seg.t0
  r : ∀ p, lineR seg' p = lineR seg p
  z : ∀ p, lineZ seg' p = lineZ seg p

namespace SameLine
variable {seg seg' : Segment ℝ} {ts ts' tsamp : ℝ}

theorem int (h : SameLine seg seg' ts ts') : intervals seg' = intervals seg := by unfold intervals; rw [h.dur]

theorem delay (h : SameLine seg seg' ts ts') (p k : Nat) : Green.delay seg' ts' tsamp p k = Green.delay seg ts tsamp p k := by
  unfold Green.delay lineTime
  rw [h.int, h.dur]
  have := h.rel
  linarith

theorem ok (h : SameLine seg seg' ts ts') {n : Nat} {oob : OOB} (hq : SignalOk G kn A g seg ts tsamp n oob) : SignalOk G kn A g seg' ts' tsamp n oob := by
  have hi := h.int
  have hd : ∀ p k, Green.delay seg' ts' tsamp p k = Green.delay seg ts tsamp p k := h.delay
  have hl : ∀ p, lineTime seg' p - ts' = lineTime seg p - ts := fun p => by
    have := hd p 0
    unfold Green.delay at this
    linarith
  refine ⟨by have := hq.order; have := h.dur; linarith, hq.samp, by rw [h.dur]; exact hq.num, hq.many, ?_, hq.fits, ?_, ?_, ?_, ?_, ?_, ?_, ?_⟩
  · intro p hp; rw [hl]; exact hq.int p (hi ▸ hp)
  · intro p hp; rw [h.r]; exact hq.x p (hi ▸ hp)
  · intro p hp; rw [h.z]; exact hq.y p (hi ▸ hp)
  · intro p k hp; rw [hd]; exact hq.t p k (hi ▸ hp)
  · intro p k hp; rw [hd, h.r, h.z]; exact hq.usable p k (hi ▸ hp)
  · intro p j k hp; rw [hd, hd, h.r, h.z]; exact hq.apart p j k (hi ▸ hp)
  · intro ho p k hp; rw [hd, h.r, h.z]; exact hq.cov ho p k (hi ▸ hp)
  · intro ho p k hp; rw [hd]; exact hq.last ho p k (hi ▸ hp)

open Classical in
/-- If the current is multiplied by `c`, so is the signal. -/
theorem signal (h : SameLine seg seg' ts ts') {c : ℝ} (hr : ∀ p, currentR seg' p = c * currentR seg p) (hz : currentZ seg' = c * currentZ seg) (weight : ℝ) (k : Nat) :
    lineSignal G kn A g seg' ts' tsamp weight k = c * lineSignal G kn A g seg ts tsamp weight k := by
  unfold lineSignal
  rw [h.int, h.dur]
  have : ∀ p, (if 0 ≤ Green.delay seg' ts' tsamp p k ∧ g.Has (G.x (lineR seg' p)) (G.y (lineZ seg' p)) (G.t (Green.delay seg' ts' tsamp p k)) then trapez (intervals seg) p * response G kn A seg' ts' tsamp p k else 0) =
      c * (if 0 ≤ Green.delay seg ts tsamp p k ∧ g.Has (G.x (lineR seg p)) (G.y (lineZ seg p)) (G.t (Green.delay seg ts tsamp p k)) then trapez (intervals seg) p * response G kn A seg ts tsamp p k else 0) := fun p => by
    rw [h.delay, h.r, h.z]
    by_cases hc : 0 ≤ Green.delay seg ts tsamp p k ∧ g.Has (G.x (lineR seg p)) (G.y (lineZ seg p)) (G.t (Green.delay seg ts tsamp p k))
    · rw [if_pos hc, if_pos hc]
      unfold response
      rw [h.delay, h.r, h.z, hr, hz]; ring
    · rw [if_neg hc, if_neg hc, mul_zero]
  rw [Finset.sum_congr rfl fun p _ => this p, ← Finset.mul_sum]
  ring

end SameLine

variable {q : TrackReq}

theorem turn_same {c s m : ℝ} (h : c ^ 2 + s ^ 2 = 1) (hm : m ^ 2 = 1) : SameLine q.seg (q.turn c s m).seg q.tsig (q.turn c s m).tsig ∧ (∀ p, currentR (q.turn c s m).seg p = 1 * currentR q.seg p) ∧
    currentZ (q.turn c s m).seg = 1 * currentZ q.seg := by
  have ex : ∀ p, lineX (q.turn c s m).seg p = c * lineX q.seg p - m * s * lineY q.seg p := fun p => by
    show (c * q.p0.x - m * s * q.p0.y) + _ * ((c * q.p1.x - m * s * q.p1.y) - (c * q.p0.x - m * s * q.p0.y)) = c * (q.p0.x + _ * (q.p1.x - q.p0.x)) - m * s * (q.p0.y + _ * (q.p1.y - q.p0.y))
    have : intervals (q.turn c s m).seg = intervals q.seg := rfl
    rw [this]; ring
  have ey : ∀ p, lineY (q.turn c s m).seg p = s * lineX q.seg p + m * c * lineY q.seg p := fun p => by
    show (s * q.p0.x + m * c * q.p0.y) + _ * ((s * q.p1.x + m * c * q.p1.y) - (s * q.p0.x + m * c * q.p0.y)) = s * (q.p0.x + _ * (q.p1.x - q.p0.x)) + m * c * (q.p0.y + _ * (q.p1.y - q.p0.y))
    have : intervals (q.turn c s m).seg = intervals q.seg := rfl
    rw [this]; ring
  have er : ∀ p, lineR (q.turn c s m).seg p = lineR q.seg p := fun p => by
    unfold lineR
    rw [ex, ey]
    congr 1
    have : (c ^ 2 + s ^ 2) = 1 := h
    linear_combination (lineX q.seg p ^ 2) * h + (m ^ 2 * lineY q.seg p ^ 2) * h + lineY q.seg p ^ 2 * hm
  refine ⟨⟨rfl, rfl, er, fun _ => rfl⟩, fun p => ?_, by rw [one_mul]; rfl⟩
  unfold currentR
  rw [ex, ey, er, one_mul]
  show q.charge * (((c * q.p1.x - m * s * q.p1.y) - (c * q.p0.x - m * s * q.p0.y)) / (q.t1 - q.t0) * _ + ((s * q.p1.x + m * c * q.p1.y) - (s * q.p0.x + m * c * q.p0.y)) / (q.t1 - q.t0) * _) / _ =
    q.charge * ((q.p1.x - q.p0.x) / (q.t1 - q.t0) * _ + (q.p1.y - q.p0.y) / (q.t1 - q.t0) * _) / _
  congr 2
  linear_combination ((q.p1.x - q.p0.x) / (q.t1 - q.t0) * lineX q.seg p + m ^ 2 * ((q.p1.y - q.p0.y) / (q.t1 - q.t0) * lineY q.seg p)) * h + ((q.p1.y - q.p0.y) / (q.t1 - q.t0) * lineY q.seg p) * hm

/-- **C71**: a rotation of the track about the axis of the Green's function, or its reflection, changes neither whether the request can be made nor the signal. -/
theorem C71_axis {c s m : ℝ} (h : c ^ 2 + s ^ 2 = 1) (hm : m ^ 2 = 1) {oob : OOB} (hq : q.Ok G kn A g oob) :
    (q.turn c s m).Ok G kn A g oob ∧ ∀ w k, (q.turn c s m).adds G kn A g w k = q.adds G kn A g w k := by
  obtain ⟨h1, h2, h3⟩ := turn_same (q := q) h hm
  refine ⟨h1.ok hq, fun w k => ?_⟩
  unfold TrackReq.adds
  have : lineSignal G kn A g (q.turn c s m).seg (q.turn c s m).tsig (q.turn c s m).tsamp w k = _ := h1.signal (tsamp := q.tsamp) h2 h3 w k
  rw [this, one_mul]
  rfl

/-- **C71**: only differences of times matter. -/
theorem C71_time (τ : ℝ) {oob : OOB} (hq : q.Ok G kn A g oob) : (q.later τ).Ok G kn A g oob ∧ ∀ w k, (q.later τ).adds G kn A g w k = q.adds G kn A g w k := by
  have hd : (q.later τ).seg.t1 - (q.later τ).seg.t0 = q.seg.t1 - q.seg.t0 := by show q.t1 + τ - (q.t0 + τ) = q.t1 - q.t0; ring
  have hi : intervals (q.later τ).seg = intervals q.seg := by unfold intervals; rw [hd]
  have ex : ∀ p, lineX (q.later τ).seg p = lineX q.seg p := fun p => by unfold lineX; rw [hi]; rfl
  have ey : ∀ p, lineY (q.later τ).seg p = lineY q.seg p := fun p => by unfold lineY; rw [hi]; rfl
  have ez : ∀ p, lineZ (q.later τ).seg p = lineZ q.seg p := fun p => by unfold lineZ; rw [hi]; rfl
  have er : ∀ p, lineR (q.later τ).seg p = lineR q.seg p := fun p => by unfold lineR; rw [ex, ey]
  have hS : SameLine q.seg (q.later τ).seg q.tsig (q.later τ).tsig := ⟨hd, by show q.tsig + τ - (q.t0 + τ) = q.tsig - q.t0; ring, er, ez⟩
  refine ⟨hS.ok hq, fun w k => ?_⟩
  unfold TrackReq.adds
  have : lineSignal G kn A g (q.later τ).seg (q.later τ).tsig (q.later τ).tsamp w k = _ := hS.signal (tsamp := q.tsamp) (c := 1)
    (fun p => by unfold currentR; rw [er, ex, ey, hd, one_mul]; rfl) (by unfold currentZ; rw [hd, one_mul]; rfl) w k
  rw [this, one_mul]
  rfl

/-- **C71**: the charge is a factor. -/
theorem C71_charge (c : ℝ) {oob : OOB} (hq : q.Ok G kn A g oob) : (q.charged c).Ok G kn A g oob ∧ ∀ w k, (q.charged c).adds G kn A g w k = c * q.adds G kn A g w k := by
  have hS : SameLine q.seg (q.charged c).seg q.tsig (q.charged c).tsig := ⟨rfl, rfl, fun _ => rfl, fun _ => rfl⟩
  refine ⟨hS.ok hq, fun w k => ?_⟩
  unfold TrackReq.adds
  have : lineSignal G kn A g (q.charged c).seg (q.charged c).tsig (q.charged c).tsamp w k = _ := hS.signal (tsamp := q.tsamp) (c := c)
    (fun p => by show c * q.charge * _ / _ = c * (q.charge * _ / _); rw [mul_assoc, mul_div_assoc]; rfl) (by show c * q.charge * _ = c * (q.charge * _); rw [mul_assoc]; rfl) w k
  rw [this]
  show (if k < q.n then _ else _) = c * if k < q.n then _ else _
  by_cases hk : k < q.n
  · rw [if_pos hk, if_pos hk]
  · rw [if_neg hk, if_neg hk, mul_zero]

/-- **C71**: the weight is a factor. -/
theorem C71_weight (q : TrackReq) (G : GMeta ℝ) (kn : Kern ℝ) (A : Nat → Int → Int → Int → ℝ) (g : Grid) (w : ℝ) (k : Nat) : q.adds G kn A g w k = w * q.adds G kn A g 1 k := by
  unfold TrackReq.adds lineSignal
  by_cases hk : k < q.n
  · rw [if_pos hk, if_pos hk]; ring
  · rw [if_neg hk, if_neg hk, mul_zero]

/-! ### Cutting a track -/

theorem trapez_sum (f : Nat → ℝ) {n : Nat} (hn : 0 < n) : ∑ p ∈ Finset.range (n + 1), trapez n p * f p = ∑ p ∈ Finset.range n, (f p + f (p + 1)) / 2 := by
  have key : ∀ m, m < n → ∑ p ∈ Finset.range (m + 1), trapez n p * f p = (∑ p ∈ Finset.range m, (f p + f (p + 1)) / 2) + f m / 2 := by
    intro m
    induction m with
    | zero => intro _; simp [trapez]; ring
    | succ m ih =>
      intro hm
      rw [Finset.sum_range_succ, ih (by omega), Finset.sum_range_succ (n := m)]
      unfold trapez
      rw [if_neg (by omega)]
      ring
  obtain ⟨m, rfl⟩ : ∃ m, n = m + 1 := ⟨n - 1, by omega⟩
  rw [Finset.sum_range_succ, key m (by omega), Finset.sum_range_succ (n := m)]
  unfold trapez
  rw [if_pos (by omega)]
  ring

/-- The trapezoidal rule on an interval is the sum of the rules on its parts. -/
theorem trapez_cut (f : Nat → ℝ) {n m : Nat} (hm : 0 < m) (hmn : m < n) :
    ∑ p ∈ Finset.range (n + 1), trapez n p * f p = (∑ p ∈ Finset.range (m + 1), trapez m p * f p) + ∑ p ∈ Finset.range (n - m + 1), trapez (n - m) p * f (m + p) := by
  rw [trapez_sum f (by omega), trapez_sum f hm, trapez_sum (fun p => f (m + p)) (by omega)]
  obtain ⟨d, rfl⟩ : ∃ d, n = m + d := ⟨n - m, by omega⟩
  rw [Nat.add_sub_cancel_left, Finset.sum_range_add]
  rfl

theorem cut_facts {seg : Segment ℝ} (h : seg.t0 < seg.t1) {m : Nat} (hm : m ≤ intervals seg) :
    0 < intervals seg ∧ 0 < (seg.t1 - seg.t0) / intervals seg ∧ ⌈(m : ℝ) * ((seg.t1 - seg.t0) / intervals seg)⌉₊ = m := by
  have hd : 0 < seg.t1 - seg.t0 := by linarith
  have hN : 0 < intervals seg := Nat.ceil_pos.2 hd
  have hNr : (0 : ℝ) < intervals seg := Nat.cast_pos.2 hN
  have hs : 0 < (seg.t1 - seg.t0) / intervals seg := div_pos hd hNr
  refine ⟨hN, hs, ?_⟩
  rcases Nat.eq_zero_or_pos m with h0 | h0
  · rw [h0]; simp
  have h1 : seg.t1 - seg.t0 ≤ intervals seg := Nat.le_ceil _
  have h2 : (intervals seg : ℝ) < seg.t1 - seg.t0 + 1 := Nat.ceil_lt_add_one hd.le
  have hmr : (0 : ℝ) < m := Nat.cast_pos.2 h0
  have hmN : (m : ℝ) ≤ intervals seg := by exact_mod_cast hm
  rw [Nat.ceil_eq_iff (by omega)]
  constructor
  · have : ((m - 1 : Nat) : ℝ) = m - 1 := by rw [Nat.cast_sub h0]; simp
    rw [this, ← mul_div_assoc, lt_div_iff₀ hNr]
    nlinarith
  · rw [← mul_div_assoc, div_le_iff₀ hNr]
    nlinarith

/-- The integration points of a track `seg'` are those of `seg`, from number `m` on. -/
structure PartOf (seg seg' : Segment ℝ) (m n : Nat) : Prop where
  num : intervals seg' = n
  order : seg'.t0 < seg'.t1
  dur : seg'.t1 - seg'.t0 ≤ seg.t1 - seg.t0
  step : (seg'.t1 - seg'.t0) / n = (seg.t1 - seg.t0) / intervals seg
  time : ∀ p, lineTime seg' p = lineTime seg (m + p)
  x : ∀ p, lineX seg' p = lineX seg (m + p)
  y : ∀ p, lineY seg' p = lineY seg (m + p)
  z : ∀ p, lineZ seg' p = lineZ seg (m + p)
  cr : ∀ p, currentR seg' p = currentR seg (m + p)
  cz : currentZ seg' = currentZ seg

namespace PartOf
variable {seg seg' : Segment ℝ} {m n : Nat} {ts tsamp : ℝ}

theorem r (h : PartOf seg seg' m n) (p : Nat) : lineR seg' p = lineR seg (m + p) := by unfold lineR; rw [h.x, h.y]

theorem delay (h : PartOf seg seg' m n) (p k : Nat) : Green.delay seg' ts tsamp p k = Green.delay seg ts tsamp (m + p) k := by unfold Green.delay; rw [h.time]

theorem ok (h : PartOf seg seg' m n) (hn : m + n ≤ intervals seg) {N : Nat} {oob : OOB} (hq : SignalOk G kn A g seg ts tsamp N oob) : SignalOk G kn A g seg' ts tsamp N oob := by
  have hi : ∀ {p}, p ≤ intervals seg' → m + p ≤ intervals seg := fun {p} hp => by rw [h.num] at hp; omega
  have hd : ∀ p k, Green.delay seg' ts tsamp p k = Green.delay seg ts tsamp (m + p) k := h.delay
  refine ⟨h.order, hq.samp, lt_of_le_of_lt h.dur hq.num, hq.many, ?_, hq.fits, ?_, ?_, ?_, ?_, ?_, ?_, ?_⟩
  · intro p hp; rw [h.time]; exact hq.int _ (hi hp)
  · intro p hp; rw [h.r]; exact hq.x _ (hi hp)
  · intro p hp; rw [h.z]; exact hq.y _ (hi hp)
  · intro p k hp; rw [hd]; exact hq.t _ k (hi hp)
  · intro p k hp; rw [hd, h.r, h.z]; exact hq.usable _ k (hi hp)
  · intro p j k hp; rw [hd, hd, h.r, h.z]; exact hq.apart _ j k (hi hp)
  · intro ho p k hp; rw [hd, h.r, h.z]; exact hq.cov ho _ k (hi hp)
  · intro ho p k hp; rw [hd]; exact hq.last ho _ k (hi hp)

theorem response (h : PartOf seg seg' m n) (p k : Nat) : Green.response G kn A seg' ts tsamp p k = Green.response G kn A seg ts tsamp (m + p) k := by
  unfold Green.response
  rw [h.delay, h.r, h.z, h.cr, h.cz]

end PartOf

theorem before_part (hq : q.t0 < q.t1) {m : Nat} (h0 : 0 < m) (hm : m ≤ intervals q.seg) : PartOf q.seg (q.before m).seg 0 m := by
  obtain ⟨hN, hs, hc⟩ := cut_facts (seg := q.seg) hq hm
  have hNr : (0 : ℝ) < intervals q.seg := Nat.cast_pos.2 hN
  have hmr : (0 : ℝ) < m := Nat.cast_pos.2 h0
  have hNe := hNr.ne'
  have hme := hmr.ne'
  have hD : (0 : ℝ) < q.t1 - q.t0 := by linarith
  have hDe := hD.ne'
  have hmN : (m : ℝ) ≤ intervals q.seg := by exact_mod_cast hm
  have hdur : (q.before m).seg.t1 - (q.before m).seg.t0 = m * ((q.t1 - q.t0) / intervals q.seg) := by
    show q.t0 + m * ((q.t1 - q.t0) / intervals q.seg) - q.t0 = _; ring
  have hI : intervals (q.before m).seg = m := by
    show ⌈(q.before m).seg.t1 - (q.before m).seg.t0⌉₊ = m
    rw [hdur]; exact hc
  have line : ∀ (a b : ℝ) (p : Nat), a + (p : ℝ) / m * ((a + m / intervals q.seg * (b - a)) - a) = a + ((0 + p : Nat) : ℝ) / intervals q.seg * (b - a) := fun a b p => by
    rw [Nat.zero_add]; field_simp; ring
  have ex : ∀ p, lineX (q.before m).seg p = lineX q.seg (0 + p) := fun p => by unfold lineX; rw [hI]; exact line q.p0.x q.p1.x p
  have ey : ∀ p, lineY (q.before m).seg p = lineY q.seg (0 + p) := fun p => by unfold lineY; rw [hI]; exact line q.p0.y q.p1.y p
  have ez : ∀ p, lineZ (q.before m).seg p = lineZ q.seg (0 + p) := fun p => by unfold lineZ; rw [hI]; exact line q.p0.z q.p1.z p
  have hv : ∀ a b : ℝ, ((a + m / intervals q.seg * (b - a)) - a) / ((q.before m).seg.t1 - (q.before m).seg.t0) = (b - a) / (q.t1 - q.t0) := fun a b => by
    rw [hdur]; field_simp; ring
  refine ⟨hI, ?_, ?_, ?_, fun p => ?_, ex, ey, ez, fun p => ?_, ?_⟩
  · have : 0 < (q.before m).seg.t1 - (q.before m).seg.t0 := by rw [hdur]; exact mul_pos hmr hs
    linarith
  · rw [hdur]
    show _ ≤ q.t1 - q.t0
    rw [← mul_div_assoc, div_le_iff₀ hNr]
    nlinarith
  · rw [hdur]; field_simp; rfl
  · unfold lineTime
    rw [hI, hdur]
    show q.t0 + _ = q.t0 + _
    rw [Nat.zero_add]
    show q.t0 + _ = q.t0 + p * ((q.t1 - q.t0) / intervals q.seg)
    field_simp
  · unfold currentR lineR
    rw [ex, ey]
    show q.charge * ((lineX q.seg m - q.p0.x) / _ * _ + (lineY q.seg m - q.p0.y) / _ * _) / _ = _
    have h1 := hv q.p0.x q.p1.x
    have h2 := hv q.p0.y q.p1.y
    have e1 : (lineX q.seg m - q.p0.x) / ((q.before m).seg.t1 - (q.before m).seg.t0) = (q.p1.x - q.p0.x) / (q.t1 - q.t0) := h1
    have e2 : (lineY q.seg m - q.p0.y) / ((q.before m).seg.t1 - (q.before m).seg.t0) = (q.p1.y - q.p0.y) / (q.t1 - q.t0) := h2
    rw [e1, e2]; rfl
  · have e1 : (lineZ q.seg m - q.p0.z) / ((q.before m).seg.t1 - (q.before m).seg.t0) = (q.p1.z - q.p0.z) / (q.t1 - q.t0) := hv q.p0.z q.p1.z
    show q.charge * ((lineZ q.seg m - q.p0.z) / _) = q.charge * _
    rw [e1]; rfl

theorem after_part (hq : q.t0 < q.t1) {m : Nat} (hm : m < intervals q.seg) : PartOf q.seg (q.after m).seg m (intervals q.seg - m) := by
  obtain ⟨hN, hs, hc⟩ := cut_facts (seg := q.seg) hq (Nat.sub_le (intervals q.seg) m)
  have hNr : (0 : ℝ) < intervals q.seg := Nat.cast_pos.2 hN
  have hcast : ((intervals q.seg - m : Nat) : ℝ) = intervals q.seg - m := Nat.cast_sub hm.le
  have hmN : (m : ℝ) < intervals q.seg := by exact_mod_cast hm
  have hm0 : (0 : ℝ) ≤ m := Nat.cast_nonneg _
  have hNe := hNr.ne'
  have hdr : (0 : ℝ) < intervals q.seg - m := by linarith
  have hde := hdr.ne'
  have hD : (0 : ℝ) < q.t1 - q.t0 := by linarith
  have hDe := hD.ne'
  have hdur : (q.after m).seg.t1 - (q.after m).seg.t0 = ((intervals q.seg - m : Nat) : ℝ) * ((q.t1 - q.t0) / intervals q.seg) := by
    show q.t1 - (q.t0 + m * ((q.t1 - q.t0) / intervals q.seg)) = _
    rw [hcast]; field_simp; ring
  have hI : intervals (q.after m).seg = intervals q.seg - m := by
    show ⌈(q.after m).seg.t1 - (q.after m).seg.t0⌉₊ = _
    rw [hdur]; exact hc
  have line : ∀ (a b : ℝ) (p : Nat), (a + m / intervals q.seg * (b - a)) + (p : ℝ) / ((intervals q.seg - m : Nat) : ℝ) * (b - (a + m / intervals q.seg * (b - a))) =
      a + ((m + p : Nat) : ℝ) / intervals q.seg * (b - a) := fun a b p => by
    rw [hcast, Nat.cast_add]; field_simp; ring
  have ex : ∀ p, lineX (q.after m).seg p = lineX q.seg (m + p) := fun p => by rw [lineX, hI]; exact line q.p0.x q.p1.x p
  have ey : ∀ p, lineY (q.after m).seg p = lineY q.seg (m + p) := fun p => by rw [lineY, hI]; exact line q.p0.y q.p1.y p
  have ez : ∀ p, lineZ (q.after m).seg p = lineZ q.seg (m + p) := fun p => by rw [lineZ, hI]; exact line q.p0.z q.p1.z p
  have hv : ∀ a b : ℝ, (b - (a + m / intervals q.seg * (b - a))) / ((q.after m).seg.t1 - (q.after m).seg.t0) = (b - a) / (q.t1 - q.t0) := fun a b => by
    rw [hdur, hcast]; field_simp; ring
  refine ⟨hI, ?_, ?_, ?_, fun p => ?_, ex, ey, ez, fun p => ?_, ?_⟩
  · have : 0 < (q.after m).seg.t1 - (q.after m).seg.t0 := by rw [hdur, hcast]; exact mul_pos hdr hs
    linarith
  · show q.t1 - (q.t0 + m * ((q.t1 - q.t0) / intervals q.seg)) ≤ q.t1 - q.t0
    have := mul_nonneg hm0 (show 0 ≤ (q.t1 - q.t0) / intervals q.seg from hs.le)
    linarith
  · rw [hdur, hcast]; field_simp; rfl
  · rw [lineTime, hI, hdur, hcast]
    show q.t0 + m * ((q.t1 - q.t0) / intervals q.seg) + _ = q.t0 + ((m + p : Nat) : ℝ) * ((q.t1 - q.t0) / intervals q.seg)
    rw [Nat.cast_add]; field_simp; ring
  · rw [currentR, lineR, ex, ey]
    have e1 : (q.p1.x - lineX q.seg m) / ((q.after m).seg.t1 - (q.after m).seg.t0) = (q.p1.x - q.p0.x) / (q.t1 - q.t0) := hv q.p0.x q.p1.x
    have e2 : (q.p1.y - lineY q.seg m) / ((q.after m).seg.t1 - (q.after m).seg.t0) = (q.p1.y - q.p0.y) / (q.t1 - q.t0) := hv q.p0.y q.p1.y
    show q.charge * ((q.p1.x - lineX q.seg m) / _ * _ + (q.p1.y - lineY q.seg m) / _ * _) / _ = _
    rw [e1, e2]; rfl
  · have e1 : (q.p1.z - lineZ q.seg m) / ((q.after m).seg.t1 - (q.after m).seg.t0) = (q.p1.z - q.p0.z) / (q.t1 - q.t0) := hv q.p0.z q.p1.z
    show q.charge * ((q.p1.z - lineZ q.seg m) / _) = q.charge * _
    rw [e1]; rfl

open Classical in
/-- **C71**: a track may be cut at any of its integration points; both parts can be requested if the track can, and together they give its signal. -/
theorem C71_cut {oob : OOB} (hq : q.Ok G kn A g oob) {m : Nat} (h0 : 0 < m) (hm : m < intervals q.seg) :
    (q.before m).Ok G kn A g oob ∧ (q.after m).Ok G kn A g oob ∧ ∀ w k, q.adds G kn A g w k = (q.before m).adds G kn A g w k + (q.after m).adds G kn A g w k := by
  have ho : q.t0 < q.t1 := hq.order
  have hb := before_part ho h0 hm.le
  have ha := after_part ho hm
  refine ⟨hb.ok (by omega) hq, ha.ok (by omega) hq, fun w k => ?_⟩
  unfold TrackReq.adds
  show (if k < q.n then _ else _) = (if k < q.n then _ else _) + if k < q.n then _ else _
  by_cases hk : k < q.n
  · rw [if_pos hk, if_pos hk, if_pos hk]
    unfold lineSignal
    rw [hb.num, ha.num, hb.step, ha.step]
    have e : ∀ (seg : Segment ℝ) (n : Nat), (∑ p ∈ Finset.range (n + 1), if 0 ≤ delay seg q.tsig q.tsamp p k ∧ g.Has (G.x (lineR seg p)) (G.y (lineZ seg p)) (G.t (delay seg q.tsig q.tsamp p k)) then
        trapez n p * response G kn A seg q.tsig q.tsamp p k else 0) = ∑ p ∈ Finset.range (n + 1), trapez n p *
        if 0 ≤ delay seg q.tsig q.tsamp p k ∧ g.Has (G.x (lineR seg p)) (G.y (lineZ seg p)) (G.t (delay seg q.tsig q.tsamp p k)) then response G kn A seg q.tsig q.tsamp p k else 0 := fun seg n =>
      Finset.sum_congr rfl fun p _ => by rw [mul_ite, mul_zero]
    have eb : ∑ p ∈ Finset.range (m + 1), trapez m p * (if 0 ≤ delay (q.before m).seg q.tsig q.tsamp p k ∧ g.Has (G.x (lineR (q.before m).seg p)) (G.y (lineZ (q.before m).seg p)) (G.t (delay (q.before m).seg q.tsig q.tsamp p k)) then
        response G kn A (q.before m).seg q.tsig q.tsamp p k else 0) = ∑ p ∈ Finset.range (m + 1), trapez m p *
        (if 0 ≤ delay q.seg q.tsig q.tsamp p k ∧ g.Has (G.x (lineR q.seg p)) (G.y (lineZ q.seg p)) (G.t (delay q.seg q.tsig q.tsamp p k)) then response G kn A q.seg q.tsig q.tsamp p k else 0) :=
      Finset.sum_congr rfl fun p _ => by rw [hb.delay, hb.r, hb.z, hb.response, Nat.zero_add]
    have ea : ∑ p ∈ Finset.range (intervals q.seg - m + 1), trapez (intervals q.seg - m) p * (if 0 ≤ delay (q.after m).seg q.tsig q.tsamp p k ∧ g.Has (G.x (lineR (q.after m).seg p)) (G.y (lineZ (q.after m).seg p))
        (G.t (delay (q.after m).seg q.tsig q.tsamp p k)) then response G kn A (q.after m).seg q.tsig q.tsamp p k else 0) = ∑ p ∈ Finset.range (intervals q.seg - m + 1), trapez (intervals q.seg - m) p *
        (if 0 ≤ delay q.seg q.tsig q.tsamp (m + p) k ∧ g.Has (G.x (lineR q.seg (m + p))) (G.y (lineZ q.seg (m + p))) (G.t (delay q.seg q.tsig q.tsamp (m + p) k)) then response G kn A q.seg q.tsig q.tsamp (m + p) k else 0) :=
      Finset.sum_congr rfl fun p _ => by rw [ha.delay, ha.r, ha.z, ha.response]
    rw [e, show (q.before m).tsig = q.tsig from rfl, show (q.before m).tsamp = q.tsamp from rfl, show (q.after m).tsig = q.tsig from rfl, show (q.after m).tsamp = q.tsamp from rfl, e, e, eb, ea,
      trapez_cut (fun p => if 0 ≤ delay q.seg q.tsig q.tsamp p k ∧ g.Has (G.x (lineR q.seg p)) (G.y (lineZ q.seg p)) (G.t (delay q.seg q.tsig q.tsamp p k)) then response G kn A q.seg q.tsig q.tsamp p k else 0) h0 hm]
    ring
  · rw [if_neg hk, if_neg hk, if_neg hk, add_zero]

end Verif.Green
