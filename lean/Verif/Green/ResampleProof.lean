import Verif.Green.Resample
import Verif.Green.InnerProof
import Verif.Tree.Props
/-
Proof about `fill_array`.
-/
namespace Verif.Green
open Verif Verif.ND Verif.Dist Verif.Tree

set_option linter.unusedSectionVars false

variable {K : Type} [Field K] [LinearOrder K] [IsStrictOrderedRing K] [FloorRing K]

/-! ### One axis -/

/-- Sample `i` of `num` equidistant samples from `s` to `e`. -/
def samplePos (s e : K) (num i : Nat) : K := s + i * ((e - s) / ((num : K) - 1))

/-- What is required of an axis of the request: it starts inside the grid, has positive length and at least two samples; no number overflows. -/
structure AxisOk (s e : K) (num : Nat) : Prop where
  lo : 0 ≤ s
  lt : s < e
  hi : e < 2 ^ 62
  two : 2 ≤ num
  many : num < 2 ^ 62

variable {s e : K} {num : Nat}

theorem AxisOk.den (h : AxisOk s e num) : (0 : K) < (num : K) - 1 := by
  have : ((2 : Nat) : K) ≤ (num : K) := Nat.cast_le.2 h.two
  push_cast at this
  linarith

theorem AxisOk.step (h : AxisOk s e num) : 0 < (e - s) / ((num : K) - 1) := div_pos (by linarith [h.lt]) h.den

theorem AxisOk.stepSize (h : AxisOk s e num) : stepSize s e num = some ((e - s) / ((num : K) - 1)) := by
  unfold Green.stepSize
  rw [if_neg]
  rintro (h1 | h1)
  · have := h.two; omega
  · exact absurd h1 (ne_of_gt h.lt)

theorem AxisOk.pos_ge (h : AxisOk s e num) (i : Nat) : s ≤ samplePos s e num i := by
  unfold samplePos
  have : (0 : K) ≤ (i : K) * ((e - s) / ((num : K) - 1)) := mul_nonneg (Nat.cast_nonneg _) h.step.le
  linarith

theorem AxisOk.pos_le (h : AxisOk s e num) {i : Nat} (hi : i < num) : samplePos s e num i ≤ e := by
  unfold samplePos
  have h1 : (i : K) ≤ (num : K) - 1 := by
    have : ((i + 1 : Nat) : K) ≤ (num : K) := Nat.cast_le.2 hi
    push_cast at this
    linarith
  have h2 : (i : K) * ((e - s) / ((num : K) - 1)) ≤ ((num : K) - 1) * ((e - s) / ((num : K) - 1)) := mul_le_mul_of_nonneg_right h1 h.step.le
  have h3 : ((num : K) - 1) * ((e - s) / ((num : K) - 1)) = e - s := mul_div_cancel₀ _ h.den.ne'
  linarith

theorem lt62 {x : K} (h : x < 2 ^ 62) : ⌊x⌋ < 2 ^ 62 := by
  rw [Int.floor_lt]; norm_num at h ⊢; exact h

/-- The output indices a chunk provides along an axis are those of the samples in the closed interval it covers. -/
theorem outRange_ok (h : AxisOk s e num) {cs ce : Nat} (hcc : cs ≤ ce) (h1 : (cs : Int) < ⌊e⌋) (h2 : ⌊s⌋ < (ce : Int)) :
    ∃ a b, outRange cs ce s (stepSize s e num) num = .ok (a, b) ∧ a ≤ b ∧ a < num ∧ 0 < b ∧ (cs : K) ≤ samplePos s e num a ∧
      ∀ i : Nat, (a ≤ i ∧ i < b) ↔ (i < num ∧ (cs : K) ≤ samplePos s e num i ∧ samplePos s e num i ≤ (ce : K)) := by
  have hU : U64 = 2 ^ 64 := rfl
  have hst := h.step
  rw [h.stepSize]
  set d := (e - s) / ((num : K) - 1) with hd
  have hce : s < (ce : K) := by
    have := Int.floor_lt.1 h2
    simpa using this
  have hcs : (cs : K) < e := by
    have : (((cs : Int) + 1 : Int) : K) ≤ e := Int.le_floor.1 (by omega)
    push_cast at this
    linarith
  set x := ((cs : K) - s) / d with hx
  set y := ((ce : K) - s) / d with hy
  have hy0 : 0 < y := div_pos (by linarith) hst
  have hxy : x ≤ y := by
    apply (div_le_div_iff_of_pos_right hst).2
    have : (cs : K) ≤ (ce : K) := Nat.cast_le.2 hcc
    linarith
  have hxn : x < (num : K) - 1 := by
    rw [hx, div_lt_iff₀ hst, hd, mul_div_cancel₀ _ h.den.ne']
    linarith
  have hm0 : (0 : K) ≤ max x 0 := le_max_right _ _
  have hc0 : 0 ≤ ⌈max x 0⌉ := Int.ceil_nonneg hm0
  have hcn : ⌈max x 0⌉ ≤ (num : Int) - 1 := by
    rw [Int.ceil_le]
    push_cast
    exact max_le hxn.le h.den.le
  have hn : (0 : K) ≤ (num : K) := Nat.cast_nonneg _
  have hw0 : 0 ≤ min (y + 1) (num : K) := le_min (by linarith) hn
  have hf0 : 1 ≤ ⌊min (y + 1) (num : K)⌋ := by
    rw [Int.le_floor]
    push_cast
    exact le_min (by linarith) (by linarith [h.den])
  have hfn : ⌊min (y + 1) (num : K)⌋ ≤ (num : Int) := by
    have := Int.floor_le_floor (min_le_right (y + 1) (num : K))
    simpa using this
  have hmany := h.many
  have hnum := h.two
  have A : ceilNonneg (max x 0) = .ok ⌈max x 0⌉.toNat := by
    unfold ceilNonneg
    rw [decide_eq_true hm0, Res.assert_true, Res.ok_bind, toSize_ok hc0 (by omega)]
  have B : floorNonneg (min (y + 1) (num : K)) = .ok ⌊min (y + 1) (num : K)⌋.toNat := by
    unfold floorNonneg
    rw [decide_eq_true hw0, Res.assert_true, Res.ok_bind, toSize_ok (by omega) (by omega)]
  have e1 : ∀ i : Nat, ⌈max x 0⌉.toNat ≤ i ↔ (cs : K) ≤ samplePos s e num i := by
    intro i
    have : ⌈max x 0⌉.toNat ≤ i ↔ ⌈max x 0⌉ ≤ (i : Int) := by omega
    rw [this, Int.ceil_le, max_le_iff]
    have hi0 : (0 : K) ≤ ((i : Int) : K) := by simp
    rw [and_iff_left hi0, hx, div_le_iff₀ hst, samplePos, ← hd]
    push_cast
    constructor <;> intro <;> linarith
  refine ⟨⌈max x 0⌉.toNat, ⌊min (y + 1) (num : K)⌋.toNat, ?_, ?_, by omega, by omega, (e1 _).1 (Nat.le_refl _), ?_⟩
  · simp only [outRange, ← hx, ← hy, A, B, Res.ok_bind]
  · have : ⌈max x 0⌉ ≤ ⌊min (y + 1) (num : K)⌋ := by
      rw [Int.le_floor]
      have q : (⌈max x 0⌉ : K) < max x 0 + 1 := Int.ceil_lt_add_one _
      apply le_min
      · rcases le_total x 0 with h0 | h0
        · rw [max_eq_right h0] at q
          rw [max_eq_right h0, Int.ceil_zero]
          push_cast
          linarith
        · rw [max_eq_left h0] at q ⊢
          linarith
      · have : ((⌈max x 0⌉ : Int) : K) ≤ (((num : Int) - 1 : Int) : K) := Int.cast_le.2 hcn
        push_cast at this
        linarith
    omega
  · intro i
    have e2 : i < ⌊min (y + 1) (num : K)⌋.toNat ↔ i < num ∧ samplePos s e num i ≤ (ce : K) := by
      have : i < ⌊min (y + 1) (num : K)⌋.toNat ↔ ((i : Int) + 1) ≤ ⌊min (y + 1) (num : K)⌋ := by omega
      rw [this, Int.le_floor, le_min_iff]
      have q1 : (((i : Int) + 1 : Int) : K) ≤ y + 1 ↔ samplePos s e num i ≤ (ce : K) := by
        push_cast
        rw [add_le_add_iff_right, hy, le_div_iff₀ hst, samplePos, ← hd]
        constructor <;> intro <;> linarith
      have q2 : (((i : Int) + 1 : Int) : K) ≤ (num : K) ↔ i < num := by
        have : ((((i : Int) + 1 : Int) : K) ≤ (((num : Int)) : K)) ↔ (i : Int) + 1 ≤ (num : Int) := Int.cast_le
        push_cast at this ⊢
        rw [this]
        omega
      rw [q1, q2, and_comm]
    rw [e1 i, e2]
    tauto

/-! ### The output array -/

/-- Position of component `c` of element `(i, j, k)` in the data of an array with two components and extents `num`. -/
def outPos (num : RZT Nat) (i j k c : Nat) : Nat := ((i * num.z + j) * num.t + k) * 2 + c

theorem outPos_lt {num : RZT Nat} {i j k c : Nat} (hi : i < num.r) (hj : j < num.z) (hk : k < num.t) (hc : c < 2) :
    outPos num i j k c < volume 2 [num.r, num.z, num.t] := by
  have := flat3_lt (vd := 2) hi hj hk
  rw [volume3]
  unfold outPos
  omega

theorem outPos_row {num : RZT Nat} {i j a b : Nat} (hj : j < num.z) (hab : b ≤ num.t) {i' j' k' c : Nat}
    (hj' : j' < num.z) (hk' : k' < num.t) (hc : c < 2) :
    (((i * num.z + j) * num.t + a) * 2 ≤ outPos num i' j' k' c ∧ outPos num i' j' k' c < ((i * num.z + j) * num.t + b) * 2) ↔
      (i' = i ∧ j' = j ∧ a ≤ k' ∧ k' < b) := by
  unfold outPos
  constructor
  · rintro ⟨h1, h2⟩
    have h1' : (i * num.z + j) * num.t + a ≤ (i' * num.z + j') * num.t + k' := by omega
    have h2' : (i' * num.z + j') * num.t + k' < (i * num.z + j) * num.t + b := by omega
    have hR : i * num.z + j = i' * num.z + j' := by
      rcases Nat.lt_trichotomy (i * num.z + j) (i' * num.z + j') with h | h | h
      · have := Nat.mul_le_mul_right num.t h
        rw [Nat.succ_mul] at this
        omega
      · exact h
      · have := Nat.mul_le_mul_right num.t h
        rw [Nat.succ_mul] at this
        omega
    rw [hR] at h1' h2'
    have hI : i = i' := by
      rcases Nat.lt_trichotomy i i' with h | h | h
      · have := Nat.mul_le_mul_right num.z h
        rw [Nat.succ_mul] at this
        omega
      · exact h
      · have := Nat.mul_le_mul_right num.z h
        rw [Nat.succ_mul] at this
        omega
    subst hI
    exact ⟨rfl, by omega, by omega, by omega⟩
  · rintro ⟨rfl, rfl, h1, h2⟩
    omega

/-- Writing a row of interpolated values. -/
theorem fillRow_ok {num : RZT Nat} {i j k0 n : Nat} (hi : i < num.r) (hj : j < num.z) (hk : k0 < num.t) (hkn : k0 + n ≤ num.t) (hpos : 0 < k0 + n) (hbig : num.t < 2 ^ 62)
    {buf row : List K} (hb : buf.length = volume 2 [num.r, num.z, num.t]) (hr : row.length = n * 2) :
    ∃ b', fillRow 2 (mkHdr 2 [num.r, num.z, num.t]) buf (mkHdr 2 [n]) row [i, j, k0] = .ok b' ∧ b'.length = buf.length ∧
      ∀ i' j' k' c, i' < num.r → j' < num.z → k' < num.t → c < 2 → b'.getD (outPos num i' j' k' c) 0 =
        if i' = i ∧ j' = j ∧ k0 ≤ k' ∧ k' < k0 + n then row.getD (2 * (k' - k0) + c) 0 else buf.getD (outPos num i' j' k' c) 0 := by
  have hU : U64 = 2 ^ 64 := rfl
  have hst : wadd k0 (wsub n 1) = k0 + n - 1 := by
    unfold wadd wsub
    rw [show U64 = 18446744073709551616 from rfl]
    omega
  have i1 : hasIndex (mkHdr 2 [num.r, num.z, num.t]).shape [i, j, k0] = true := by simp [hasIndex, mkHdr, hi, hj, hk]
  have i2 : hasIndex (mkHdr 2 [num.r, num.z, num.t]).shape [i, j, k0 + n - 1] = true := by
    simp [hasIndex, mkHdr, hi, hj]; omega
  have hfit : ((i * num.z + j) * num.t + k0) * 2 + 2 * n ≤ buf.length := by
    rw [hb, volume3]
    have := flat3_lt (vd := 2) hi hj (k := k0 + n - 1) (s2 := num.t) (by omega)
    omega
  obtain ⟨r, e1, e2, e3⟩ := copyN_spec (src := row) (dst := buf) (so := 0) (n := 2 * n) (d := ((i * num.z + j) * num.t + k0) * 2) (by omega) hfit
  refine ⟨r, ?_, e2, ?_⟩
  · unfold fillRow
    simp only [mkHdr, Res.assert_true, Res.ok_bind, List.getD_cons_zero, lastD, List.length_cons, List.length_nil, Nat.zero_add, Nat.reduceAdd, Nat.reduceSub,
      List.getD_cons_succ, List.set_cons_succ, List.set_cons_zero]
    rw [hst]
    simp only [mkHdr] at i1 i2
    rw [i1, i2]
    simp only [Res.assert_true, Res.ok_bind]
    have := flat3 2 num.r num.z num.t i j k0
    simp only [mkHdr] at this
    rw [this]
    exact e1
  · intro i' j' k' c hi' hj' hk' hc
    have key := outPos_row (i := i) (a := k0) (b := k0 + n) hj hkn (i' := i') hj' hk' hc
    have e4 : ((i * num.z + j) * num.t + (k0 + n)) * 2 = ((i * num.z + j) * num.t + k0) * 2 + 2 * n := by ring
    rw [e4] at key
    rw [List.getD_eq_getElem?_getD, e3]
    by_cases hin : i' = i ∧ j' = j ∧ k0 ≤ k' ∧ k' < k0 + n
    · rw [if_pos hin, if_pos (key.2 hin), List.getD_eq_getElem?_getD]
      obtain ⟨rfl, rfl, h1, h2⟩ := hin
      congr 2
      unfold outPos
      omega
    · rw [if_neg hin, if_neg (fun h => hin (key.1 h)), List.getD_eq_getElem?_getD]

/-! ### One chunk -/

/-- The index positions of the output samples. -/
def posR (s e : RZT K) (num : RZT Nat) (i : Nat) : K := samplePos s.r e.r num.r i
def posZ (s e : RZT K) (num : RZT Nat) (i : Nat) : K := samplePos s.z e.z num.z i
def posT (s e : RZT K) (num : RZT Nat) (i : Nat) : K := samplePos s.t e.t num.t i

/-- `x` lies in the closed interval a chunk covers along the axis `d`. -/
def OnAxis (m : Meta) (d : Nat) (x : K) : Prop := (m.start.getD d 0 : K) ≤ x ∧ x ≤ (m.stop.getD d 0 : K)

/-- Output sample `(i, j, k)` lies in the closed box that the chunk covers. -/
def OnSample (s e : RZT K) (num : RZT Nat) (m : Meta) (i j k : Nat) : Prop :=
  OnAxis m 0 (posR s e num i) ∧ OnAxis m 1 (posZ s e num j) ∧ OnAxis m 2 (posT s e num k)

/-- The padding of the chunk suffices for the interpolation at `x`: at the far end of the chunk, one more layer is needed. -/
def Roomy (kn : Kern K) (m : Meta) (d : Nat) (x : K) : Prop := kn.support ≤ m.overlap ∧ (x = (m.stop.getD d 0 : K) → kn.support < m.overlap)

theorem onAxis_floor {m : Meta} {d : Nat} {x : K} (h : OnAxis m d x) : (m.start.getD d 0 : Int) ≤ ⌊x⌋ ∧ ⌊x⌋ ≤ (m.stop.getD d 0 : Int) := by
  constructor
  · rw [Int.le_floor]; exact_mod_cast h.1
  · have := Int.floor_le_floor h.2
    simpa using this

theorem onAxis_stencil {kn : Kern K} {m : Meta} {d : Nat} {x : K} (h : OnAxis m d x) (hr : Roomy kn m d x) :
    (m.start.getD d 0 : Int) ≤ ⌊x⌋ ∧ ⌊x⌋ + kn.support < (m.stop.getD d 0 : Int) + m.overlap := by
  obtain ⟨h1, h2⟩ := onAxis_floor h
  refine ⟨h1, ?_⟩
  have := hr.1
  by_cases hx : ⌊x⌋ = (m.stop.getD d 0 : Int)
  · have e : x = (m.stop.getD d 0 : K) := by
      apply le_antisymm h.2
      have : ((m.stop.getD d 0 : Int) : K) ≤ x := by rw [← hx]; exact Int.floor_le x
      simpa using this
    have := hr.2 e
    omega
  · omega

/-- The stencil of a sample lies in the padded chunk. -/
theorem sample_in {kn : Kern K} {m : Meta} {x y t : K} (h0 : OnAxis m 0 x) (h1 : OnAxis m 1 y) (h2 : OnAxis m 2 t)
    (r0 : Roomy kn m 0 x) (r1 : Roomy kn m 1 y) (r2 : Roomy kn m 2 t) {a b c : Nat} (ha : a < 2 * kn.support) (hb : b < 2 * kn.support) (hc : c < 2 * kn.support) :
    InPadded m (⌊x⌋ - (kn.support - 1 : Int) + a) (⌊y⌋ - (kn.support - 1 : Int) + b) (⌊t⌋ - (kn.support - 1 : Int) + c) := by
  have q0 := onAxis_stencil h0 r0
  have q1 := onAxis_stencil h1 r1
  have q2 := onAxis_stencil h2 r2
  have := r0.1
  exact ⟨⟨by omega, by omega⟩, ⟨by omega, by omega⟩, by omega, by omega⟩

theorem inside_roomy {kn : Kern K} {m : Meta} {d : Nat} {x : K} {ext : Nat} (hst : m.stop.getD d 0 = m.start.getD d 0 + ext) (h : OnAxis m d x) (hr : Roomy kn m d x) :
    Inside kn.support (ext + 2 * m.overlap) (x - (((m.start.getD d 0 : Int) - (m.overlap : Int) : Int) : K)) := by
  have q := onAxis_stencil h hr
  have := hr.1
  unfold Inside
  rw [Int.floor_sub_intCast]
  omega

section
variable {σ : Type} {L : Library σ K} {I : σ → Prop} {ms : List Meta} {A : Nat → Int → Int → Int → K} {Q : Int → Int → Int → Prop} {kn : Kern K} {s e : RZT K} {num : RZT Nat}

/-- What the request must satisfy. -/
structure RangeOk (s e : RZT K) (num : RZT Nat) : Prop where
  r : AxisOk s.r e.r num.r
  z : AxisOk s.z e.z num.z
  t : AxisOk s.t e.t num.t

/-- Interpolating one row and storing it. -/
theorem fillOne_ok (hk : kn.Usable) {m : Meta} (hM : MetaOk m) (hR : RangeOk s e num) {data : List K} (hl : data.length = volume 2 (m.shape.map (· + 2 * m.overlap)))
    (hA : ∀ c i j k, c < 2 → InPadded m i j k → Q i j k →
      component 2 (mkHdr 2 (m.shape.map (· + 2 * m.overlap))) data c (i - m.start.getD 0 0 + m.overlap) (j - m.start.getD 1 0 + m.overlap) (k - m.start.getD 2 0 + m.overlap) = A c i j k)
    {a2 b2 : Nat} (h2 : a2 ≤ b2) (h3 : a2 < num.t) (h4 : 0 < b2) (hr2 : ∀ k, (a2 ≤ k ∧ k < b2) ↔ (k < num.t ∧ OnAxis m 2 (posT s e num k))) (hrt : ∀ k, k < num.t → OnAxis m 2 (posT s e num k) → Roomy kn m 2 (posT s e num k))
    (hge : (m.start.getD 2 0 : Int) ≤ ⌊posT s e num a2⌋)
    {i j : Nat} (hi : i < num.r) (hj : j < num.z) (hx : OnAxis m 0 (posR s e num i)) (hy : OnAxis m 1 (posZ s e num j))
    (rx : Roomy kn m 0 (posR s e num i)) (ry : Roomy kn m 1 (posZ s e num j)) {buf : List K} (hb : buf.length = volume 2 [num.r, num.z, num.t]) :
    ∃ b', fillOne kn m (m.shape.map (· + 2 * m.overlap)) data s ⟨(e.r - s.r) / ((num.r : K) - 1), (e.z - s.z) / ((num.z : K) - 1), (e.t - s.t) / ((num.t : K) - 1)⟩
        ((a2 : K) * ((e.t - s.t) / ((num.t : K) - 1)) + s.t) (b2 - a2) a2 (mkHdr 2 [num.r, num.z, num.t]) [i, j] buf = .ok b' ∧ b'.length = buf.length ∧
      ∀ i' j' k' c, i' < num.r → j' < num.z → k' < num.t → c < 2 → StencilIn kn Q (posR s e num i') (posZ s e num j') (posT s e num k') → b'.getD (outPos num i' j' k' c) 0 =
        if i' = i ∧ j' = j ∧ a2 ≤ k' ∧ k' < b2 then interpAt kn (A c) (posR s e num i') (posZ s e num j') (posT s e num k') else buf.getD (outPos num i' j' k' c) 0 := by
  have hp := hk.support
  have hU : U64 = 2 ^ 64 := rfl
  have ex : ((i : Nat) : K) * ((e.r - s.r) / ((num.r : K) - 1)) + s.r = posR s e num i := by unfold posR samplePos; ring
  have ey : ((j : Nat) : K) * ((e.z - s.z) / ((num.z : K) - 1)) + s.z = posZ s e num j := by unfold posZ samplePos; ring
  have et : ((a2 : Nat) : K) * ((e.t - s.t) / ((num.t : K) - 1)) + s.t = posT s e num a2 := by unfold posT samplePos; ring
  have st0 := hM.getD_stop 0
  have st1 := hM.getD_stop 1
  have st2 := hM.getD_stop 2
  have lt0 := hM.lt 0 (by decide)
  have lt1 := hM.lt 1 (by decide)
  have lt2 := hM.lt 2 (by decide)
  have hovl := hM.ovl
  have fx := onAxis_floor hx
  have fy := onAxis_floor hy
  have ft := lt62 (lt_of_le_of_lt (hR.t.pos_le h3) hR.t.hi)
  change ⌊posT s e num a2⌋ < 2 ^ 62 at ft
  have hb2 : b2 ≤ num.t := by
    have := (hr2 (b2 - 1)).1
    by_cases h : a2 < b2
    · have := (this ⟨by omega, by omega⟩).1; omega
    · omega
  unfold fillOne
  simp only [List.getD_cons_zero, List.getD_cons_succ]
  rw [ex, ey, et]
  rw [hM.getD_offset (d := 0) (by decide), hM.getD_offset (d := 1) (by decide), hM.getD_offset (d := 2) (by decide)]
  rw [toLocal_ok lt0 hovl fx.1 fx.2, toLocal_ok lt1 hovl fy.1 fy.2, toLocal_ok (stop := ⌊posT s e num a2⌋.toNat) (by omega) hovl hge (by omega)]
  simp only [Res.ok_bind]
  have ix := inside_roomy (kn := kn) st0 hx rx
  have iy := inside_roomy (kn := kn) st1 hy ry
  set ox : Int := (m.start.getD 0 0 : Int) - (m.overlap : Int) with hox
  set oy : Int := (m.start.getD 1 0 : Int) - (m.overlap : Int) with hoy
  set ot : Int := (m.start.getD 2 0 : Int) - (m.overlap : Int) with hot
  have step : ∀ k : Nat, posT s e num a2 - (ot : K) + (k : K) * ((e.t - s.t) / ((num.t : K) - 1)) = posT s e num (a2 + k) - (ot : K) := by
    intro k; unfold posT samplePos; push_cast; ring
  have it : ∀ k : Nat, k < b2 - a2 → Inside kn.support (m.shape.getD 2 0 + 2 * m.overlap) (posT s e num a2 - (ot : K) + (k : K) * ((e.t - s.t) / ((num.t : K) - 1))) := by
    intro k hk'
    rw [step]
    have := (hr2 (a2 + k)).1 ⟨by omega, by omega⟩
    exact inside_roomy (kn := kn) st2 this.2 (hrt _ this.1 this.2)
  have hsh := hM.shape3
  rw [hsh] at hl ⊢
  obtain ⟨d, d1, d2, d3⟩ := interpolate_ok hk (vd := 2) (by decide) hl (by omega) (by omega) (by omega) (hr := mkHdr 2 [b2 - a2]) rfl (List.replicate ((b2 - a2) * 2) (0 : K))
    (posR s e num i - (ox : K)) (posZ s e num j - (oy : K)) (posT s e num a2 - (ot : K)) ((e.t - s.t) / ((num.t : K) - 1)) (b2 - a2) (fun _ => 0) ix iy (fun k hk' => Or.inl (it k hk'))
  rw [d1]
  simp only [Res.ok_bind]
  obtain ⟨b', f1, f2, f3⟩ := fillRow_ok hi hj h3 (n := b2 - a2) (by omega) (by omega) hR.t.many hb d2
  refine ⟨b', f1, f2, fun i' j' k' c hi' hj' hk' hc hQ => ?_⟩
  rw [f3 i' j' k' c hi' hj' hk' hc]
  have e5 : a2 + (b2 - a2) = b2 := by omega
  rw [e5]
  by_cases hin : i' = i ∧ j' = j ∧ a2 ≤ k' ∧ k' < b2
  · rw [if_pos hin, if_pos hin]
    obtain ⟨rfl, rfl, g1, g2⟩ := hin
    rw [d3 (k' - a2) c (by omega) hc, step]
    have e6 : a2 + (k' - a2) = k' := by omega
    rw [e6]
    have e7 : (List.replicate ((b2 - a2) * 2) (0 : K)).getD (2 * (k' - a2) + c) 0 = 0 := by
      rw [List.getD_eq_getElem?_getD, List.getElem?_replicate]
      split <;> rfl
    rw [e7, zero_add]
    have ht := (hr2 k').1 ⟨g1, g2⟩
    rw [← interpAt_shift]
    apply interpAt_congr
    intro u v w hu hv hw _
    have hin := sample_in hx hy ht.2 rx ry (hrt _ ht.1 ht.2) hu hv hw
    have := hA c _ _ _ hc hin (hQ _ _ _ hu hv hw)
    rw [hsh] at this
    rw [← this]
    congr 1 <;> (rw [hox, hoy, hot] at *; ring)
  · rw [if_neg hin, if_neg hin]

theorem runLoop_id {ι α : Type} (f : ι → α → Res α) (l : List ι) (a : α) (h : ∀ i ∈ l, f i a = .ok a) : runLoop f l a = .ok a := by
  induction l with
  | nil => rfl
  | cons i l ih => rw [runLoop, h i (by simp)]; exact ih fun j hj => h j (by simp [hj])

/-- Interpolating no samples does nothing. -/
theorem interpolate_none (hk : kn.Usable) (vd : Nat) (h : Hdr) (buf : List K) {x y : K} (hx : 0 ≤ ⌊x⌋ ∧ ⌊x⌋ < (U64 : Int)) (hy : 0 ≤ ⌊y⌋ ∧ ⌊y⌋ < (U64 : Int)) (start delta : K) :
    interpolate kn vd h buf (mkHdr vd [0]) [] x y start delta 0 (fun _ => 0) = .ok (mkHdr vd [0], []) := by
  obtain ⟨k0, hk0, _⟩ := hk.total (Int.fract x) (Int.fract_nonneg x) (Int.fract_lt_one x)
  obtain ⟨k1, hk1, _⟩ := hk.total (Int.fract y) (Int.fract_nonneg y) (Int.fract_lt_one y)
  unfold interpolate
  have hres : resize vd (mkHdr vd [0]) ([] : List K) [0] (fun _ => 0) = .ok (mkHdr vd [0], []) := by
    simp [resize, mkHdr, volume, numElems]
  rw [hres]
  simp only [Res.ok_bind]
  rw [modf_nonneg (Int.floor_nonneg.1 hx.1), modf_nonneg (Int.floor_nonneg.1 hy.1)]
  simp only
  rw [toSize_ok hx.1 hx.2, toSize_ok hy.1 hy.2]
  simp only [Res.ok_bind, hk0, hk1]
  rw [runLoop_id]
  · rfl
  · intro i1 _
    apply runLoop_id
    intro i2 _
    rfl

/-- A row for which the chunk provides no samples. -/
theorem fillOne_none (hk : kn.Usable) {m : Meta} (hM : MetaOk m) (shape : List Nat) (data : List K) {stp : RZT K} {t0 : K} (h0 : (m.start.getD 2 0 : Int) ≤ ⌊t0⌋) (h1 : ⌊t0⌋ < 2 ^ 62)
    {k0 : Nat} (hk0 : 0 < k0) (hk1 : k0 < num.t) (hbig : num.t < 2 ^ 62) {i j : Nat} (hi : i < num.r) (hj : j < num.z) (hx : OnAxis m 0 ((i : K) * stp.r + s.r)) (hy : OnAxis m 1 ((j : K) * stp.z + s.z))
    {buf : List K} (hb : buf.length = volume 2 [num.r, num.z, num.t]) :
    ∃ b', fillOne kn m shape data s stp t0 0 k0 (mkHdr 2 [num.r, num.z, num.t]) [i, j] buf = .ok b' ∧ b'.length = buf.length ∧
      ∀ i' j' k' c, i' < num.r → j' < num.z → k' < num.t → c < 2 → b'.getD (outPos num i' j' k' c) 0 = buf.getD (outPos num i' j' k' c) 0 := by
  have hU : U64 = 2 ^ 64 := rfl
  have lt0 := hM.lt 0 (by decide)
  have lt1 := hM.lt 1 (by decide)
  have hovl := hM.ovl
  have fx := onAxis_floor hx
  have fy := onAxis_floor hy
  unfold fillOne
  simp only [List.getD_cons_zero, List.getD_cons_succ]
  rw [hM.getD_offset (d := 0) (by decide), hM.getD_offset (d := 1) (by decide), hM.getD_offset (d := 2) (by decide)]
  rw [toLocal_ok lt0 hovl fx.1 fx.2, toLocal_ok lt1 hovl fy.1 fy.2, toLocal_ok (stop := ⌊t0⌋.toNat) (by omega) hovl h0 (by omega)]
  simp only [Res.ok_bind, Nat.zero_mul, List.replicate_zero]
  rw [interpolate_none hk 2 _ _ (by rw [Int.floor_sub_intCast]; omega) (by rw [Int.floor_sub_intCast]; omega)]
  simp only [Res.ok_bind]
  obtain ⟨b', f1, f2, f3⟩ := fillRow_ok hi hj hk1 (n := 0) (by omega) (by omega) hbig hb (row := []) rfl
  refine ⟨b', f1, f2, fun i' j' k' c g1 g2 g3 g4 => ?_⟩
  rw [f3 i' j' k' c g1 g2 g3 g4, if_neg (by omega)]

/-- The loop over the rows of one chunk. -/
theorem rowsLoop_ok (f : List Nat → List K → Res (List K)) (V : Nat → Nat → Nat → Nat → K) (P : Nat → Nat → Nat → Prop) (N a2 b2 : Nat) :
    ∀ l : List (List Nat), (∀ ij ∈ l, ∀ buf : List K, buf.length = N → ∃ b', f ij buf = .ok b' ∧ b'.length = N ∧
        ∀ i' j' k' c, i' < num.r → j' < num.z → k' < num.t → c < 2 → P i' j' k' → b'.getD (outPos num i' j' k' c) 0 =
          if [i', j'] = ij ∧ a2 ≤ k' ∧ k' < b2 then V i' j' k' c else buf.getD (outPos num i' j' k' c) 0) →
      ∀ buf : List K, buf.length = N → ∃ b', runLoop f l buf = .ok b' ∧ b'.length = N ∧
        ∀ i' j' k' c, i' < num.r → j' < num.z → k' < num.t → c < 2 → P i' j' k' → b'.getD (outPos num i' j' k' c) 0 =
          if [i', j'] ∈ l ∧ a2 ≤ k' ∧ k' < b2 then V i' j' k' c else buf.getD (outPos num i' j' k' c) 0 := by
  intro l
  induction l with
  | nil => intro _ buf hb; exact ⟨buf, rfl, hb, fun i' j' k' c _ _ _ _ _ => by rw [if_neg (by simp)]⟩
  | cons ij l ih =>
    intro hf buf hb
    obtain ⟨b1, e1, l1, v1⟩ := hf ij (by simp) buf hb
    obtain ⟨b2', e2, l2, v2⟩ := ih (fun q hq => hf q (by simp [hq])) b1 l1
    refine ⟨b2', by rw [runLoop, e1]; exact e2, l2, fun i' j' k' c hi hj hk hc hP => ?_⟩
    rw [v2 i' j' k' c hi hj hk hc hP, v1 i' j' k' c hi hj hk hc hP]
    by_cases h1 : [i', j'] ∈ l ∧ a2 ≤ k' ∧ k' < b2
    · rw [if_pos h1, if_pos ⟨by simp [h1.1], h1.2⟩]
    · rw [if_neg h1]
      by_cases h2 : [i', j'] = ij ∧ a2 ≤ k' ∧ k' < b2
      · rw [if_pos h2, if_pos ⟨by simp [h2.1], h2.2⟩]
      · rw [if_neg h2, if_neg]
        rintro ⟨h3, h4⟩
        rcases List.mem_cons.1 h3 with h5 | h5
        · exact h2 ⟨h5, h4⟩
        · exact h1 ⟨h5, h4⟩

/-- A chunk that the search finds. -/
structure Hit (s e : RZT K) (m : Meta) : Prop where
  r : ⌊s.r⌋ < (m.stop.getD 0 0 : Int) ∧ (m.start.getD 0 0 : Int) < ⌊e.r⌋
  z : ⌊s.z⌋ < (m.stop.getD 1 0 : Int) ∧ (m.start.getD 1 0 : Int) < ⌊e.z⌋
  t : ⌊s.t⌋ < (m.stop.getD 2 0 : Int) ∧ (m.start.getD 2 0 : Int) < ⌊e.t⌋

theorem mem_elem2 {a0 a1 b0 b1 i j : Nat} : [i, j] ∈ elemLoop [a0, a1] [b0, b1] ↔ (a0 ≤ i ∧ i < b0) ∧ (a1 ≤ j ∧ j < b1) := by
  rw [mem_elemLoop]
  constructor
  · intro h
    have h0 := h.2.2 0 (by simp)
    have h1 := h.2.2 1 (by simp)
    simpa using ⟨h0, h1⟩
  · rintro ⟨h0, h1⟩
    refine ⟨rfl, rfl, fun d hd => ?_⟩
    have : d < 2 := hd
    match d, this with
    | 0, _ => exact h0
    | 1, _ => exact h1

theorem elem2 {a0 a1 b0 b1 : Nat} {ij : List Nat} (h : ij ∈ elemLoop [a0, a1] [b0, b1]) : ∃ i j, ij = [i, j] ∧ (a0 ≤ i ∧ i < b0) ∧ (a1 ≤ j ∧ j < b1) := by
  have hl := (mem_elemLoop.1 h).1
  match ij, hl with
  | [i, j], _ => exact ⟨i, j, rfl, mem_elem2.1 h⟩

open Classical in
/-- One turn of the loop over the chunks. -/
theorem fillChunk_ok (hL : Serves L I ms A Q) (hk : kn.Usable) (hR : RangeOk s e num) {m : Meta} (hm : m ∈ ms) (hit : Hit s e m)
    (roomy : m.ctype = .specified → ∀ i j k, i < num.r → j < num.z → k < num.t → OnSample s e num m i j k →
      Roomy kn m 0 (posR s e num i) ∧ Roomy kn m 1 (posZ s e num j) ∧ Roomy kn m 2 (posT s e num k))
    {st : σ × List K} (hI : I st.1) (hb : st.2.length = volume 2 [num.r, num.z, num.t]) :
    ∃ st', fillChunk L kn s e num (mkHdr 2 [num.r, num.z, num.t]) m st = .ok st' ∧ I st'.1 ∧ st'.2.length = st.2.length ∧
      ∀ i j k c, i < num.r → j < num.z → k < num.t → c < 2 → StencilIn kn Q (posR s e num i) (posZ s e num j) (posT s e num k) → st'.2.getD (outPos num i j k c) 0 =
        if m.ctype = .specified ∧ OnSample s e num m i j k then interpAt kn (A c) (posR s e num i) (posZ s e num j) (posT s e num k) else st.2.getD (outPos num i j k c) 0 := by
  unfold fillChunk
  cases hsp : m.ctype with
  | all_null => exact ⟨st, rfl, hI, rfl, fun i j k c _ _ _ _ _ => by rw [if_neg]; rintro ⟨h, _⟩; cases h⟩
  | specified =>
    have hM := hL.ok m hm
    obtain ⟨s', data, l1, l2, l3, l4⟩ := hL.load st.1 m hI hm hsp
    simp only [l1, Res.ok_bind]
    have st0 := hM.getD_stop 0
    have st1 := hM.getD_stop 1
    have st2 := hM.getD_stop 2
    obtain ⟨a0, b0, p1, p2, p3, p4, pg, p5⟩ := outRange_ok hR.r (cs := m.start.getD 0 0) (ce := m.stop.getD 0 0) (by omega) hit.r.2 hit.r.1
    obtain ⟨a1, b1, q1, q2, q3, q4, qg, q5⟩ := outRange_ok hR.z (cs := m.start.getD 1 0) (ce := m.stop.getD 1 0) (by omega) hit.z.2 hit.z.1
    obtain ⟨a2, b2, r1, r2, r3, r4, rg, r5⟩ := outRange_ok hR.t (cs := m.start.getD 2 0) (ce := m.stop.getD 2 0) (by omega) hit.t.2 hit.t.1
    rw [p1, q1, r1]
    simp only [Res.ok_bind]
    rw [hR.r.stepSize, hR.z.stepSize, hR.t.stepSize]
    simp only [Option.getD_some]
    have hmany := hR.t.many
    have hU : U64 = 2 ^ 64 := rfl
    have hb2 : b2 ≤ num.t := by
      by_cases h : a2 < b2
      · have := ((r5 (b2 - 1)).1 ⟨by omega, by omega⟩).1; omega
      · omega
    rw [wsub_eq (by omega) (by omega)]
    have hge : (m.start.getD 2 0 : Int) ≤ ⌊posT s e num a2⌋ := by
      rw [Int.le_floor]; exact_mod_cast rg
    obtain ⟨b', f1, f2, f3⟩ := rowsLoop_ok (num := num) (fillOne kn m (m.shape.map (· + 2 * m.overlap)) data s ⟨(e.r - s.r) / ((num.r : K) - 1), (e.z - s.z) / ((num.z : K) - 1), (e.t - s.t) / ((num.t : K) - 1)⟩
        ((a2 : K) * ((e.t - s.t) / ((num.t : K) - 1)) + s.t) (b2 - a2) a2 (mkHdr 2 [num.r, num.z, num.t]))
      (fun i j k c => interpAt kn (A c) (posR s e num i) (posZ s e num j) (posT s e num k)) (fun i j k => StencilIn kn Q (posR s e num i) (posZ s e num j) (posT s e num k)) (volume 2 [num.r, num.z, num.t]) a2 b2 (elemLoop [a0, a1] [b0, b1]) (by
        intro ij hij buf hbuf
        obtain ⟨i, j, rfl, hi, hj⟩ := elem2 hij
        have hx := (p5 i).1 hi
        have hy := (q5 j).1 hj
        have rm : ∀ k, k < num.t → OnAxis m 2 (posT s e num k) → Roomy kn m 0 (posR s e num i) ∧ Roomy kn m 1 (posZ s e num j) ∧ Roomy kn m 2 (posT s e num k) :=
          fun k hk' ho => roomy hsp i j k hx.1 hy.1 hk' ⟨hx.2, hy.2, ho⟩
        by_cases hne : a2 < b2
        · have ho := (r5 a2).1 ⟨Nat.le_refl _, hne⟩
          have hrm := rm a2 ho.1 ho.2
          obtain ⟨b', f1, f2, f3⟩ := fillOne_ok (A := A) hk hM hR l3 l4 r2 r3 r4 r5 (fun k h1 h2 => (rm k h1 h2).2.2) hge hx.1 hy.1 hx.2 hy.2 hrm.1 hrm.2.1 hbuf
          refine ⟨b', f1, f2.trans hbuf, fun i' j' k' c h1 h2 h3 h4 hP => ?_⟩
          rw [f3 i' j' k' c h1 h2 h3 h4 hP]
          have : (i' = i ∧ j' = j ∧ a2 ≤ k' ∧ k' < b2) ↔ ([i', j'] = [i, j] ∧ a2 ≤ k' ∧ k' < b2) := by simp [and_assoc]
          simp only [this]
        · have e1 : b2 = a2 := by omega
          subst e1
          have ex : ((i : Nat) : K) * ((e.r - s.r) / ((num.r : K) - 1)) + s.r = posR s e num i := by unfold posR samplePos; ring
          have ey : ((j : Nat) : K) * ((e.z - s.z) / ((num.z : K) - 1)) + s.z = posZ s e num j := by unfold posZ samplePos; ring
          have et : ((b2 : Nat) : K) * ((e.t - s.t) / ((num.t : K) - 1)) + s.t = posT s e num b2 := by unfold posT samplePos; ring
          have ft := lt62 (lt_of_le_of_lt (hR.t.pos_le r3) hR.t.hi)
          rw [Nat.sub_self]
          obtain ⟨b', f1, f2, f3⟩ := fillOne_none (s := s) hk hM (m.shape.map (· + 2 * m.overlap)) data (stp := ⟨(e.r - s.r) / ((num.r : K) - 1), (e.z - s.z) / ((num.z : K) - 1), (e.t - s.t) / ((num.t : K) - 1)⟩)
            (t0 := (b2 : K) * ((e.t - s.t) / ((num.t : K) - 1)) + s.t) (by rw [et]; exact hge) (by rw [et]; exact ft) r4 r3 hmany hx.1 hy.1 (by simp only; rw [ex]; exact hx.2) (by simp only; rw [ey]; exact hy.2) hbuf
          refine ⟨b', f1, f2.trans hbuf, fun i' j' k' c h1 h2 h3 h4 _ => ?_⟩
          rw [f3 i' j' k' c h1 h2 h3 h4, if_neg (by omega)]) st.2 hb
    refine ⟨(s', b'), ?_, l2, by rw [hb]; exact f2, fun i j k c hi hj hk' hc hP => ?_⟩
    · rw [f1]; rfl
    · rw [f3 i j k c hi hj hk' hc hP]
      have : ([i, j] ∈ elemLoop [a0, a1] [b0, b1] ∧ a2 ≤ k ∧ k < b2) ↔ (True ∧ OnSample s e num m i j k) := by
        rw [mem_elem2, p5 i, q5 j, r5 k]
        simp only [OnSample, OnAxis, posR, posZ, posT]
        tauto
      simp only [this]

open Classical in
/-- The loop over the chunks. -/
theorem chunksLoop_ok (hL : Serves L I ms A Q) (hk : kn.Usable) (hR : RangeOk s e num) :
    ∀ l : List Meta, (∀ m ∈ l, m ∈ ms ∧ Hit s e m) →
    (∀ m ∈ l, m.ctype = .specified → ∀ i j k, i < num.r → j < num.z → k < num.t → OnSample s e num m i j k →
      Roomy kn m 0 (posR s e num i) ∧ Roomy kn m 1 (posZ s e num j) ∧ Roomy kn m 2 (posT s e num k)) →
    ∀ st : σ × List K, I st.1 → st.2.length = volume 2 [num.r, num.z, num.t] →
    ∃ st', runLoop (fillChunk L kn s e num (mkHdr 2 [num.r, num.z, num.t])) l st = .ok st' ∧ I st'.1 ∧ st'.2.length = st.2.length ∧
      ∀ i j k c, i < num.r → j < num.z → k < num.t → c < 2 → StencilIn kn Q (posR s e num i) (posZ s e num j) (posT s e num k) → st'.2.getD (outPos num i j k c) 0 =
        if ∃ m ∈ l, m.ctype = .specified ∧ OnSample s e num m i j k then interpAt kn (A c) (posR s e num i) (posZ s e num j) (posT s e num k) else st.2.getD (outPos num i j k c) 0 := by
  intro l
  induction l with
  | nil => intro _ _ st hI _; exact ⟨st, rfl, hI, rfl, fun i j k c _ _ _ _ _ => by rw [if_neg (by simp)]⟩
  | cons m l ih =>
    intro h1 h2 st hI hb
    obtain ⟨s1, e1, i1, l1, v1⟩ := fillChunk_ok hL hk hR (h1 m (by simp)).1 (h1 m (by simp)).2 (h2 m (by simp)) hI hb
    obtain ⟨s2, e2, i2, l2, v2⟩ := ih (fun q hq => h1 q (by simp [hq])) (fun q hq => h2 q (by simp [hq])) s1 i1 (l1.trans hb)
    refine ⟨s2, by rw [runLoop, e1]; exact e2, i2, l2.trans l1, fun i j k c hi hj hk' hc hP => ?_⟩
    rw [v2 i j k c hi hj hk' hc hP, v1 i j k c hi hj hk' hc hP]
    by_cases q1 : ∃ m ∈ l, m.ctype = .specified ∧ OnSample s e num m i j k
    · obtain ⟨m', g1, g2⟩ := q1
      rw [if_pos ⟨m', g1, g2⟩, if_pos ⟨m', by simp [g1], g2⟩]
    · rw [if_neg q1]
      by_cases q2 : m.ctype = .specified ∧ OnSample s e num m i j k
      · rw [if_pos q2, if_pos ⟨m, by simp, q2⟩]
      · rw [if_neg q2, if_neg]
        rintro ⟨m', g1, g2⟩
        rcases List.mem_cons.1 g1 with rfl | g1
        · exact q2 g2
        · exact q1 ⟨m', g1, g2⟩

end

end Verif.Green
