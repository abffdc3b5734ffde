import Verif.Array.Props3
import Mathlib.Algebra.Field.Basic
import Mathlib.Algebra.Order.Field.Basic
import Mathlib.Algebra.Order.Floor.Ring
import Mathlib.Algebra.BigOperators.Group.List.Basic
import Mathlib.Algebra.BigOperators.Intervals
import Mathlib.Algebra.BigOperators.Ring.Finset
import Mathlib.Tactic.Ring
import Mathlib.Tactic.Linarith
/-
Model of eisvogel/core/impl/Interpolation.hh and Interpolation.hxx.

`scalar_t` (`float`) is modelled by an ordered field `K` with a floor function, i.e. arithmetic is exact;
`std::modf`, the conversions to `std::size_t`, the index arithmetic in `std::size_t` and the accesses to memory are
modelled as they are.
-/
namespace Verif.Green
open Verif Verif.ND

set_option linter.unusedSectionVars false

variable {K : Type} [Field K] [LinearOrder K] [IsStrictOrderedRing K] [FloorRing K]

/-! ### The program -/

/-- Interpolation.hh 7-20: a kernel struct with its `support` and the function `kern`, which writes the `2 * support` weights. -/
structure Kern (K : Type) where
  support : Nat
  kern : K → Res (List K)

/-- Interpolation.hxx 5-11 `Kernel::Linear` (support 1). -/
def linear : Kern K where
  support := 1
  kern f := (Res.assert (decide (0 ≤ f) && decide (f < 1))).bind fun _ => .ok [1 - f, f]

/-- Interpolation.hxx 13-60 `Kernel::Keys` (support 2); `s7` is the value the compiler uses for `std::sqrt(7.0)`. -/
def keys (s7 : K) : Kern K where
  support := 2
  kern f :=
    (Res.assert (decide (0 ≤ f) && decide (f < 1))).bind fun _ =>
    let p1_1 := -(1 / 2) * f
    let p1_2 := f - 1
    let p1_3 := p1_1 * p1_2
    let c2_1 := (1 - s7) / 3
    let p2_1 := f - c2_1
    let c2_2 := (1 + s7) / 3
    let p2_2 := f - c2_2
    let p2_3 := f - 1
    let p2_4 := p2_2 * p2_3
    let c2_5 := 3 / 2
    let p2_5 := c2_5 * p2_1
    let c3_1 := 1 / 3 * (2 - s7)
    let p3_1 := f - c3_1
    let c3_2 := 1 / 3 * (2 + s7)
    let p3_2 := f - c3_2
    let p3_3 := p3_1 * p3_2
    let c3_4 := -(3 / 2)
    let p3_4 := f * c3_4
    let p4_1 := f - 1
    let p4_2 := f * f
    let c4_3 := 1 / 2
    let p4_3 := p4_1 * c4_3
    .ok [p1_3 * p1_2, p2_5 * p2_4, p3_3 * p3_4, p4_3 * p4_2]

/-- `std::modf(x, &tmp)`: the integer part (rounded towards zero) and the rest. -/
def modf (x : K) : Int × K :=
  let n : Int := if 0 ≤ x then ⌊x⌋ else ⌈x⌉
  (n, x - n)

/-- The conversion of an integral floating-point number to `std::size_t`; undefined if the value does not fit. -/
def toSize (n : Int) : Res Nat := if 0 ≤ n ∧ n < (U64 : Int) then .ok n.toNat else .ub

/-- Interpolation.hxx 65-80 `interpolate_1d`; `pos` is the position of `data` in the buffer of the array. -/
def interp1d (vd : Nat) (kernel : List K) (buf : List K) (pos : Nat) : Res (List K) :=
  if pos + vd * kernel.length ≤ buf.length then
    .ok ((List.range vd).map fun j => ((List.range kernel.length).map fun i => kernel.getD i 0 * buf.getD (pos + (vd * i + j)) 0).sum)
  else .ub

/-- Interpolation.hxx 145-180: one turn of the loop over the samples. `col` is the position of `column_start`; if `inner_int - ind_offset`
    wraps around, the resulting pointer lies outside of the buffer. -/
def sampleStep (kn : Kern K) (vd : Nat) (buf : List K) (col : Nat) (w : K) (start delta : K) (hr : Hdr) (k : Nat) (ret : List K) : Res (List K) :=
  let m := modf (start + k * delta)
  (toSize m.1).bind fun inner =>
  (kn.kern m.2).bind fun ker =>
  (interp1d vd ker buf (col + vd * wsub inner (kn.support - 1))).bind fun v =>
  (read1 vd hr ret k).bind fun old =>
  copyN (List.zipWith (fun o x => o + x * w) old v) 0 vd ret (vd * k)

/-- Interpolation.hxx 134-135: the values of the loop `for(i = o - ind_offset; i < o - ind_offset + ksize; i++)`. -/
def columns (support o : Nat) : List Nat :=
  let lo := wsub o (support - 1)
  List.range' lo (wadd lo (2 * support) - lo)

/-- Interpolation.hxx 82-183 `interpolate(arr, retval, outer_inds, inner_ind_start, inner_ind_delta, num_samples)` for a three-dimensional array
    `(h, buf)` and a one-dimensional output array `(hr, ret)`; `x`, `y` are the `outer_inds`. -/
def interpolate (kn : Kern K) (vd : Nat) (h : Hdr) (buf : List K) (hr : Hdr) (ret : List K) (x y start delta : K) (n : Nat) (junk : Nat → K) :
    Res (Hdr × List K) :=
  (resize vd hr ret [n] junk).bind fun r =>
  (toSize (modf x).1).bind fun o0 =>
  (toSize (modf y).1).bind fun o1 =>
  (kn.kern (modf x).2).bind fun k0 =>
  (kn.kern (modf y).2).bind fun k1 =>
  (runLoop (fun i1 ret => runLoop (fun i2 ret =>
      let col := flatInd h [i1, i2, 0]
      let w := k0.getD (wsub i1 (wsub o0 (kn.support - 1))) 0 * k1.getD (wsub i2 (wsub o1 (kn.support - 1))) 0
      runLoop (sampleStep kn vd buf col w start delta r.1) (List.range n) ret)
    (columns kn.support o1) ret) (columns kn.support o0) r.2).bind fun d => .ok (r.1, d)

/-! ### Specification -/

/-- Weight number `a` of the kernel at the fractional position `f`. -/
def Kern.weight (kn : Kern K) (f : K) (a : Nat) : K :=
  match kn.kern f with
  | .ok w => w.getD a 0
  | _ => 0

/-- The kernel can be evaluated at every fractional position and gives `2 * support` weights; at an integer position, the last of them is zero. -/
structure Kern.Usable (kn : Kern K) : Prop where
  support : 0 < kn.support
  small : kn.support < 2 ^ 32
  total : ∀ f : K, 0 ≤ f → f < 1 → ∃ w, kn.kern f = .ok w ∧ w.length = 2 * kn.support
  last : kn.weight 0 (2 * kn.support - 1) = 0

/-- The kernel interpolation of a function `G` on the integer grid at the point `(x, y, t)`: the weighted sum of the values of `G` at the
    `(2 * support)^3` grid points around it. -/
def interpAt (kn : Kern K) (G : Int → Int → Int → K) (x y t : K) : K :=
  ∑ a ∈ Finset.range (2 * kn.support), ∑ b ∈ Finset.range (2 * kn.support), ∑ c ∈ Finset.range (2 * kn.support),
    kn.weight (Int.fract x) a * kn.weight (Int.fract y) b * kn.weight (Int.fract t) c *
      G (⌊x⌋ - (kn.support - 1 : Int) + a) (⌊y⌋ - (kn.support - 1 : Int) + b) (⌊t⌋ - (kn.support - 1 : Int) + c)

/-- Component `j` of the element with index `ind` of an array. -/
def component (vd : Nat) (h : Hdr) (buf : List K) (j : Nat) (i1 i2 i3 : Int) : K :=
  match read vd h buf [i1.toNat, i2.toNat, i3.toNat] with
  | .ok v => v.getD j 0
  | _ => 0

/-- Along an axis of extent `s`, all grid points the kernel needs at position `x` exist. -/
def Inside (support : Nat) (s : Nat) (x : K) : Prop := (support : Int) - 1 ≤ ⌊x⌋ ∧ ⌊x⌋ + support < s

/-- A sample at the integer position `t` that is just too far for the kernel: one grid point past the end of the last axis would be needed, with weight zero.
    What is read instead is the beginning of the next row of the array, which exists unless the interpolation uses the very last row. -/
def AtEnd (support : Nat) (s0 s1 s2 : Nat) (x y t : K) : Prop :=
  (support : Int) - 1 ≤ ⌊t⌋ ∧ Int.fract t = 0 ∧ ⌊t⌋ + support = s2 ∧ (⌊x⌋ + support + 1 < s0 ∨ ⌊y⌋ + support + 1 < s1)

/-! ### Lemmas -/

theorem linear_usable : (linear (K := K)).Usable where
  support := Nat.one_pos
  small := by show (1 : Nat) < 2 ^ 32; decide
  total f h0 h1 := ⟨[1 - f, f], by simp [linear, h0, h1], rfl⟩
  last := by simp [linear, Kern.weight]

theorem keys_usable (s7 : K) : (keys s7).Usable where
  support := by simp [keys]
  small := by simp [keys]
  total f h0 h1 := by
    have h : Res.assert (decide (0 ≤ f) && decide (f < 1)) = .ok () := by simp [h0, h1]
    simp only [keys, h, Res.ok_bind]
    exact ⟨_, rfl, rfl⟩
  last := by simp [keys, Kern.weight]

theorem sum_range_list (n : Nat) (f : Nat → K) : ((List.range n).map f).sum = ∑ i ∈ Finset.range n, f i := by
  induction n with
  | zero => simp
  | succ n ih => rw [List.range_succ, Finset.sum_range_succ, List.map_append, List.sum_append, ih]; simp

theorem sum_range'_list (lo n : Nat) (f : Nat → K) : ((List.range' lo n).map f).sum = ∑ i ∈ Finset.range n, f (lo + i) := by
  rw [List.range'_eq_map_range, List.map_map, ← sum_range_list]; rfl

/-- A loop whose turns each add something to every element of a buffer. -/
theorem runLoop_add {ι : Type} (f : ι → List K → Res (List K)) (g : ι → Nat → K) (N : Nat) (l : List ι)
    (step : ∀ i ∈ l, ∀ s : List K, s.length = N →
      ∃ s', f i s = .ok s' ∧ s'.length = N ∧ ∀ p, p < N → s'.getD p 0 = s.getD p 0 + g i p) :
    ∀ s : List K, s.length = N → ∃ s', runLoop f l s = .ok s' ∧ s'.length = N ∧
      ∀ p, p < N → s'.getD p 0 = s.getD p 0 + (l.map (g · p)).sum := by
  induction l with
  | nil => intro s hs; exact ⟨s, rfl, hs, by simp⟩
  | cons i l ih =>
    intro s hs
    obtain ⟨s1, h1, l1, e1⟩ := step i (by simp) s hs
    obtain ⟨s2, h2, l2, e2⟩ := ih (fun i hi => step i (by simp [hi])) s1 l1
    refine ⟨s2, by rw [runLoop, h1]; exact h2, l2, fun p hp => ?_⟩
    rw [e2 p hp, e1 p hp, List.map_cons, List.sum_cons]; ring

theorem modf_nonneg {x : K} (h : 0 ≤ x) : modf x = (⌊x⌋, Int.fract x) := by
  simp only [modf, if_pos h]; rfl

theorem toSize_ok {n : Int} (h0 : 0 ≤ n) (h1 : n < (U64 : Int)) : toSize n = .ok n.toNat := by
  unfold toSize; rw [if_pos ⟨h0, h1⟩]

theorem Inside.nonneg {support s : Nat} {x : K} (hp : 0 < support) (h : Inside support s x) : 0 ≤ x := by
  have : (0 : Int) ≤ ⌊x⌋ := by have := h.1; omega
  exact Int.floor_nonneg.1 this

theorem weight_of {kn : Kern K} {f : K} {w : List K} (h : kn.kern f = .ok w) (a : Nat) : kn.weight f a = w.getD a 0 := by
  simp [Kern.weight, h]

theorem flat3 (vd s0 s1 s2 i j k : Nat) : flatInd (mkHdr vd [s0, s1, s2]) [i, j, k] = ((i * s1 + j) * s2 + k) * vd := by
  simp [flatInd, mkHdr, computeStrides, stridesAux]; ring

theorem volume3 (vd s0 s1 s2 : Nat) : volume vd [s0, s1, s2] = s0 * s1 * s2 * vd := by
  simp [volume, numElems]

theorem flat3_lt {vd s0 s1 s2 i j k : Nat} (hi : i < s0) (hj : j < s1) (hk : k < s2) :
    ((i * s1 + j) * s2 + k) * vd + vd ≤ s0 * s1 * s2 * vd := by
  have h1 : i * s1 + j + 1 ≤ s0 * s1 := by
    calc i * s1 + j + 1 ≤ i * s1 + s1 := by omega
      _ = (i + 1) * s1 := by ring
      _ ≤ s0 * s1 := Nat.mul_le_mul_right _ hi
  have h2 : (i * s1 + j) * s2 + k + 1 ≤ s0 * s1 * s2 := by
    calc (i * s1 + j) * s2 + k + 1 ≤ (i * s1 + j) * s2 + s2 := by omega
      _ = (i * s1 + j + 1) * s2 := by ring
      _ ≤ s0 * s1 * s2 := Nat.mul_le_mul_right _ h1
  calc ((i * s1 + j) * s2 + k) * vd + vd = ((i * s1 + j) * s2 + k + 1) * vd := by ring
    _ ≤ _ := Nat.mul_le_mul_right _ h2

/-- In an owned array, a component is the corresponding scalar of the buffer. -/
theorem component_eq {vd s0 s1 s2 : Nat} {buf : List K} (hl : buf.length = volume vd [s0, s1, s2]) {i j k : Nat} (hi : i < s0) (hj : j < s1)
    (hk : k < s2) {c : Nat} (hc : c < vd) :
    component vd (mkHdr vd [s0, s1, s2]) buf c i j k = buf.getD (((i * s1 + j) * s2 + k) * vd + c) 0 := by
  have := flat3_lt (vd := vd) hi hj hk
  rw [volume3] at hl
  unfold component ND.read
  rw [Int.toNat_natCast, Int.toNat_natCast, Int.toNat_natCast, flat3]
  have hh : hasIndex (mkHdr vd [s0, s1, s2]).shape [i, j, k] = true := by simp [hasIndex, mkHdr, hi, hj, hk]
  rw [if_pos hh, if_pos (by omega)]
  simp only
  rw [List.getD_eq_getElem?_getD, List.getElem?_take_of_lt hc, List.getElem?_drop, List.getD_eq_getElem?_getD]

theorem columns_eq {support s : Nat} {x : K} (hp : 0 < support) (hs : s < U64) (h : Inside support s x) :
    wsub ⌊x⌋.toNat (support - 1) = (⌊x⌋ - (support - 1 : Int)).toNat ∧
    columns support ⌊x⌋.toNat = List.range' (⌊x⌋ - (support - 1 : Int)).toNat (2 * support) := by
  have h1 := h.1
  have h2 := h.2
  have e : wsub ⌊x⌋.toNat (support - 1) = (⌊x⌋ - (support - 1 : Int)).toNat := by
    rw [wsub_eq (by omega) (by omega)]; omega
  refine ⟨e, ?_⟩
  unfold columns
  rw [e]
  simp only
  rw [wadd_eq (by omega)]
  congr 1
  omega

theorem mod_div_of {vd k j : Nat} (hj : j < vd) : (vd * k + j) / vd = k ∧ (vd * k + j) % vd = j := by
  have hv : 0 < vd := by omega
  constructor
  · rw [Nat.add_comm, Nat.add_mul_div_left _ _ hv, Nat.div_eq_of_lt hj, Nat.zero_add]
  · rw [Nat.add_comm, Nat.add_mul_mod_self_left, Nat.mod_eq_of_lt hj]

/-- One turn of the sample loop. -/
theorem sampleStep_ok {kn : Kern K} (hk : kn.Usable) {vd s0 s1 s2 : Nat} (hv : 0 < vd) {buf : List K} (hl : buf.length = volume vd [s0, s1, s2])
    (hs2 : s2 < U64) {i1 i2 : Nat} (h1 : i1 < s0) (h2 : i2 < s1) (w start delta : K) {n k : Nat} (hkn : k < n)
    (hin : Inside kn.support s2 (start + k * delta) ∨ ((kn.support : Int) - 1 ≤ ⌊start + k * delta⌋ ∧ Int.fract (start + k * delta) = 0 ∧
      ⌊start + k * delta⌋ + kn.support = s2 ∧ (i1 + 1 < s0 ∨ i2 + 1 < s1))) (ret : List K) (hr : ret.length = n * vd) :
    ∃ ret', sampleStep kn vd buf (flatInd (mkHdr vd [s0, s1, s2]) [i1, i2, 0]) w start delta (mkHdr vd [n]) k ret = .ok ret' ∧
      ret'.length = n * vd ∧
      ∀ p, p < n * vd → ret'.getD p 0 = ret.getD p 0 + if p / vd = k then
        (∑ c ∈ Finset.range (2 * kn.support), kn.weight (Int.fract (start + k * delta)) c *
          component vd (mkHdr vd [s0, s1, s2]) buf (p % vd) i1 i2 (⌊start + k * delta⌋ - (kn.support - 1 : Int) + c)) * w else 0 := by
  set t := start + k * delta with ht
  have hp := hk.support
  obtain ⟨ker, hker, hlen⟩ := hk.total (Int.fract t) (Int.fract_nonneg t) (Int.fract_lt_one t)
  have a1 : (kn.support : Int) - 1 ≤ ⌊t⌋ := by
    rcases hin with h | h <;> exact h.1
  have a2 : ⌊t⌋ + kn.support ≤ s2 := by
    rcases hin with h | h
    · have := h.2; omega
    · have := h.2.2.1; omega
  have hn0 : 0 ≤ t := Int.floor_nonneg.1 (by omega)
  unfold sampleStep
  rw [← ht, modf_nonneg hn0]
  simp only
  rw [toSize_ok (by omega) (by omega)]
  simp only [Res.ok_bind, hker]
  rw [wsub_eq (by omega) (by omega)]
  set lo := (⌊t⌋ - (kn.support - 1 : Int)).toNat with hlo
  have elo : ⌊t⌋.toNat - (kn.support - 1) = lo := by omega
  rw [elo, flat3]
  have hb : ((i1 * s1 + i2) * s2 + 0) * vd + vd * lo + vd * ker.length ≤ buf.length := by
    rw [hl, volume3, hlen]
    have base : ((i1 * s1 + i2) * s2 + 0) * vd + vd * lo + vd * (2 * kn.support) = ((i1 * s1 + i2) * s2 + (lo + 2 * kn.support)) * vd := by ring
    rw [base]
    apply Nat.mul_le_mul_right
    rcases hin with h | h
    · have h2' := h.2
      have := flat3_lt (vd := 1) (i := i1) (j := i2) (k := lo + 2 * kn.support - 1) h1 h2 (s2 := s2) (by omega)
      simp only [Nat.mul_one] at this
      omega
    · have e := h.2.2.1
      have e' : lo + 2 * kn.support = s2 + 1 := by omega
      have hs : 0 < s2 := by omega
      rw [e']
      have e2 : (i1 * s1 + i2) * s2 + (s2 + 1) = (i1 * s1 + i2 + 1) * s2 + 1 := by ring
      rw [e2]
      rcases h.2.2.2 with hlt | hlt
      · by_cases h3 : i2 + 1 < s1
        · have := flat3_lt (vd := 1) (i := i1) (j := i2 + 1) (k := 0) h1 h3 (s2 := s2) hs
          simp only [Nat.mul_one, ← Nat.add_assoc] at this
          exact this
        · have := flat3_lt (vd := 1) (i := i1 + 1) (j := 0) (k := 0) hlt (s1 := s1) (by omega) (s2 := s2) hs
          simp only [Nat.mul_one, Nat.add_zero] at this
          have e4 : i1 * s1 + i2 + 1 = (i1 + 1) * s1 := by
            have : i2 + 1 = s1 := by omega
            rw [Nat.add_assoc, this]; ring
          rw [e4]; exact this
      · have := flat3_lt (vd := 1) (i := i1) (j := i2 + 1) (k := 0) h1 hlt (s2 := s2) hs
        simp only [Nat.mul_one, ← Nat.add_assoc] at this
        exact this
  unfold interp1d
  rw [if_pos hb]
  simp only [Res.ok_bind]
  have hkv : vd * k + vd ≤ n * vd := by
    calc vd * k + vd = (k + 1) * vd := by ring
      _ ≤ n * vd := Nat.mul_le_mul_right _ hkn
  unfold read1
  rw [if_pos (by simp [hasIndex, mkHdr, hkn]), if_pos (by omega)]
  simp only [Res.ok_bind]
  unfold copyN
  rw [if_pos (by simp; omega)]
  refine ⟨_, rfl, by simp; omega, fun p hpn => ?_⟩
  have hpv : p / vd * vd + p % vd = p := by rw [Nat.mul_comm]; exact Nat.div_add_mod p vd
  have hpm : p % vd < vd := Nat.mod_lt _ hv
  by_cases hpk : p / vd = k
  · rw [if_pos hpk]
    have ep : p = vd * k + p % vd := by rw [← hpk, Nat.mul_comm]; exact hpv.symm
    have hlt : (ret.take (vd * k)).length = vd * k := by simp; omega
    rw [List.append_assoc, List.getD_eq_getElem?_getD, List.getElem?_append_right (by omega), hlt]
    have e2 : p - vd * k = p % vd := by omega
    rw [e2, List.getElem?_append_left (by simp; omega)]
    rw [List.getElem?_take_of_lt hpm, List.getElem?_drop, Nat.zero_add, List.getElem?_zipWith]
    rw [List.getElem?_take_of_lt hpm, List.getElem?_drop, ← ep, List.getElem?_map, List.getElem?_range hpm]
    have hpr : p < ret.length := by omega
    rw [List.getElem?_eq_getElem hpr, List.getD_eq_getElem?_getD, List.getElem?_eq_getElem hpr]
    simp only [Option.map_some, Option.getD_some]
    congr 2
    rw [sum_range_list, hlen]
    apply Finset.sum_congr rfl
    intro c hc
    have hc := Finset.mem_range.1 hc
    by_cases hlast : lo + c < s2
    · rw [weight_of hker]
      congr 1
      have e3 : ⌊t⌋ - (kn.support - 1 : Int) + c = ((lo + c : Nat) : Int) := by push_cast; omega
      rw [e3, component_eq hl h1 h2 hlast hpm]
      congr 1
      ring
    · have hz : kn.weight (Int.fract t) c = 0 := by
        rcases hin with h | h
        · have := h.2; omega
        · have e := h.2.2.1
          have ec : c = 2 * kn.support - 1 := by omega
          rw [h.2.1, ec]; exact hk.last
      rw [hz, zero_mul, ← weight_of hker, hz, zero_mul]
  · rw [if_neg hpk, add_zero (ret.getD p 0)]
    rcases Nat.lt_or_gt_of_ne hpk with hlt | hgt
    · have : p < vd * k := by
        have : (p / vd + 1) * vd ≤ k * vd := Nat.mul_le_mul_right _ hlt
        have e : (p / vd + 1) * vd = p / vd * vd + vd := by ring
        have e' : k * vd = vd * k := Nat.mul_comm _ _
        omega
      rw [List.append_assoc, List.getD_eq_getElem?_getD, List.getElem?_append_left (by simp; omega), List.getElem?_take_of_lt this,
        List.getD_eq_getElem?_getD]
    · have : vd * k + vd ≤ p := by
        have : (k + 1) * vd ≤ p / vd * vd := Nat.mul_le_mul_right _ hgt
        have e : (k + 1) * vd = vd * k + vd := by ring
        omega
      rw [List.getD_eq_getElem?_getD, List.getElem?_append_right (by simp; omega), List.getElem?_drop, List.getD_eq_getElem?_getD]
      congr 2
      simp only [List.length_append, List.length_take, List.length_drop, List.length_zipWith, List.length_map, List.length_range]
      have q1 : min (vd * k) ret.length = vd * k := by omega
      have q2 : min vd (min (min vd (ret.length - vd * k)) vd - 0) = vd := by omega
      rw [q1, q2]
      omega

/-- If all needed grid points exist, `interpolate` adds the kernel interpolation of the array's components to the output. -/
theorem interpolate_ok {kn : Kern K} (hk : kn.Usable) {vd s0 s1 s2 : Nat} (hv : 0 < vd) {buf : List K} (hl : buf.length = volume vd [s0, s1, s2])
    (hs0 : s0 < U64) (hs1 : s1 < U64) (hs2 : s2 < U64) {hr : Hdr} (hown : hr.owns = true) (ret : List K) (x y start delta : K) (n : Nat)
    (junk : Nat → K) (hx : Inside kn.support s0 x) (hy : Inside kn.support s1 y)
    (ht : ∀ k : Nat, k < n → Inside kn.support s2 (start + k * delta) ∨ AtEnd kn.support s0 s1 s2 x y (start + k * delta)) :
    ∃ d, interpolate kn vd (mkHdr vd [s0, s1, s2]) buf hr ret x y start delta n junk = .ok (mkHdr vd [n], d) ∧ d.length = n * vd ∧
      ∀ k j : Nat, k < n → j < vd → d.getD (vd * k + j) 0 =
        ret.getD (vd * k + j) (junk (vd * k + j)) + interpAt kn (component vd (mkHdr vd [s0, s1, s2]) buf j) x y (start + k * delta) := by
  have hp := hk.support
  have hsm := hk.small
  have hU : U64 = 2 ^ 64 := rfl
  obtain ⟨k0, hk0, l0⟩ := hk.total (Int.fract x) (Int.fract_nonneg x) (Int.fract_lt_one x)
  obtain ⟨k1, hk1, l1⟩ := hk.total (Int.fract y) (Int.fract_nonneg y) (Int.fract_lt_one y)
  unfold interpolate
  have hres : resize vd hr ret [n] junk = .ok (mkHdr vd [n], (List.range (n * vd)).map fun k => ret.getD k (junk k)) := by
    simp [resize, hown, mkHdr, volume, numElems]
  rw [hres]
  simp only [Res.ok_bind]
  rw [modf_nonneg (hx.nonneg hp), modf_nonneg (hy.nonneg hp)]
  simp only
  have x1 := hx.1
  have x2 := hx.2
  have y1 := hy.1
  have y2 := hy.2
  rw [toSize_ok (n := ⌊x⌋) (by omega) (by omega), toSize_ok (n := ⌊y⌋) (by omega) (by omega)]
  simp only [Res.ok_bind, hk0, hk1]
  obtain ⟨ex, cx⟩ := columns_eq hp hs0 hx
  obtain ⟨ey, cy⟩ := columns_eq hp hs1 hy
  rw [cx, cy, ex, ey]
  set lx := (⌊x⌋ - (kn.support - 1 : Int)).toNat with hlx
  set ly := (⌊y⌋ - (kn.support - 1 : Int)).toNat with hly
  -- what one turn of each loop adds
  let T : Nat → Nat → Nat → K := fun i1 i2 p => ∑ c ∈ Finset.range (2 * kn.support), kn.weight (Int.fract (start + (p / vd : Nat) * delta)) c *
          component vd (mkHdr vd [s0, s1, s2]) buf (p % vd) i1 i2 (⌊start + (p / vd : Nat) * delta⌋ - (kn.support - 1 : Int) + c)
  let W : Nat → Nat → K := fun i1 i2 => k0.getD (wsub i1 lx) 0 * k1.getD (wsub i2 ly) 0
  have L1 : ∀ i1 ∈ List.range' lx (2 * kn.support), ∀ i2 ∈ List.range' ly (2 * kn.support), ∀ s : List K, s.length = n * vd →
      ∃ s', runLoop (sampleStep kn vd buf (flatInd (mkHdr vd [s0, s1, s2]) [i1, i2, 0]) (W i1 i2) start delta (mkHdr vd [n])) (List.range n) s = .ok s' ∧
        s'.length = n * vd ∧ ∀ p, p < n * vd → s'.getD p 0 = s.getD p 0 + T i1 i2 p * W i1 i2 := by
    intro i1 hi1 i2 hi2 s hs
    simp only [List.mem_range'_1] at hi1 hi2
    obtain ⟨s', e1, e2, e3⟩ := runLoop_add _ (fun k p => if p / vd = k then
        (∑ c ∈ Finset.range (2 * kn.support), kn.weight (Int.fract (start + k * delta)) c *
          component vd (mkHdr vd [s0, s1, s2]) buf (p % vd) i1 i2 (⌊start + k * delta⌋ - (kn.support - 1 : Int) + c)) * W i1 i2 else 0) (n * vd)
      (List.range n) (fun k hk' s hs => sampleStep_ok hk hv hl hs2 (by omega) (by omega) (W i1 i2) start delta
        (List.mem_range.1 hk') ((ht k (List.mem_range.1 hk')).imp_right fun h => ⟨h.1, h.2.1, h.2.2.1, by
          rcases h.2.2.2 with h | h
          · left; omega
          · right; omega⟩) s hs) s hs
    refine ⟨s', e1, e2, fun p hp' => ?_⟩
    rw [e3 p hp', sum_range_list]
    congr 1
    have hpn : p / vd < n := by rw [Nat.div_lt_iff_lt_mul hv]; exact hp'
    rw [Finset.sum_ite_eq, if_pos (Finset.mem_range.2 hpn)]
  have L2 : ∀ i1 ∈ List.range' lx (2 * kn.support), ∀ s : List K, s.length = n * vd →
      ∃ s', runLoop (fun i2 ret => runLoop (sampleStep kn vd buf (flatInd (mkHdr vd [s0, s1, s2]) [i1, i2, 0]) (W i1 i2) start delta (mkHdr vd [n])) (List.range n) ret)
          (List.range' ly (2 * kn.support)) s = .ok s' ∧
        s'.length = n * vd ∧ ∀ p, p < n * vd → s'.getD p 0 = s.getD p 0 + ((List.range' ly (2 * kn.support)).map fun i2 => T i1 i2 p * W i1 i2).sum :=
    fun i1 hi1 s hs => runLoop_add _ (fun i2 p => T i1 i2 p * W i1 i2) (n * vd) _ (L1 i1 hi1) s hs
  obtain ⟨d, e1, e2, e3⟩ := runLoop_add _ (fun i1 p => ((List.range' ly (2 * kn.support)).map fun i2 => T i1 i2 p * W i1 i2).sum) (n * vd) _ L2
    ((List.range (n * vd)).map fun k => ret.getD k (junk k)) (by simp)
  refine ⟨d, ?_, e2, fun k j hkn hj => ?_⟩
  · rw [e1]; rfl
  · have hkj : vd * k + j < n * vd := by
      have : (k + 1) * vd ≤ n * vd := Nat.mul_le_mul_right _ hkn
      have e : (k + 1) * vd = vd * k + vd := by ring
      omega
    rw [e3 _ hkj]
    congr 1
    · rw [List.getD_eq_getElem?_getD, List.getElem?_map, List.getElem?_range hkj]; rfl
    · obtain ⟨d1, d2⟩ := mod_div_of (k := k) hj
      unfold interpAt
      rw [sum_range'_list]
      apply Finset.sum_congr rfl
      intro a ha
      have ha := Finset.mem_range.1 ha
      rw [sum_range'_list]
      apply Finset.sum_congr rfl
      intro b hb
      have hb := Finset.mem_range.1 hb
      simp only [T, W, d1, d2]
      rw [Finset.sum_mul]
      apply Finset.sum_congr rfl
      intro c _
      rw [wsub_eq (by omega) (by omega), wsub_eq (by omega) (by omega), weight_of hk0, weight_of hk1]
      have q1 : lx + a - lx = a := by omega
      have q2 : ly + b - ly = b := by omega
      have q3 : ((lx + a : Nat) : Int) = ⌊x⌋ - (kn.support - 1 : Int) + a := by push_cast; omega
      have q4 : ((ly + b : Nat) : Int) = ⌊y⌋ - (kn.support - 1 : Int) + b := by push_cast; omega
      rw [q1, q2, q3, q4]
      ring

end Verif.Green
