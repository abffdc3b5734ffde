import Verif.Meep.Overlap
/-
Model of the choice of the stored region (MEEPCylindricalGreensFunctionCalculator.hxx 533-561), and C55.
-/
namespace Verif.Meep
open Verif Verif.ND Verif.Dist Verif.Tree Verif.Ops

/-! ### The program -/

/-- Vector.hh 201-206, `Vector / number`; division by zero is undefined. -/
def vdivS (a : List Nat) (s : Nat) : Res (List Nat) := if s = 0 then .ub else .ok (a.map (· / s))

/-- Vector.hh 194-199, `Vector * number`. -/
def vmulS (a : List Nat) (s : Nat) : List Nat := a.map fun x => x * s % U64

/-- Vector.hxx 74-85 `VectorUtils::min(vector, number)`. -/
def vminS (a : List Nat) (s : Nat) : List Nat := a.map fun x => if x < s then x else s

/-- Vector.hh 112-119 `operator>=`. -/
def vge : List Nat → List Nat → Bool
  | a :: as, b :: bs => if a < b then false else vge as bs
  | _, _ => true

/-- The result of lines 533-561: the padding at both ends (after downsampling) and the padded storage domain. -/
structure Padded where
  pre : List Nat
  post : List Nat
  start : List Nat
  shape : List Nat

/-- Lines 516 and 533-561 for the calculation domain `cal`, the storage domain `[start, start + shape)`, the factor `ds` and the requested padding `pad`. -/
def padDomain (cal start shape : List Nat) (ds pad : Nat) : Res Padded :=
  (vdivS start ds).bind fun q1 =>
  (vdivS (vsub cal (vadd start shape)) ds).bind fun q2 =>
  (Res.assert (vge start (vmulS (vminS q1 pad) ds))).bind fun _ =>
  (Res.assert (vge cal (vadd (vadd start shape) (vmulS (vminS q2 pad) ds)))).bind fun _ =>
  (getDownsampledShape (start.map fun _ => 0) (vadd shape (vmulS (vadd (vminS q1 pad) (vminS q2 pad)) ds)) (start.map fun _ => ds)).bind fun s1 =>
  (getDownsampledShape (start.map fun _ => 0) shape (start.map fun _ => ds)).bind fun s2 =>
  (Res.assert (decide (s1 = vadd (vadd s2 (vminS q1 pad)) (vminS q2 pad)))).bind fun _ =>
  .ok ⟨vminS q1 pad, vminS q2 pad, vsub start (vmulS (vminS q1 pad) ds), vadd shape (vmulS (vadd (vminS q1 pad) (vminS q2 pad)) ds)⟩

/-! ### Specification -/

/-- A non-empty storage domain in a calculation domain; everything fits, also with one factor more. -/
structure DomOk (n : Nat) (cal start shape : List Nat) (ds : Nat) : Prop where
  len : start.length = n ∧ shape.length = n ∧ cal.length = n
  pos : 0 < ds
  ne : ∀ d < n, 0 < shape.getD d 0
  le : ∀ d < n, start.getD d 0 + shape.getD d 0 ≤ cal.getD d 0
  lt : ∀ d < n, cal.getD d 0 + ds < 2 ^ 62

/-- The padding `p` is the largest that is requested and for which there is room. -/
def Largest (p pad ds room : Nat) : Prop := p ≤ pad ∧ p * ds ≤ room ∧ ∀ q, q ≤ pad → q * ds ≤ room → q ≤ p

/-! ### Proof -/

theorem vge_of_le : ∀ {a b : List Nat}, a.length = b.length → (∀ d < a.length, b.getD d 0 ≤ a.getD d 0) → vge a b = true
  | [], [], _, _ => rfl
  | x :: a, y :: b, hl, h => by
      have h0 : y ≤ x := by simpa using h 0 (by simp)
      show (if x < y then false else vge a b) = true
      rw [if_neg (by omega)]
      exact vge_of_le (by simpa using hl) fun d hd => by simpa using h (d + 1) (by simp; omega)
  | [], _ :: _, hl, _ => by cases hl
  | _ :: _, [], hl, _ => by cases hl

theorem shape_from_zero {n ds : Nat} {z shape : List Nat} (hz : z.length = n) (hs : shape.length = n) (hp : 0 < ds) (hne : ∀ d < n, 0 < shape.getD d 0)
    (hlt : ∀ d < n, shape.getD d 0 + ds < 2 ^ 64) :
    ∃ s, getDownsampledShape (z.map fun _ => 0) shape (z.map fun _ => ds) = .ok s ∧ s.length = n ∧ ∀ d < n, s.getD d 0 = (shape.getD d 0 + ds - 1) / ds := by
  have g0 : ∀ d < n, (z.map fun _ => 0).getD d 0 = 0 := fun d hd => getD_mapN (f := fun _ => 0) (by omega)
  have gd : ∀ d < n, (z.map fun _ => ds).getD d 0 = ds := fun d hd => getD_mapN (f := fun _ => ds) (by omega)
  have hok : DsOk (z.map fun _ => 0) shape (z.map fun _ => ds) := by
    refine ⟨by simp; omega, fun d hd => ?_, fun d hd => ?_, fun d hd => ?_⟩
    · rw [gd d (by omega)]; exact hp
    · rw [gd d (by omega), g0 d (by omega)]; have := hlt d (by omega); omega
    · rw [g0 d (by omega)]; have := hne d (by omega); omega
  have la : (addVec (z.map fun _ => 0) shape).length = (z.map fun _ => ds).length := by rw [addVec_length (by simp; omega)]; simp
  have l0 : (ceilVec (z.map fun _ => 0) (z.map fun _ => ds)).length = n := by rw [length_ceilVec (by simp)]; simp [hz]
  have l1 : (ceilVec (addVec (z.map fun _ => 0) shape) (z.map fun _ => ds)).length = n := by rw [length_ceilVec la]; simp [hz]
  refine ⟨subVec (ceilVec (addVec (z.map fun _ => 0) shape) (z.map fun _ => ds)) (ceilVec (z.map fun _ => 0) (z.map fun _ => ds)), ?_, ?_, fun d hd => ?_⟩
  · unfold getDownsampledShape
    rw [firstInd_eq hok, Res.ok_bind, lastInd_eq hok, Res.ok_bind, dsShape_eq hok]
  · rw [length_subVec (by omega)]; exact l1
  · rw [getD_subVec (by omega), getD_ceilVec la (by simp; omega), getD_ceilVec (by simp) (by simp; omega), getD_addVec (by simp; omega), g0 d hd, gd d hd]
    have : (0 + ds - 1) / ds = 0 := Nat.div_eq_of_lt (by omega)
    rw [this, Nat.zero_add, Nat.sub_zero]

theorem largest_min {x ds pad : Nat} (hp : 0 < ds) : Largest (if x / ds < pad then x / ds else pad) pad ds x := by
  refine ⟨by split <;> omega, ?_, fun q h1 h2 => ?_⟩
  · have h1 := Nat.div_mul_le_self x ds
    split
    · exact h1
    · exact Nat.le_trans (Nat.mul_le_mul_right _ (by omega)) h1
  · have := (Nat.le_div_iff_mul_le hp).2 h2
    split <;> omega

theorem length_vminS (a : List Nat) (s : Nat) : (vminS a s).length = a.length := by simp [vminS]
theorem length_vmulS (a : List Nat) (s : Nat) : (vmulS a s).length = a.length := by simp [vmulS]

theorem getD_vmulS {a : List Nat} {s d : Nat} (h : d < a.length) (hb : a.getD d 0 * s < 2 ^ 64) : (vmulS a s).getD d 0 = a.getD d 0 * s := by
  unfold vmulS
  rw [getD_mapN (f := fun x => x * s % U64) h]
  exact Nat.mod_eq_of_lt hb

theorem getD_vadd {a b : List Nat} {d : Nat} (h : a.length = b.length) (hd : d < a.length) (hb : a.getD d 0 + b.getD d 0 < 2 ^ 64) : (vadd a b).getD d 0 = a.getD d 0 + b.getD d 0 := by
  unfold vadd
  rw [getD_zipN hd (by omega)]
  exact wadd_eq hb

theorem length_vadd {a b : List Nat} (h : a.length = b.length) : (vadd a b).length = a.length := by simp [vadd, h]
theorem length_vsub {a b : List Nat} (h : a.length = b.length) : (vsub a b).length = a.length := by simp [vsub, h]

theorem getD_vsub {a b : List Nat} {d : Nat} (h : a.length = b.length) (hd : d < a.length) (hle : b.getD d 0 ≤ a.getD d 0) (ha : a.getD d 0 < 2 ^ 64) :
    (vsub a b).getD d 0 = a.getD d 0 - b.getD d 0 := by
  unfold vsub
  rw [getD_zipN hd (by omega)]
  exact wsub_eq hle ha

/-- **C55.** For a non-empty storage domain in the calculation domain, the assertions hold for every factor and requested padding. The padding at each end is the largest
    one that was requested and for which there is room; the padded domain lies in the calculation domain and around the storage domain; and after downsampling it
    has exactly as many elements more at each end (`⌈shape / ds⌉ + pre + post` altogether). -/
theorem C55_padding {n : Nat} {cal start shape : List Nat} {ds : Nat} (h : DomOk n cal start shape ds) (pad : Nat) :
    ∃ r, padDomain cal start shape ds pad = .ok r ∧ r.pre.length = n ∧ r.post.length = n ∧ r.start.length = n ∧ r.shape.length = n ∧
      (∀ d < n, Largest (r.pre.getD d 0) pad ds (start.getD d 0) ∧ Largest (r.post.getD d 0) pad ds (cal.getD d 0 - (start.getD d 0 + shape.getD d 0)) ∧
        r.start.getD d 0 + r.pre.getD d 0 * ds = start.getD d 0 ∧
        r.start.getD d 0 + r.shape.getD d 0 = start.getD d 0 + shape.getD d 0 + r.post.getD d 0 * ds ∧
        r.start.getD d 0 + r.shape.getD d 0 ≤ cal.getD d 0) ∧
      ∃ s s', getDownsampledShape (start.map fun _ => 0) r.shape (start.map fun _ => ds) = .ok s ∧ getDownsampledShape (start.map fun _ => 0) shape (start.map fun _ => ds) = .ok s' ∧
        s.length = n ∧ s'.length = n ∧ ∀ d < n, IsCeil (shape.getD d 0) ds (s'.getD d 0) ∧ IsCeil (r.shape.getD d 0) ds (s.getD d 0) ∧
          s.getD d 0 = s'.getD d 0 + r.pre.getD d 0 + r.post.getD d 0 := by
  obtain ⟨l1, l2, l3⟩ := h.len
  have hp := h.pos
  have hsub : ∀ d < n, (vsub cal (vadd start shape)).getD d 0 = cal.getD d 0 - (start.getD d 0 + shape.getD d 0) := by
    intro d hd
    have := h.le d hd
    have := h.lt d hd
    have hv := getD_vadd (a := start) (b := shape) (d := d) (by omega) (by omega) (by omega)
    rw [getD_vsub (by rw [length_vadd (by omega)]; omega) (by omega) (by omega) (by omega), hv]
  have lsub : (vsub cal (vadd start shape)).length = n := by rw [length_vsub (by rw [length_vadd (by omega)]; omega)]; exact l3
  generalize hpre : vminS (start.map (· / ds)) pad = pre
  generalize hpost : vminS ((vsub cal (vadd start shape)).map (· / ds)) pad = post
  have lpre : pre.length = n := by rw [← hpre, length_vminS]; simpa using l1
  have lpost : post.length = n := by rw [← hpost, length_vminS]; simpa using lsub
  have gpre : ∀ d < n, Largest (pre.getD d 0) pad ds (start.getD d 0) := by
    intro d hd
    have : pre.getD d 0 = if start.getD d 0 / ds < pad then start.getD d 0 / ds else pad := by
      rw [← hpre]
      unfold vminS
      rw [getD_mapN (f := fun x => if x < pad then x else pad) (by simp; omega), getD_mapN (f := (· / ds)) (by omega)]
    rw [this]; exact largest_min hp
  have gpost : ∀ d < n, Largest (post.getD d 0) pad ds (cal.getD d 0 - (start.getD d 0 + shape.getD d 0)) := by
    intro d hd
    have : post.getD d 0 = if (cal.getD d 0 - (start.getD d 0 + shape.getD d 0)) / ds < pad then (cal.getD d 0 - (start.getD d 0 + shape.getD d 0)) / ds else pad := by
      rw [← hpost, ← hsub d hd]
      unfold vminS
      rw [getD_mapN (f := fun x => if x < pad then x else pad) (by simp; omega), getD_mapN (f := (· / ds)) (by omega)]
    rw [this]; exact largest_min hp
  have mpre : ∀ d < n, (vmulS pre ds).getD d 0 = pre.getD d 0 * ds := fun d hd => by
    have h1 := (gpre d hd).2.1
    have := h.le d hd
    have := h.lt d hd
    exact getD_vmulS (by omega) (by omega)
  have mpost : ∀ d < n, (vmulS post ds).getD d 0 = post.getD d 0 * ds := fun d hd => by
    have h1 := (gpost d hd).2.1
    have := h.lt d hd
    exact getD_vmulS (by omega) (by omega)
  have ple : ∀ d < n, pre.getD d 0 ≤ pre.getD d 0 * ds ∧ post.getD d 0 ≤ post.getD d 0 * ds := fun d hd =>
    ⟨Nat.le_mul_of_pos_right _ hp, Nat.le_mul_of_pos_right _ hp⟩
  have gsum : ∀ d < n, (vadd pre post).getD d 0 = pre.getD d 0 + post.getD d 0 := fun d hd => by
    have h1 := (gpre d hd).2.1
    have h2 := (gpost d hd).2.1
    have := h.le d hd
    have := h.lt d hd
    have := ple d hd
    exact getD_vadd (by omega) (by omega) (by omega)
  have lsum : (vadd pre post).length = n := by rw [length_vadd (by omega)]; exact lpre
  have msum : ∀ d < n, (vmulS (vadd pre post) ds).getD d 0 = pre.getD d 0 * ds + post.getD d 0 * ds := fun d hd => by
    have h1 := (gpre d hd).2.1
    have h2 := (gpost d hd).2.1
    have := h.le d hd
    have := h.lt d hd
    have e : (pre.getD d 0 + post.getD d 0) * ds = pre.getD d 0 * ds + post.getD d 0 * ds := Nat.add_mul _ _ _
    rw [getD_vmulS (by omega) (by rw [gsum d hd]; omega), gsum d hd, e]
  generalize hsh : vadd shape (vmulS (vadd pre post) ds) = sh
  have lsh : sh.length = n := by rw [← hsh, length_vadd (by rw [length_vmulS]; omega)]; exact l2
  have gsh : ∀ d < n, sh.getD d 0 = shape.getD d 0 + (pre.getD d 0 * ds + post.getD d 0 * ds) := fun d hd => by
    have h1 := (gpre d hd).2.1
    have h2 := (gpost d hd).2.1
    have := h.le d hd
    have := h.lt d hd
    rw [← hsh, getD_vadd (by rw [length_vmulS]; omega) (by omega) (by rw [msum d hd]; omega), msum d hd]
  have lst : (vsub start (vmulS pre ds)).length = n := by rw [length_vsub (by rw [length_vmulS]; omega)]; exact l1
  have gst : ∀ d < n, (vsub start (vmulS pre ds)).getD d 0 = start.getD d 0 - pre.getD d 0 * ds := fun d hd => by
    have h1 := (gpre d hd).2.1
    have := h.le d hd
    have := h.lt d hd
    rw [getD_vsub (by rw [length_vmulS]; omega) (by omega) (by rw [mpre d hd]; exact h1) (by omega), mpre d hd]
  obtain ⟨s, hs1, hs2, hs3⟩ := shape_from_zero (z := start) (shape := sh) (ds := ds) l1 lsh hp
    (fun d hd => by rw [gsh d hd]; have := h.ne d hd; omega)
    (fun d hd => by
      have h1 := (gpre d hd).2.1
      have h2 := (gpost d hd).2.1
      have := h.le d hd
      have := h.lt d hd
      rw [gsh d hd]; omega)
  obtain ⟨s', hs1', hs2', hs3'⟩ := shape_from_zero (z := start) (shape := shape) (ds := ds) l1 l2 hp h.ne
    (fun d hd => by
      have := h.le d hd
      have := h.lt d hd
      omega)
  have hss : ∀ d < n, s.getD d 0 = s'.getD d 0 + pre.getD d 0 + post.getD d 0 := by
    intro d hd
    rw [hs3 d hd, hs3' d hd, gsh d hd]
    have e : shape.getD d 0 + (pre.getD d 0 * ds + post.getD d 0 * ds) + ds - 1 = shape.getD d 0 + ds - 1 + (pre.getD d 0 + post.getD d 0) * ds := by
      rw [Nat.add_mul]; omega
    rw [e, Nat.add_mul_div_right _ _ hp]
    omega
  have hs'b : ∀ d < n, s'.getD d 0 ≤ shape.getD d 0 := fun d hd => by rw [hs3' d hd]; exact ceil_small hp
  have hveq : s = vadd (vadd s' pre) post := by
    have b : ∀ d < n, s'.getD d 0 + pre.getD d 0 + post.getD d 0 < 2 ^ 64 := fun d hd => by
      have h1 := (gpre d hd).2.1
      have h2 := (gpost d hd).2.1
      have := h.le d hd
      have := h.lt d hd
      have := ple d hd
      have := hs'b d hd
      omega
    apply vec_ext
    · rw [length_vadd (by rw [length_vadd (by omega)]; omega), length_vadd (by omega)]; omega
    · intro d hd
      have hd' : d < n := by omega
      have := b d hd'
      have e1 : (vadd s' pre).getD d 0 = s'.getD d 0 + pre.getD d 0 := getD_vadd (by omega) (by omega) (by omega)
      rw [getD_vadd (by rw [length_vadd (by omega)]; omega) (by rw [length_vadd (by omega)]; omega) (by rw [e1]; exact this), e1, hss d hd']
  refine ⟨⟨pre, post, vsub start (vmulS pre ds), sh⟩, ?_, lpre, lpost, lst, lsh, fun d hd => ⟨gpre d hd, gpost d hd, ?_, ?_, ?_⟩,
    s, s', hs1, hs1', hs2, hs2', fun d hd => ⟨?_, ?_, hss d hd⟩⟩
  · unfold padDomain vdivS
    rw [if_neg (by omega), if_neg (by omega)]
    simp only [Res.ok_bind]
    rw [hpre, hpost, hsh, hs1, hs1']
    have a1 : vge start (vmulS pre ds) = true := by
      refine vge_of_le (by rw [length_vmulS]; omega) fun d hd => ?_
      rw [mpre d (by omega)]; exact (gpre d (by omega)).2.1
    have a2 : vge cal (vadd (vadd start shape) (vmulS post ds)) = true := by
      have lss : (vadd start shape).length = n := by rw [length_vadd (by omega)]; exact l1
      refine vge_of_le (by rw [length_vadd (by rw [length_vmulS]; omega)]; omega) fun d hd => ?_
      have hd' : d < n := by omega
      have h2 := (gpost d hd').2.1
      have := h.le d hd'
      have := h.lt d hd'
      have e1 : (vadd start shape).getD d 0 = start.getD d 0 + shape.getD d 0 := getD_vadd (by omega) (by omega) (by omega)
      rw [getD_vadd (by rw [length_vmulS]; omega) (by omega) (by rw [e1, mpost d hd']; omega), e1, mpost d hd']
      omega
    rw [a1, a2, Res.assert_true]
    simp only [Res.ok_bind]
    rw [decide_eq_true hveq, Res.assert_true, Res.ok_bind]
  · show (vsub start (vmulS pre ds)).getD d 0 + pre.getD d 0 * ds = _
    rw [gst d hd]
    have h1 := (gpre d hd).2.1
    omega
  · show (vsub start (vmulS pre ds)).getD d 0 + sh.getD d 0 = start.getD d 0 + shape.getD d 0 + post.getD d 0 * ds
    rw [gst d hd, gsh d hd]
    have h1 := (gpre d hd).2.1
    omega
  · show (vsub start (vmulS pre ds)).getD d 0 + sh.getD d 0 ≤ _
    rw [gst d hd, gsh d hd]
    have h1 := (gpre d hd).2.1
    have h2 := (gpost d hd).2.1
    have := h.le d hd
    omega
  · rw [hs3' d hd]; exact ceil_isCeil hp
  · rw [hs3 d hd]; exact ceil_isCeil hp

/-- An empty storage domain violates the last assertion (the downsampled shape of an empty range wraps, cf. `C34_empty_at_zero`). -/
theorem C55_empty_aborts : padDomain [10] [4] [0] 2 1 = .abort := by
  have h : (match padDomain [10] [4] [0] 2 1 with | .abort => true | _ => false) = true := by decide +kernel
  revert h
  cases padDomain [10] [4] [0] 2 1 <;> intro h <;> first | rfl | cases h

namespace Ex55

example : DomOk 2 [20, 13] [5, 1] [7, 9] 3 := ⟨⟨rfl, rfl, rfl⟩, by decide, by decide, by decide, by decide⟩

/-- There is room for one element before the domain along the first axis and none along the second; after the domain there is room for two and one. -/
example : (match padDomain [20, 13] [5, 1] [7, 9] 3 4 with | .ok r => some (r.pre, r.post, r.start, r.shape) | _ => none) = some ([1, 0], [2, 1], [2, 1], [16, 12]) := by decide +kernel

end Ex55

end Verif.Meep
