import Verif.Meep.Props57
import Verif.Meep.Props44
import Mathlib.Tactic.Ring
import Mathlib.Tactic.Zify
/-
A whole calculation with the rechunking (MEEPCylindricalGreensFunctionCalculator.hxx 739-800): specification of the elements of the finished array, and its relation to the merged array.
-/
namespace Verif.Meep
open Verif Verif.ND Verif.Dist Verif.Tree Verif.Ops Verif.Rebuild

variable {C : Cfg} {S : Sorter} {Z : SlabSize}

/-! ### Specification -/

/-- The axis of the finished array for the `d`-th of `n` spatial axes of the simulation: the first and the last axis of (time, space) have been exchanged. (With the spatial axes (z, r) the finished
    array has the axes (r, z, t).) -/
def axis (n d : Nat) : Nat := if d + 1 = n then 0 else d + 1

/-- The element `j` of the finished array (whose indices may be negative in the padding) stands for step `n` and the (signed) place `x` in the calculation domain: `x = start + ds * j`. -/
structure IsPlace (start : List Nat) (ds : Nat) (j : List Int) (n : Int) (x : List Int) : Prop where
  len : x.length = start.length
  time : j.getD start.length 0 = n
  space : ∀ d < start.length, x.getD d 0 = (start.getD d 0 : Int) + ds * j.getD (axis start.length d) 0

/-- The place lies in the padded storage domain and the step is one of those that were simulated. -/
def InStored (N : Nat) (p : Padded) (n : Nat) (x : List Nat) : Prop := n < N ∧ InBox p.start (addVec p.start p.shape) x

/-- What the element `j` of a chunk with padding must be, in terms of the field `F`: at places in the padded storage domain it is the field; at other places with non-negative radius zero; and at places
    with negative radius the field at the place mirrored at the axis `r = 0`, if this is in the padded domain. (`r` is the last spatial axis.) -/
structure PadField (vd ds N : Nat) (start : List Nat) (p : Padded) (F : SimField) (j : List Int) (v : List Nat) : Prop where
  inside : ∀ n x, InStored N p n x → IsPlace start ds j n (signed x) → VEq (F n x) v
  outside : (∀ n x, InStored N p n x → ¬ IsPlace start ds j n (signed x)) → (∀ n x, IsPlace start ds j n x → 0 ≤ x.getD (start.length - 1) 0) → VEq (List.replicate vd 0) v
  mirrored : ∀ n x, IsPlace start ds j n x → x.getD (start.length - 1) 0 < 0 →
    ∀ n' x', InStored N p n' x' → n = n' → signed x' = x.set (start.length - 1) (-x.getD (start.length - 1) 0) → VEq (F n' x') v

/-- The same as the program has it: it mirrors at the first row of the padded domain. -/
structure PadFieldAt (vd ds N : Nat) (start : List Nat) (p : Padded) (F : SimField) (j : List Int) (v : List Nat) : Prop where
  inside : ∀ n x, InStored N p n x → IsPlace start ds j n (signed x) → VEq (F n x) v
  outside : (∀ n x, InStored N p n x → ¬ IsPlace start ds j n (signed x)) → (∀ n x, IsPlace start ds j n x → (p.start.getD (start.length - 1) 0 : Int) ≤ x.getD (start.length - 1) 0) →
    VEq (List.replicate vd 0) v
  mirrored : ∀ n x, IsPlace start ds j n x → x.getD (start.length - 1) 0 < p.start.getD (start.length - 1) 0 →
    ∀ n' x', InStored N p n' x' → n = n' → signed x' = x.set (start.length - 1) (2 * p.start.getD (start.length - 1) 0 - x.getD (start.length - 1) 0) → VEq (F n' x') v

/-- If the padded domain starts at the axis these are the same. -/
theorem PadFieldAt.axis {vd ds N : Nat} {start : List Nat} {p : Padded} {F : SimField} {j : List Int} {v : List Nat} (h : PadFieldAt vd ds N start p F j v)
    (h0 : p.start.getD (start.length - 1) 0 = 0) : PadField vd ds N start p F j v := by
  refine ⟨h.inside, fun a b => h.outside a fun n x hx => ?_, fun n x hx hn n' x' hs he hx' => h.mirrored n x hx ?_ n' x' hs he ?_⟩
  · rw [h0]; exact b n x hx
  · rw [h0]; exact hn
  · rw [h0]; simpa using hx'

/-- If the element is not in the padding at negative radius these are the same, too. -/
theorem PadFieldAt.inner {vd ds N : Nat} {start : List Nat} {p : Padded} {F : SimField} {j : List Int} {v : List Nat} (h : PadFieldAt vd ds N start p F j v)
    (h0 : ∀ n x, IsPlace start ds j n x → (p.start.getD (start.length - 1) 0 : Int) ≤ x.getD (start.length - 1) 0) : PadField vd ds N start p F j v := by
  refine ⟨h.inside, fun a b => h.outside a h0, fun n x hx hn => ?_⟩
  have := h0 n x hx
  omega

/-! ### Axes -/

theorem axis_lt {n d : Nat} (h : d < n) : axis n d < n := by unfold axis; split <;> omega

theorem getD_swapped {n : Nat} {t : Nat} {s : List Nat} (hn : 0 < n) (hs : s.length = n) :
    (swapAt (t :: s) 0 n).getD n 0 = t ∧ ∀ d < n, (swapAt (t :: s) 0 n).getD (axis n d) 0 = s.getD d 0 := by
  refine ⟨?_, fun d hd => ?_⟩
  · rw [getD_swapAt (by simp) (by simp [hs]), if_neg (by omega), if_pos rfl]; rfl
  · rw [getD_swapAt (by simp) (by simp [hs])]
    unfold axis
    by_cases h : d + 1 = n
    · rw [if_pos h, if_pos rfl, ← h]; rfl
    · rw [if_neg h, if_neg (by omega), if_neg h]; rfl

/-- Every axis is the time axis or a spatial one. -/
theorem axis_cases {n e : Nat} (h : e < n + 1) : e = n ∨ ∃ d < n, e = axis n d := by
  by_cases he : e = n
  · exact Or.inl he
  · right
    by_cases h0 : e = 0
    · exact ⟨n - 1, by omega, by unfold axis; rw [if_pos (by omega)]; exact h0⟩
    · exact ⟨e - 1, by omega, by unfold axis; rw [if_neg (by omega)]; omega⟩

theorem eq_swapped {n : Nat} {t : Nat} {s i : List Nat} (hn : 0 < n) (hs : s.length = n) (hi : i.length = n + 1) (h0 : i.getD n 0 = t) (h : ∀ d < n, i.getD (axis n d) 0 = s.getD d 0) :
    i = swapAt (t :: s) 0 n := by
  obtain ⟨a, b⟩ := getD_swapped (t := t) hn hs
  apply ext_getD
  · rw [length_swapAt]; simp [hs, hi]
  · intro e he
    rcases axis_cases (n := n) (e := e) (by omega) with rfl | ⟨d, hd, rfl⟩
    · rw [a, h0]
    · rw [b d hd, h d hd]

/-! ### From the merged array to the field -/

section place
variable {T L ds N : Nat} {cal start shape : List Nat} {p : Padded} {F : SimField} {out : Nat} {fs : FS} {procs : List Proc}

theorem getD_shiftZ {pre : List Nat} {j : List Int} (h : j.length = pre.length) (d : Nat) : (shiftZ pre j).getD d 0 = j.getD d 0 + pre.getD d 0 := by
  unfold shiftZ
  by_cases hd : d < j.length
  · have hd' : d < pre.length := by omega
    simp only [List.getD_eq_getElem?_getD, List.getElem?_zipWith, List.getElem?_eq_getElem hd, List.getElem?_eq_getElem hd']
    rfl
  · have hd' : pre.length ≤ d := by omega
    simp only [List.getD_eq_getElem?_getD, List.getElem?_zipWith, List.getElem?_eq_none (show j.length ≤ d by omega), List.getElem?_eq_none hd']
    rfl

theorem length_shiftZ {pre : List Nat} {j : List Int} (h : j.length = pre.length) : (shiftZ pre j).length = j.length := by simp [shiftZ, h]

theorem getD_signedN (v : List Nat) (d : Nat) : (signed v).getD d 0 = (v.getD d 0 : Int) := by
  unfold signed
  by_cases hd : d < v.length
  · simp only [List.getD_eq_getElem?_getD, List.getElem?_map, List.getElem?_eq_getElem hd]; rfl
  · simp only [List.getD_eq_getElem?_getD, List.getElem?_map, List.getElem?_eq_none (show v.length ≤ d by omega)]; rfl

theorem getD_unsignedN (v : List Int) (d : Nat) : (unsigned v).getD d 0 = (v.getD d 0).toNat := by
  unfold unsigned
  by_cases hd : d < v.length
  · simp only [List.getD_eq_getElem?_getD, List.getElem?_map, List.getElem?_eq_getElem hd]; rfl
  · simp only [List.getD_eq_getElem?_getD, List.getElem?_map, List.getElem?_eq_none (show v.length ≤ d by omega)]; rfl

/-- The relation between the padding and the start of the padded domain. -/
structure Pads (start : List Nat) (ds : Nat) (p : Padded) : Prop where
  pos : 0 < start.length
  posDs : 0 < ds
  preLen : p.pre.length = start.length
  startLen : p.start.length = start.length
  shapeLen : p.shape.length = start.length
  pre : ∀ d < start.length, p.start.getD d 0 + p.pre.getD d 0 * ds = start.getD d 0

/-- A place in the padded domain is an element of the merged array. -/
theorem Pads.toMerged (h : Pads start ds p) {j : List Int} (hj : j.length = start.length + 1) {n : Nat} {x : List Nat} (hs : InStored N p n x) (hp : IsPlace start ds j n (signed x)) :
    InBoxZ (signed ((mergedShape ds N p).map fun _ => 0)) (signed (mergedShape ds N p)) (shiftZ (swapAt (0 :: p.pre) 0 start.length) j) ∧
    Stored ds N p F (unsigned (shiftZ (swapAt (0 :: p.pre) 0 start.length) j)) (F n x) := by
  obtain ⟨h1, h2, h3, h4, h5, h6⟩ := h
  have hpl : (swapAt (0 :: p.pre) 0 start.length).length = start.length + 1 := by rw [length_swapAt]; simp [h3]
  have hxl : x.length = start.length := by have := hp.len; simpa [signed] using this
  obtain ⟨q1, q2⟩ := getD_swapped (t := 0) (s := p.pre) (n := start.length) h1 h3
  have ht : (shiftZ (swapAt (0 :: p.pre) 0 start.length) j).getD start.length 0 = n := by
    rw [getD_shiftZ (by omega), hp.time, q1]; rfl
  have hin := hs.2
  have hx : ∀ d < start.length, p.start.getD d 0 ≤ x.getD d 0 ∧ x.getD d 0 < p.start.getD d 0 + p.shape.getD d 0 := fun d hd => by
    have := hin.2.2 d (by omega)
    rwa [getD_addVec (by omega)] at this
  have hsp : ∀ d < start.length, (x.getD d 0 : Int) = p.start.getD d 0 + ds * (shiftZ (swapAt (0 :: p.pre) 0 start.length) j).getD (axis start.length d) 0 := by
    intro d hd
    have a := hp.space d hd
    rw [getD_signedN] at a
    rw [getD_shiftZ (by omega), q2 d hd, a, ← h6 d hd]
    push_cast
    ring
  -- the index
  have hk : ∀ d < start.length, 0 ≤ (shiftZ (swapAt (0 :: p.pre) 0 start.length) j).getD (axis start.length d) 0 := by
    intro d hd
    have a := hsp d hd
    have b := (hx d hd).1
    by_contra hc
    have : (ds : Int) * (shiftZ (swapAt (0 :: p.pre) 0 start.length) j).getD (axis start.length d) 0 < 0 := Int.mul_neg_of_pos_of_neg (by omega) (by omega)
    omega
  generalize hK : shiftZ (swapAt (0 :: p.pre) 0 start.length) j = K at *
  have hKl : K.length = start.length + 1 := by rw [← hK, length_shiftZ (by omega)]; exact hj
  let s : List Nat := (List.range start.length).map fun d => (K.getD (axis start.length d) 0).toNat
  have hsl : s.length = start.length := by simp [s]
  have hsd : ∀ d < start.length, s.getD d 0 = (K.getD (axis start.length d) 0).toNat := fun d hd => by
    simp only [s, List.getD_eq_getElem?_getD, List.getElem?_map, List.getElem?_range hd]; rfl
  have hmul : ∀ d < start.length, s.getD d 0 * ds + p.start.getD d 0 = x.getD d 0 := by
    intro d hd
    have a := hsp d hd
    have b := hk d hd
    rw [hsd d hd]
    zify
    rw [Int.toNat_of_nonneg b, a]
    ring
  have hu : unsigned K = swapAt (n :: s) 0 start.length := by
    refine eq_swapped h1 hsl (by simp [unsigned, hKl]) ?_ fun d hd => ?_
    · rw [getD_unsignedN, ht]; simp
    · rw [getD_unsignedN, hsd d hd]
  have hv : ValidInd p.shape (s.map (· * ds)) := by
    refine ⟨by simp [hsl, h5], fun d hd => ?_⟩
    rw [getD_mapN (f := (· * ds)) (by omega)]
    have := hmul d (by omega)
    have := hx d (by omega)
    omega
  have hst : Stored ds N p F (unsigned K) (F n x) := by
    refine ⟨n, s, hs.1, hv, by rw [h5]; exact hu, ?_⟩
    congr 1
    apply ext_getD
    · rw [addVec_length (by simp [hsl, h4]), h4, hxl]
    · intro d hd
      rw [getD_addVec (by simp [hsl, h4]), getD_mapN (f := (· * ds)) (by omega)]
      have := hmul d (by omega)
      omega
  refine ⟨?_, hst⟩
  have hb := (stored_box (p := p) (N := N) (F := F) h2 (unsigned K)).2 ⟨_, hst⟩
  rw [inBox_zeros (length_mergedShape ds N p)] at hb
  have hml := length_mergedShape ds N p
  refine ⟨by simp [signed, hKl, hml, h5], by simp [signed, hKl, hml, h5], fun e he => ?_⟩
  have hbe := hb.2 e (by omega)
  rw [getD_unsignedN] at hbe
  have hz : ((mergedShape ds N p).map fun _ => 0).getD e 0 = 0 := getD_mapN (f := fun _ => 0) (by omega)
  rw [getD_signedN, getD_signedN, hz]
  have hK0 : 0 ≤ K.getD e 0 := by
    rcases axis_cases (n := start.length) (e := e) (by omega) with rfl | ⟨d, hd, rfl⟩
    · rw [ht]; omega
    · exact hk d hd
  omega

/-- An element of the merged array is a place in the padded domain. -/
theorem Pads.ofMerged (h : Pads start ds p) {j : List Int} (hj : j.length = start.length + 1)
    (hb : InBoxZ (signed ((mergedShape ds N p).map fun _ => 0)) (signed (mergedShape ds N p)) (shiftZ (swapAt (0 :: p.pre) 0 start.length) j)) :
    ∃ n x, InStored N p n x ∧ IsPlace start ds j n (signed x) := by
  obtain ⟨h1, h2, h3, h4, h5, h6⟩ := h
  have hpl : (swapAt (0 :: p.pre) 0 start.length).length = start.length + 1 := by rw [length_swapAt]; simp [h3]
  obtain ⟨q1, q2⟩ := getD_swapped (t := 0) (s := p.pre) (n := start.length) h1 h3
  have hml := length_mergedShape ds N p
  have hg : ∀ d, (shiftZ (swapAt (0 :: p.pre) 0 start.length) j).getD d 0 = j.getD d 0 + (swapAt (0 :: p.pre) 0 start.length).getD d 0 := getD_shiftZ (by omega)
  have hKl : (shiftZ (swapAt (0 :: p.pre) 0 start.length) j).length = start.length + 1 := by rw [length_shiftZ (by omega)]; exact hj
  generalize shiftZ (swapAt (0 :: p.pre) 0 start.length) j = K at *
  have hK : ∀ e < start.length + 1, 0 ≤ K.getD e 0 ∧ K.getD e 0 < (mergedShape ds N p).getD e 0 := by
    intro e he
    have hbe := hb.2.2 e (by omega)
    have hz : ((mergedShape ds N p).map fun _ => 0).getD e 0 = 0 := getD_mapN (f := fun _ => 0) (by omega)
    rw [getD_signedN, getD_signedN, hz] at hbe
    exact hbe
  have hin : InBox (List.replicate (p.shape.length + 1) 0) (mergedShape ds N p) (unsigned K) := by
    rw [inBox_zeros hml]
    refine ⟨by simp [unsigned, hKl, h5], fun e he => ?_⟩
    rw [getD_unsignedN]
    have := hK e (by omega)
    omega
  obtain ⟨u, n, s, hn, hv, hu, _⟩ := (stored_box (p := p) (N := N) (F := fun _ _ => []) h2 (unsigned K)).1 hin
  have hsl : s.length = start.length := by have := hv.1; simp at this; omega
  obtain ⟨t1, t2⟩ := getD_swapped (t := n) (s := s) (n := start.length) h1 hsl
  rw [h5] at hu
  have hsm : (s.map (· * ds)).length = p.start.length := by simp [hsl, h4]
  have hxl : (addVec p.start (s.map (· * ds))).length = start.length := by rw [addVec_length (by omega)]; exact h4
  have hxd : ∀ d < start.length, (addVec p.start (s.map (· * ds))).getD d 0 = p.start.getD d 0 + s.getD d 0 * ds := fun d hd => by
    rw [getD_addVec (by omega), getD_mapN (f := (· * ds)) (by omega)]
  refine ⟨n, addVec p.start (s.map (· * ds)), ⟨hn, ⟨by omega, by rw [addVec_length (a := p.start) (b := p.shape) (by omega)]; omega, fun d hd => ?_⟩⟩, ⟨by simp [signed, hxl], ?_, fun d hd => ?_⟩⟩
  · rw [hxd d (by omega), getD_addVec (by omega)]
    have := hv.2 d (by omega)
    rw [getD_mapN (f := (· * ds)) (by omega)] at this
    omega
  · have a : (unsigned K).getD start.length 0 = n := by rw [hu, t1]
    rw [getD_unsignedN] at a
    have b := hg start.length
    rw [q1] at b
    have := hK start.length (by omega)
    omega
  · have a : (unsigned K).getD (axis start.length d) 0 = s.getD d 0 := by rw [hu, t2 d hd]
    rw [getD_unsignedN] at a
    have b := hg (axis start.length d)
    rw [q2 d hd] at b
    have c := (hK (axis start.length d) (by have := axis_lt hd; omega)).1
    have e : j.getD (axis start.length d) 0 = (s.getD d 0 : Int) - p.pre.getD d 0 := by omega
    rw [getD_signedN, hxd d hd, ← h6 d hd, e]
    push_cast
    ring

/-- The padded chunks in terms of the field. -/
theorem Pads.field (h : Pads start ds p) {ps : List Piece} (hst : Stores ps (Stored ds N p F)) (huni : ∀ q ∈ ps, ∀ q' ∈ ps, ∀ i, InBox q.start q.stop i → InBox q'.start q'.stop i → q = q')
    {vd : Nat} {j : List Int} (hj : j.length = start.length + 1) {v : List Nat} (hv : PadValue vd ps (mergedShape ds N p) (shiftZ (swapAt (0 :: p.pre) 0 start.length) j) v) :
    PadFieldAt vd ds N start p F j v := by
  have h1 := h.pos
  have hpl : (swapAt (0 :: p.pre) 0 start.length).length = start.length + 1 := by rw [length_swapAt]; simp [h.preLen]
  obtain ⟨q1, q2⟩ := getD_swapped (t := 0) (s := p.pre) (n := start.length) h1 h.preLen
  have hax : axis start.length (start.length - 1) = 0 := by unfold axis; rw [if_pos (by omega)]
  have hval : ∀ {i u w : List Nat}, Stored ds N p F i u → ValueAt ps i w → VEq u w := by
    intro i u w hs ⟨q, hq, hi, he⟩
    obtain ⟨q', hq', hi', e⟩ := hst.has i u hs
    rw [huni q' hq' q hq i hi' hi] at e
    rwa [e] at he
  have hg0 : (shiftZ (swapAt (0 :: p.pre) 0 start.length) j).getD 0 0 = j.getD 0 0 + p.pre.getD (start.length - 1) 0 := by
    have := q2 (start.length - 1) (by omega)
    rw [hax] at this
    rw [getD_shiftZ (by omega), this]
  -- a place for every index
  have hplace : ∀ (k : List Int), ∃ (n : Int) (x : List Int), IsPlace start ds k n x := fun k => by
    refine ⟨k.getD start.length 0, (List.range start.length).map fun d => (start.getD d 0 : Int) + ds * k.getD (axis start.length d) 0, by simp, rfl, fun d hd => ?_⟩
    simp only [List.getD_eq_getElem?_getD, List.getElem?_map, List.getElem?_range hd]; rfl
  have hrad : ∀ {k : List Int} {n : Int} {x : List Int}, IsPlace start ds k n x → x.getD (start.length - 1) 0 = p.start.getD (start.length - 1) 0 + ds * (k.getD 0 0 + p.pre.getD (start.length - 1) 0) := by
    intro k n x hk
    have a := hk.space (start.length - 1) (by omega)
    rw [hax] at a
    rw [a, ← h.pre (start.length - 1) (by omega)]
    push_cast
    ring
  refine ⟨fun n x hs hp => ?_, fun hno hr => ?_, fun n x hp hn n' x' hs hnn hx' => ?_⟩
  · obtain ⟨a, b⟩ := h.toMerged (F := F) hj hs hp
    exact hval b (hv.inside a)
  · refine hv.outside (fun hb => ?_) ?_
    · obtain ⟨n, x, a, b⟩ := h.ofMerged (N := N) hj hb
      exact hno n x a b
    · obtain ⟨n, x, hp⟩ := hplace j
      have a := hr n x hp
      rw [hrad hp] at a
      rw [hg0]
      by_contra hc
      have : (ds : Int) * (j.getD 0 0 + p.pre.getD (start.length - 1) 0) < 0 := Int.mul_neg_of_pos_of_neg (by have := h.posDs; omega) (by omega)
      omega
  · -- the mirrored index
    have hneg : j.getD 0 0 + p.pre.getD (start.length - 1) 0 < 0 := by
      have a := hrad hp
      by_contra hc
      have : 0 ≤ (ds : Int) * (j.getD 0 0 + p.pre.getD (start.length - 1) 0) := Int.mul_nonneg (by omega) (by omega)
      omega
    generalize hj' : j.set 0 (-j.getD 0 0 - 2 * p.pre.getD (start.length - 1) 0) = j'
    have hjl : j'.length = start.length + 1 := by rw [← hj']; simpa using hj
    have hj0 : j'.getD 0 0 = -j.getD 0 0 - 2 * p.pre.getD (start.length - 1) 0 := by
      rw [← hj', List.getD_eq_getElem?_getD, List.getElem?_set_self (by omega)]; rfl
    have hjd : ∀ d, d ≠ 0 → j'.getD d 0 = j.getD d 0 := fun d hd => by
      rw [← hj', List.getD_eq_getElem?_getD, List.getElem?_set_ne (by omega), ← List.getD_eq_getElem?_getD]
    have hp' : IsPlace start ds j' n' (signed x') := by
      refine ⟨by rw [hx']; simp [hp.len], ?_, fun d hd => ?_⟩
      · rw [hjd _ (by omega), hp.time, hnn]
      · by_cases hd0 : d = start.length - 1
        · subst hd0
          rw [hax, hj0, hx', List.getD_eq_getElem?_getD, List.getElem?_set_self (by rw [hp.len]; omega)]
          show (2 * (p.start.getD (start.length - 1) 0 : Int) - x.getD (start.length - 1) 0) = _
          rw [hrad hp, ← h.pre (start.length - 1) (by omega)]
          push_cast
          ring
        · have a : axis start.length d ≠ 0 := by unfold axis; rw [if_neg (by omega)]; omega
          rw [hjd _ a, hx', List.getD_eq_getElem?_getD, List.getElem?_set_ne (by omega), ← List.getD_eq_getElem?_getD]
          exact hp.space d hd
    have hmir : mirror (shiftZ (swapAt (0 :: p.pre) 0 start.length) j) = shiftZ (swapAt (0 :: p.pre) 0 start.length) j' := by
      have hpre0 : (swapAt (0 :: p.pre) 0 start.length).getD 0 0 = p.pre.getD (start.length - 1) 0 := by
        have := q2 (start.length - 1) (by omega)
        rwa [hax] at this
      unfold mirror
      apply List.ext_getElem?
      intro e
      by_cases he : e = 0
      · subst he
        have hl : 0 < (shiftZ (swapAt (0 :: p.pre) 0 start.length) j).length := by rw [length_shiftZ (by omega)]; omega
        have hl' : 0 < (shiftZ (swapAt (0 :: p.pre) 0 start.length) j').length := by rw [length_shiftZ (by omega)]; omega
        rw [List.getElem?_set_self hl, List.getElem?_eq_getElem hl']
        congr 1
        have a := getD_shiftZ (pre := swapAt (0 :: p.pre) 0 start.length) (j := j') (by omega) 0
        rw [List.getD_eq_getElem?_getD, List.getElem?_eq_getElem hl', hj0, hpre0] at a
        rw [hg0]
        simp only [Option.getD_some] at a
        rw [a]
        ring
      · rw [List.getElem?_set_ne (by omega)]
        unfold shiftZ
        rw [List.getElem?_zipWith, List.getElem?_zipWith, ← hj', List.getElem?_set_ne (by omega)]
    obtain ⟨a, b⟩ := h.toMerged (F := F) hjl hs hp'
    rw [← hmir] at a b
    exact hval b (hv.mirrored (by rw [hg0]; omega) a)

end place

end Verif.Meep
