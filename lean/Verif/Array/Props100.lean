import Verif.Array.Value
import Verif.Array.Props2
/-
C100: setting whole arrays to one value.
-/
namespace Verif.ND
open Verif
variable {S : Type}

private theorem fits_all {E : List Nat} (hpos : ∀ d < E.length, 0 < E.getD d 0) :
    Fits (E.map fun _ => 0) (subVec E (E.map fun _ => 0)) E := by
  have h0 : ∀ d, (E.map fun _ => 0).getD d 0 = 0 := by
    intro d
    simp only [List.getD_eq_getElem?_getD, List.getElem?_map]
    cases E[d]? <;> simp
  refine ⟨by simp, by simp [subVec], fun d hd => ?_⟩
  rw [getD_subVec (by simp), h0]
  have := hpos d hd
  omega

private theorem sub_zeros {E : List Nat} : subVec E (E.map fun _ => 0) = E := by
  induction E with
  | nil => rfl
  | cons e E ih => simpa [subVec] using ih

/-- **C100, `array = value`**  Assigning a value through an owning array or any (non-empty) view of it sets every element
    of the view to that value and changes no element of the underlying array outside of the view. -/
theorem C100_assign_value (vd : Nat) (P st : List Nat) (h : Hdr) (hP : Small P) (hv : ViewOf vd P st h)
    (buf : List S) (hb : buf.length = volume vd P) (hd0 : 0 < h.shape.length)
    (hpos : ∀ d < h.shape.length, 0 < h.shape.getD d 0) (v : S) :
    ∃ buf', assignValue vd h buf v = .ok buf' ∧ buf'.length = buf.length ∧
      (∀ i, ValidInd h.shape i → read vd h buf' i = .ok (List.replicate vd v)) ∧
      (∀ j, ValidInd P j → (∀ i, ValidInd h.shape i → j ≠ addVec st i) →
        read vd (mkHdr vd P) buf' j = read vd (mkHdr vd P) buf j) := by
  obtain ⟨b, h1, h2, h3, h4⟩ := C05_fill vd P st h hP hv buf hb (h.shape.map fun _ => 0) h.shape
    (by simpa using hd0) (by simp) (fits_all hpos) v
  rw [sub_zeros] at h3 h4
  refine ⟨b, h1, h2, fun i hi => ?_, fun j hj hne => h4 j hj fun k hk => ?_⟩
  · have := h3 i hi
    rwa [addVec_zero _ _ hi.1] at this
  · rw [addVec_zero _ _ hk.1]; exact hne k hk

/-- An assignment to an array or view with an extent of zero is stopped by an assertion (whatever is in the buffer). -/
theorem C100_assign_value_empty (vd : Nat) (h : Hdr) (buf : List S) (v : S)
    (hz : ∃ d < h.shape.length, h.shape.getD d 0 = 0) : assignValue vd h buf v = .abort := by
  have : hasIndex h.shape (h.shape.map fun _ => 0) = false := by
    rw [Bool.eq_false_iff]
    intro hc
    have := (hasIndex_iff (by simp)).1 hc
    obtain ⟨d, hd, hd0⟩ := hz
    have := this.2 d hd
    omega
  unfold assignValue fill
  simp [this, Res.assert, Res.bind]

private theorem values_own (vd : Nat) (shape : List Nat) (hP : Small shape) (hd0 : 0 < shape.length)
    (hpos : ∀ d < shape.length, 0 < shape.getD d 0) (v : S) (buf : List S) (hb : buf.length = volume vd shape) :
    ∃ b, assignValue vd (mkHdr vd shape) buf v = .ok b ∧ b.length = volume vd shape ∧
      ∀ i, ValidInd shape i → read vd (mkHdr vd shape) b i = .ok (List.replicate vd v) := by
  obtain ⟨b, h1, h2, h3, _⟩ := C100_assign_value vd shape _ (mkHdr vd shape) hP ViewOf.own buf hb hd0 hpos v
  exact ⟨b, h1, by omega, h3⟩

/-- **C100, construction with a value**  `NDVecArray(shape, value)` with positive extents is an owning array of that
    shape all of whose elements hold the value, whatever was in the fresh memory. -/
theorem C100_construct_value (vd : Nat) (shape : List Nat) (hP : Small shape) (hd0 : 0 < shape.length)
    (hpos : ∀ d < shape.length, 0 < shape.getD d 0) (v : S) (junk : Nat → S) :
    ∃ b, constructValue vd shape v junk = .ok (mkHdr vd shape, b) ∧ b.length = volume vd shape ∧
      ∀ i, ValidInd shape i → read vd (mkHdr vd shape) b i = .ok (List.replicate vd v) := by
  obtain ⟨b, h1, h2, h3⟩ := values_own vd shape hP hd0 hpos v ((List.range (volume vd shape)).map junk) (by simp)
  exact ⟨b, by rw [constructValue, h1]; rfl, h2, h3⟩

/-- **C100, resizing with a value**  `resize(shape, value)` of an owning array of any shape and content gives an array
    all of whose elements hold the value: no old element survives. -/
theorem C100_resize_value (vd : Nat) (Q : List Nat) (buf : List S) (shape : List Nat) (hP : Small shape)
    (hd0 : 0 < shape.length) (hpos : ∀ d < shape.length, 0 < shape.getD d 0) (v : S) (junk : Nat → S) :
    ∃ b, resizeValue vd (mkHdr vd Q) buf shape v junk = .ok (mkHdr vd shape, b) ∧ b.length = volume vd shape ∧
      ∀ i, ValidInd shape i → read vd (mkHdr vd shape) b i = .ok (List.replicate vd v) := by
  obtain ⟨b, h1, h2, h3⟩ := values_own vd shape hP hd0 hpos v
    ((List.range (volume vd shape)).map fun k => buf.getD k (junk k)) (by simp)
  exact ⟨b, by rw [resizeValue, resize_own, Res.ok_bind, h1]; rfl, h2, h3⟩

/-- **C100**  An array with an extent of zero cannot be constructed or resized *with a value*: an assertion fails. (Without
    a value both are possible.) -/
theorem C100_empty_value_aborts (vd : Nat) (Q : List Nat) (buf : List S) (shape : List Nat) (v : S) (junk : Nat → S)
    (hz : ∃ d < shape.length, shape.getD d 0 = 0) :
    constructValue vd shape v junk = .abort ∧ resizeValue vd (mkHdr vd Q) buf shape v junk = .abort := by
  constructor
  · rw [constructValue, C100_assign_value_empty vd (mkHdr vd shape) _ v hz]; rfl
  · rw [resizeValue, resize_own, Res.ok_bind, C100_assign_value_empty vd (mkHdr vd shape) _ v hz]; rfl

/-- **C100**  Resizing, clearing, and `fill_from` a one-dimensional array along an axis that is not the last are refused
    on a view: an assertion fails before any element is written. -/
theorem C100_view_refused (vd : Nat) (h : Hdr) (hown : h.owns = false) (buf : List S) (shape : List Nat) (v : S)
    (junk : Nat → S) : resize vd h buf shape junk = .abort ∧ resizeValue vd h buf shape v junk = .abort ∧
      clear h buf v = .abort ∧ fillOtherAxis h buf = .abort := by
  simp [resizeValue, resize, clear, fillOtherAxis, hown, Res.assert, Res.bind]

/-- **C100**  On an owning array `fill_from` along an axis that is not the last always throws. -/
theorem C100_fill_other_axis_throws (vd : Nat) (P : List Nat) (buf : List S) :
    fillOtherAxis (mkHdr vd P) buf = .throw := rfl

/-- **C100, `clear`**  Clearing an owning array of any shape keeps the shape and makes every element zero. -/
theorem C100_clear (vd : Nat) (P : List Nat) (buf : List S) (hb : buf.length = volume vd P) (zero : S) :
    ∃ b, clear (mkHdr vd P) buf zero = .ok b ∧ b.length = buf.length ∧
      ∀ i, ValidInd P i → read vd (mkHdr vd P) b i = .ok (List.replicate vd zero) := by
  refine ⟨buf.map fun _ => zero, rfl, by simp, fun i hi => ?_⟩
  rw [read_own (by simpa using hb) hi]
  have hle := blk_le (vd := vd) hi
  congr 1
  rw [List.map_const', List.drop_replicate, List.take_replicate]
  congr 1
  omega

/-- **C100**  `resize` without a value keeps the *flat* beginning of the data: when only the first extent changes, the
    element at every index valid before and after is kept. -/
theorem C100_resize_rows_kept (vd m n : Nat) (T : List Nat) (buf : List S) (hb : buf.length = volume vd (m :: T))
    (junk : Nat → S) :
    ∃ b, resize vd (mkHdr vd (m :: T)) buf (n :: T) junk = .ok (mkHdr vd (n :: T), b) ∧ b.length = volume vd (n :: T) ∧
      ∀ i, ValidInd (m :: T) i → ValidInd (n :: T) i →
        read vd (mkHdr vd (n :: T)) b i = read vd (mkHdr vd (m :: T)) buf i := by
  refine ⟨_, resize_own vd (m :: T) (n :: T) buf junk, by simp, fun i hm hn => ?_⟩
  rw [read_own (by simp) hn, read_own hb hm]
  have e : lin (n :: T) i = lin (m :: T) i := by
    cases i with
    | nil => rfl
    | cons a l => rfl
  rw [e]
  have h1 := blk_le (vd := vd) hm
  have h2 := blk_le (vd := vd) hn
  rw [e] at h2
  congr 1
  apply block_ext
  intro k hk
  rw [List.getElem?_map, List.getElem?_range (by omega)]
  simp [List.getElem?_eq_getElem (show vd * lin (m :: T) i + k < buf.length by omega)]

/-- **C100**  When another extent changes, `resize` moves the data: the element at an index valid before and after is
    in general not kept. -/
theorem C100_resize_other_extent_moves :
    ∃ b, resize 1 (mkHdr 1 [2, 2]) [10, 11, 12, 13] [2, 1] (fun _ => 0) = .ok (mkHdr 1 [2, 1], b) ∧
      read 1 (mkHdr 1 [2, 1]) b [1, 0] = .ok [11] ∧ read 1 (mkHdr 1 [2, 2]) [10, 11, 12, 13] [1, 0] = .ok [12] :=
  ⟨[10, 11], by decide +kernel, by decide +kernel, by decide +kernel⟩

example : constructValue 2 [2, 1] 7 (fun k => 100 + k) = .ok (mkHdr 2 [2, 1], [7, 7, 7, 7]) := by decide +kernel
example : resizeValue 1 (mkHdr 1 [3]) [1, 2, 3] [2, 2] 7 (fun k => 100 + k) = .ok (mkHdr 1 [2, 2], [7, 7, 7, 7]) := by
  decide +kernel
example : resize 1 (mkHdr 1 [3]) [1, 2, 3] [2, 2] (fun k => 100 + k) = .ok (mkHdr 1 [2, 2], [1, 2, 3, 103]) := by
  decide +kernel
example : assignValue 1 (view (mkHdr 1 [2, 3]) [0, 1] [2, 3]) [1, 2, 3, 4, 5, 6] 9 = .ok [1, 9, 9, 4, 9, 9] := by
  decide +kernel
example : constructValue 1 [2, 0] 7 (fun k => 100 + k) = .abort := by decide +kernel
example : clear (mkHdr 1 [2]) [3, 4] 0 = .ok [0, 0] := by decide +kernel
example : resize 1 (mkHdr 1 [1, 2]) [1, 2] [2, 2] (fun k => 100 + k) = .ok (mkHdr 1 [2, 2], [1, 2, 102, 103]) := by
  decide +kernel
-- views of views are covered by the assignment theorem
example : ViewOf 1 [2, 3] (addVec ([2, 3].map fun _ => 0) [0, 1]) (view (mkHdr 1 [2, 3]) [0, 1] [2, 3]) :=
  ViewOf.step ViewOf.own ⟨rfl, by decide⟩ ⟨rfl, by decide⟩

end Verif.ND
