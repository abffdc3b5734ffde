import Verif.Array.Props3
/-
Model of NDVecArrayOperations.hxx (`Downsampling`), and C34.
-/
namespace Verif.Ops
open Verif Verif.ND

/-! ### The program -/

/-- Vector.hh 194-199, elementwise `operator*` for `std::size_t`. -/
def vmul (a b : List Nat) : List Nat := List.zipWith (fun x y => x * y % U64) a b

/-- Vector.hh 147-152, elementwise `operator/` for `std::size_t`; division by zero is undefined. -/
def vdiv (a b : List Nat) : Res (List Nat) := if b.any (· == 0) then .ub else .ok (List.zipWith (· / ·) a b)

/-- Vector.hh 180-185, `Vector + number`. -/
def vaddS (a : List Nat) (s : Nat) : List Nat := a.map (wadd · s)

/-- NDVecArrayOperations.hxx 5-8 `get_first_downsampled_ind_in_range`. -/
def firstInd (start ds : List Nat) : Res (List Nat) := vdiv (vsubS (vadd start ds) 1) ds

/-- NDVecArrayOperations.hxx 10-13 `get_last_downsampled_ind_in_range`. -/
def lastInd (stop ds : List Nat) : Res (List Nat) := (vdiv (vsubS stop 1) ds).bind fun q => .ok (vaddS q 1)

/-- NDVecArrayOperations.hxx 15-18 `get_shape`, with Vector.hxx 86-97 `VectorUtils::max`. -/
def dsShape (s e : List Nat) : List Nat := vsub (List.zipWith (fun a b => if a > b then a else b) e s) s

/-- NDVecArrayOperations.hxx 23-28 `get_downsampled_shape`. -/
def getDownsampledShape (start shape ds : List Nat) : Res (List Nat) :=
  (firstInd start ds).bind fun s => (lastInd (vadd start shape) ds).bind fun e => .ok (dsShape s e)

/-- NDVecArrayOperations.hxx 47-56 `downsampler`. -/
def dsOne (vd : Nat) (h : Hdr) (buf : List S) (start ds : List Nat) (hd : Hdr) (s : List Nat) (j : List Nat) (dst : List S) : Res (List S) :=
  let dest := vsub j s
  let src := vsub (vmul j ds) start
  (Res.assert (hasIndex hd.shape dest)).bind fun _ =>
  (Res.assert (hasIndex h.shape src)).bind fun _ =>
  (read vd h buf src).bind fun v => write vd hd dst dest v

/-- NDVecArrayOperations.hxx 30-59 `downsample(to_downsample, start_ind, downsampling, downsampled, downsampled_start_ind)`; `(h, buf)` is the input array,
    `(hd, dst)` the output array before the call; the result is the output array and its start index. -/
def downsample (vd : Nat) (h : Hdr) (buf : List S) (start ds : List Nat) (hd : Hdr) (dst : List S) (junk : Nat → S) :
    Res ((Hdr × List S) × List Nat) :=
  let stop := vadd start h.shape
  (firstInd start ds).bind fun s =>
  (lastInd stop ds).bind fun e =>
  (resize vd hd dst (dsShape s e) junk).bind fun r =>
  (runLoop (dsOne vd h buf start ds r.1 s) (elemLoop s e) r.2).bind fun d => .ok ((r.1, d), s)

/-! ### Specification -/

/-- The element of the fine grid that element `j` of the coarse grid stands for. -/
def onFine (j ds : List Nat) : List Nat := List.zipWith (· * ·) j ds

/-- The fine box `[s, e)` and the coarse box `[s', e')`: a coarse index is in the coarse box exactly if the fine index it stands for is in the fine box. -/
def SameElements (s e s' e' ds : List Nat) : Prop := ∀ j : List Nat, j.length = ds.length → (InBox s' e' j ↔ InBox s e (onFine j ds))

/-- The arguments make sense: as many dimensions as the array has, positive factors, a range that does not end at 0 (along any axis), and everything,
    including one factor more than the range, fits in 64 bits. -/
structure DsOk (start shape ds : List Nat) : Prop where
  len : start.length = shape.length ∧ ds.length = shape.length
  pos : ∀ d < shape.length, 0 < ds.getD d 0
  fits : ∀ d < shape.length, start.getD d 0 + shape.getD d 0 + ds.getD d 0 < 2 ^ 64
  ends : ∀ d < shape.length, 0 < start.getD d 0 + shape.getD d 0

/-- `c = ⌈a / b⌉`. -/
def IsCeil (a b c : Nat) : Prop := a ≤ c * b ∧ ∀ k, a ≤ k * b → c ≤ k

/-! ### Proof -/

def ceilVec (a ds : List Nat) : List Nat := List.zipWith (fun x y => (x + y - 1) / y) a ds

theorem getD_zipN {f : Nat → Nat → Nat} {a b : List Nat} {d : Nat} (h : d < a.length) (h' : d < b.length) :
    (List.zipWith f a b).getD d 0 = f (a.getD d 0) (b.getD d 0) := by
  simp only [List.getD_eq_getElem?_getD]
  rw [List.getElem?_eq_getElem (by simp; omega), List.getElem?_eq_getElem h, List.getElem?_eq_getElem h']
  simp

theorem ceil_le_iff {a b k : Nat} (hb : 0 < b) : (a + b - 1) / b ≤ k ↔ a ≤ k * b := by
  rw [Nat.div_le_iff_le_mul_add_pred hb, Nat.mul_comm b k]
  omega

theorem lt_ceil_iff {a b k : Nat} (hb : 0 < b) : k < (a + b - 1) / b ↔ k * b < a := by
  rw [← Nat.not_le, ceil_le_iff hb, Nat.not_le]

theorem ceil_isCeil {a b : Nat} (hb : 0 < b) : IsCeil a b ((a + b - 1) / b) :=
  ⟨(ceil_le_iff hb).1 (Nat.le_refl _), fun _ h => (ceil_le_iff hb).2 h⟩

theorem any_zero {ds : List Nat} (h : ∀ d < ds.length, 0 < ds.getD d 0) : (ds.any (· == 0)) = false := by
  rw [List.any_eq_false]
  intro x hx
  obtain ⟨d, hd, rfl⟩ := List.getElem_of_mem hx
  have := h d hd
  rw [List.getD_eq_getElem?_getD, List.getElem?_eq_getElem hd] at this
  simp at this ⊢; omega

theorem DsOk.pos' {start shape ds : List Nat} (h : DsOk start shape ds) : ∀ d < ds.length, 0 < ds.getD d 0 :=
  fun d hd => h.pos d (by rw [← h.len.2]; exact hd)

theorem getD_mapN {f : Nat → Nat} {a : List Nat} {d : Nat} (h : d < a.length) : (a.map f).getD d 0 = f (a.getD d 0) := by
  simp only [List.getD_eq_getElem?_getD, List.getElem?_map, List.getElem?_eq_getElem h]
  simp

theorem firstInd_eq {start shape ds : List Nat} (h : DsOk start shape ds) : firstInd start ds = .ok (ceilVec start ds) := by
  obtain ⟨l1, l2⟩ := h.len
  unfold firstInd vdiv
  rw [any_zero h.pos', if_neg (by simp)]
  congr 1
  apply vec_ext
  · simp [ceilVec, vsubS, vadd]
  · intro d hd
    simp [vsubS, vadd] at hd
    have := h.fits d (by omega)
    have := h.pos d (by omega)
    have hU : U64 = 2 ^ 64 := rfl
    unfold ceilVec
    rw [getD_zipN (by simp [vsubS, vadd]; omega) (by omega), getD_zipN (by omega) (by omega)]
    unfold vsubS vadd
    rw [getD_mapN (by simp; omega), getD_zipN (by omega) (by omega), wadd_eq (by omega), wsub_eq (by omega) (by omega)]

theorem lastInd_eq {start shape ds : List Nat} (h : DsOk start shape ds) : lastInd (vadd start shape) ds = .ok (ceilVec (addVec start shape) ds) := by
  obtain ⟨l1, l2⟩ := h.len
  unfold lastInd vdiv
  rw [any_zero h.pos', if_neg (by simp)]
  rw [Res.ok_bind]
  congr 1
  apply vec_ext
  · simp [ceilVec, vsubS, vadd, addVec, vaddS]
  · intro d hd
    simp [vsubS, vadd, vaddS] at hd
    have := h.fits d (by omega)
    have hp := h.pos d (by omega)
    have := h.ends d (by omega)
    have hU : U64 = 2 ^ 64 := rfl
    unfold ceilVec vaddS
    rw [getD_mapN (by simp [vsubS, vadd]; omega), getD_zipN (by simp [vsubS, vadd]; omega) (by omega),
      getD_zipN (by simp [addVec]; omega) (by omega), getD_addVec (by omega)]
    unfold vsubS vadd
    rw [getD_mapN (by simp; omega), getD_zipN (by omega) (by omega), wadd_eq (a := start.getD d 0) (by omega), wsub_eq (by omega) (by omega)]
    have h1 : (start.getD d 0 + shape.getD d 0 - 1) / ds.getD d 0 ≤ start.getD d 0 + shape.getD d 0 - 1 := Nat.div_le_self _ _
    rw [wadd_eq (by omega)]
    have h2 : start.getD d 0 + shape.getD d 0 + ds.getD d 0 - 1 = (start.getD d 0 + shape.getD d 0 - 1) + ds.getD d 0 := by omega
    rw [h2, Nat.add_div_right _ hp]

theorem length_ceilVec {a ds : List Nat} (h : a.length = ds.length) : (ceilVec a ds).length = ds.length := by simp [ceilVec, h]

theorem getD_ceilVec {a ds : List Nat} (h : a.length = ds.length) {d : Nat} (hd : d < ds.length) :
    (ceilVec a ds).getD d 0 = (a.getD d 0 + ds.getD d 0 - 1) / ds.getD d 0 := by
  unfold ceilVec; rw [getD_zipN (by omega) hd]

theorem ceil_mono {a a' b : Nat} (hb : 0 < b) (h : a ≤ a') : (a + b - 1) / b ≤ (a' + b - 1) / b := Nat.div_le_div_right (by omega)

theorem ceil_small {a b : Nat} (hb : 0 < b) : (a + b - 1) / b ≤ a := by
  rw [ceil_le_iff hb]
  calc a = a * 1 := by omega
    _ ≤ a * b := Nat.mul_le_mul_left _ hb

/-- The shape of the output. -/
theorem dsShape_eq {start shape ds : List Nat} (h : DsOk start shape ds) :
    dsShape (ceilVec start ds) (ceilVec (addVec start shape) ds) = subVec (ceilVec (addVec start shape) ds) (ceilVec start ds) := by
  obtain ⟨l1, l2⟩ := h.len
  have la : (addVec start shape).length = ds.length := by rw [addVec_length l1]; omega
  have hle : ∀ d < ds.length, (ceilVec start ds).getD d 0 ≤ (ceilVec (addVec start shape) ds).getD d 0 := by
    intro d hd
    rw [getD_ceilVec (by omega) hd, getD_ceilVec la hd, getD_addVec (by omega)]
    exact ceil_mono (h.pos d (by omega)) (by omega)
  unfold dsShape
  have : List.zipWith (fun a b => if a > b then a else b) (ceilVec (addVec start shape) ds) (ceilVec start ds) = ceilVec (addVec start shape) ds := by
    apply vec_ext
    · simp [length_ceilVec la, length_ceilVec (show start.length = ds.length by omega)]
    · intro d hd
      simp [length_ceilVec la, length_ceilVec (show start.length = ds.length by omega)] at hd
      rw [getD_zipN (by rw [length_ceilVec la]; omega) (by rw [length_ceilVec (by omega)]; omega)]
      have := hle d hd
      split <;> omega
  rw [this]
  apply vsub_eq
  · intro d hd
    rw [length_ceilVec la] at hd
    exact hle d hd
  · rw [length_ceilVec la, length_ceilVec (by omega)]
  · intro x hx
    obtain ⟨d, hd, rfl⟩ := List.getElem_of_mem hx
    have hd' := hd
    rw [length_ceilVec la] at hd'
    have h1 : (ceilVec (addVec start shape) ds)[d] = (ceilVec (addVec start shape) ds).getD d 0 := by
      rw [List.getD_eq_getElem?_getD, List.getElem?_eq_getElem hd]; rfl
    rw [h1, getD_ceilVec la hd', getD_addVec (by omega)]
    have := ceil_small (a := start.getD d 0 + shape.getD d 0) (h.pos d (by omega))
    have := h.fits d (by omega)
    have hU : U64 = 2 ^ 64 := rfl
    omega

theorem length_onFine {j ds : List Nat} (h : j.length = ds.length) : (onFine j ds).length = ds.length := by simp [onFine, h]

theorem same_ceil {start stop ds : List Nat} (l1 : start.length = ds.length) (l2 : stop.length = ds.length) (hp : ∀ d < ds.length, 0 < ds.getD d 0) :
    SameElements start stop (ceilVec start ds) (ceilVec stop ds) ds := by
  intro j hj
  unfold InBox
  rw [length_ceilVec l1, length_ceilVec l2, length_onFine hj, l1, l2]
  constructor
  · rintro ⟨_, _, h⟩
    refine ⟨rfl, rfl, fun d hd => ?_⟩
    have := h d (by omega)
    rw [getD_ceilVec l1 hd, getD_ceilVec l2 hd, ceil_le_iff (hp d hd), lt_ceil_iff (hp d hd)] at this
    unfold onFine
    rw [getD_zipN (by omega) hd]
    exact this
  · rintro ⟨_, _, h⟩
    refine ⟨hj, hj, fun d hd => ?_⟩
    have := h d (by omega)
    unfold onFine at this
    rw [getD_zipN (by omega) (by omega)] at this
    rw [getD_ceilVec l1 (by omega), getD_ceilVec l2 (by omega), ceil_le_iff (hp d (by omega)), lt_ceil_iff (hp d (by omega))]
    exact this

theorem inBox_sub {s e j : List Nat} (h : InBox s e j) : ValidInd (subVec e s) (subVec j s) := (valid_of_inBox h).1

theorem subVec_inj {s e i j : List Nat} (hi : InBox s e i) (hj : InBox s e j) (h : subVec i s = subVec j s) : i = j := by
  rw [(valid_of_inBox hi).2, (valid_of_inBox hj).2, h]

theorem InBox.ind_eq {s e j : List Nat} (hs : Small e) (h : InBox s e j) : vsub j s = subVec j s := by
  apply vsub_eq
  · intro d hd; exact (h.2.2 d hd).1
  · exact h.1
  · intro x hx
    obtain ⟨d, hd, rfl⟩ := List.getElem_of_mem hx
    have := (h.2.2 d hd).2
    have h2 := hs.getD d
    rw [show j.getD d 0 = j[d] from by rw [List.getD_eq_getElem?_getD, List.getElem?_eq_getElem hd]; rfl] at this
    omega

/-- What the output of `downsample` has to be. -/
structure IsDown (vd : Nat) (h : Hdr) (buf : List S) (start ds s' shape' : List Nat) (out : List S) : Prop where
  lens : s'.length = ds.length ∧ shape'.length = ds.length ∧ out.length = volume vd shape'
  first : ∀ d < ds.length, IsCeil (start.getD d 0) (ds.getD d 0) (s'.getD d 0)
  last : ∀ d < ds.length, IsCeil (start.getD d 0 + h.shape.getD d 0) (ds.getD d 0) (s'.getD d 0 + shape'.getD d 0)
  same : SameElements start (addVec start h.shape) s' (addVec s' shape') ds
  elems : ∀ j, InBox s' (addVec s' shape') j →
    ∃ v, read vd (mkHdr vd shape') out (subVec j s') = .ok v ∧ read vd h buf (subVec (onFine j ds) start) = .ok v ∧ ValidInd h.shape (subVec (onFine j ds) start)

theorem addVec_subVec {a b : List Nat} (h : LeVec a b) : addVec a (subVec b a) = b := by
  have l : (subVec b a).length = b.length := length_subVec h.1.symm
  apply vec_ext
  · rw [addVec_length (by rw [l]; exact h.1)]; exact h.1
  · intro d hd
    rw [getD_addVec (by rw [l]; exact h.1), getD_subVec h.1.symm]
    rw [addVec_length (by rw [l]; exact h.1)] at hd
    have := h.2 d hd
    omega

theorem small_of_getD {v : List Nat} (h : ∀ d < v.length, v.getD d 0 < 2 ^ 64) : Small v := by
  intro x hx
  obtain ⟨d, hd, rfl⟩ := List.getElem_of_mem hx
  have := h d hd
  rwa [show v.getD d 0 = v[d] from by rw [List.getD_eq_getElem?_getD, List.getElem?_eq_getElem hd]; rfl] at this

/-- **C34** (one array).  Downsampling keeps exactly the elements whose global index is a multiple of the factors: the output starts at the first
    coarse index whose element is in the input and ends behind the last one, a coarse index is in the output exactly if the element it stands for is in the
    input, and its value is the value of that element. What was in the output array before does not matter. `get_downsampled_shape` predicts the shape. -/
theorem C34_downsample (vd : Nat) (P st : List Nat) (h : Hdr) (hP : Small P) (hv : ViewOf vd P st h) (buf : List S) (hb : buf.length = volume vd P)
    (start ds : List Nat) (hok : DsOk start h.shape ds) (Q : List Nat) (dst : List S) (junk : Nat → S) :
    ∃ s' shape' out, downsample vd h buf start ds (mkHdr vd Q) dst junk = .ok ((mkHdr vd shape', out), s') ∧
      getDownsampledShape start h.shape ds = .ok shape' ∧ IsDown vd h buf start ds s' shape' out := by
  obtain ⟨l1, l2⟩ := hok.len
  have w := hv.window hP
  have la : (addVec start h.shape).length = ds.length := by rw [addVec_length l1]; omega
  have ls : start.length = ds.length := by omega
  have c1 := length_ceilVec (show start.length = ds.length by omega)
  have c2 := length_ceilVec la
  have hle : LeVec (ceilVec start ds) (ceilVec (addVec start h.shape) ds) := by
    refine ⟨by omega, fun d hd => ?_⟩
    rw [getD_ceilVec ls (by omega), getD_ceilVec la (by omega), getD_addVec (by omega)]
    exact ceil_mono (hok.pos d (by omega)) (by omega)
  have hadd := addVec_subVec hle
  have hsm : Small (ceilVec (addVec start h.shape) ds) := by
    apply small_of_getD
    intro d hd
    rw [getD_ceilVec la (by omega), getD_addVec (by omega)]
    have := ceil_small (a := start.getD d 0 + h.shape.getD d 0) (hok.pos d (by omega))
    have := hok.fits d (by omega)
    omega
  have hsm' : Small (subVec (ceilVec (addVec start h.shape) ds) (ceilVec start ds)) := by
    apply small_of_getD
    intro d hd
    rw [getD_subVec (by omega)]
    have := hsm.getD d
    have hU : U64 = 2 ^ 64 := rfl
    omega
  have hsame := same_ceil (stop := addVec start h.shape) ls la hok.pos'
  have hlen : (subVec (ceilVec (addVec start h.shape) ds) (ceilVec start ds)).length = ds.length := by rw [length_subVec (by omega)]; exact c2
  have hsrc : ∀ j, InBox (ceilVec start ds) (ceilVec (addVec start h.shape) ds) j →
      vsub (vmul j ds) start = subVec (onFine j ds) start ∧ ValidInd h.shape (subVec (onFine j ds) start) := by
    intro j hj
    have hjl : j.length = ds.length := by rw [hj.1]; exact c1
    have hf := (hsame j hjl).1 hj
    have hlf := length_onFine hjl
    have hm : vmul j ds = onFine j ds := by
      apply vec_ext
      · simp [vmul, onFine]
      · intro d hd
        simp [vmul] at hd
        have h2 := (hf.2.2 d (by omega)).2
        rw [getD_addVec (by omega)] at h2
        have := hok.fits d (by omega)
        have hU : U64 = 2 ^ 64 := rfl
        unfold vmul onFine at *
        rw [getD_zipN (by omega) (by omega)] at h2 ⊢
        rw [getD_zipN (by omega) (by omega)]
        exact Nat.mod_eq_of_lt (by omega)
    have hs : Small (addVec start h.shape) := by
      apply small_of_getD
      intro d hd
      rw [getD_addVec (by omega)]
      have := hok.fits d (by omega)
      omega
    refine ⟨by rw [hm]; exact InBox.ind_eq hs hf, ?_⟩
    have hv2 := inBox_sub hf
    have : subVec (addVec start h.shape) start = h.shape := by
      apply vec_ext
      · rw [length_subVec (by omega), addVec_length (by omega)]; omega
      · intro d hd
        rw [getD_subVec (by omega), getD_addVec (by omega)]; omega
    rwa [this] at hv2
  obtain ⟨out, r1, r2, r3, _⟩ := runWrites (vd := vd) hsm'
    ((elemLoop (ceilVec start ds) (ceilVec (addVec start h.shape) ds)).map fun j => (subVec j (ceilVec start ds), blk vd P buf (addVec st (subVec (onFine j ds) start))))
    ((List.range (volume vd (subVec (ceilVec (addVec start h.shape) ds) (ceilVec start ds)))).map fun k => dst.getD k (junk k)) (by simp)
    (by
      intro x hx
      obtain ⟨j, hj, rfl⟩ := List.mem_map.1 hx
      rw [mem_elemLoop] at hj
      refine ⟨inBox_sub hj, ?_⟩
      have := blk_le (vd := vd) (w.valid (hsrc j hj).2)
      simp only [blk, List.length_take, List.length_drop]
      omega)
    (by
      rw [List.map_map, List.Nodup, List.pairwise_map]
      apply List.Pairwise.imp_of_mem _ (elemLoop_nodup _ _)
      intro i j hi hj hne heq
      exact hne (subVec_inj (mem_elemLoop.1 hi) (mem_elemLoop.1 hj) heq))
  refine ⟨ceilVec start ds, subVec (ceilVec (addVec start h.shape) ds) (ceilVec start ds), out, ?_, ?_, ?_⟩
  · unfold downsample
    rw [firstInd_eq hok, Res.ok_bind, lastInd_eq hok, Res.ok_bind, dsShape_eq hok, resize_own, Res.ok_bind]
    rw [runLoop_map] at r1
    rw [runLoop_congr (g := fun j d => write vd (mkHdr vd (subVec (ceilVec (addVec start h.shape) ds) (ceilVec start ds))) d (subVec j (ceilVec start ds))
      (blk vd P buf (addVec st (subVec (onFine j ds) start))))]
    · rw [r1]; rfl
    · intro j hj b
      rw [mem_elemLoop] at hj
      unfold dsOne
      have h1 := hsrc j hj
      rw [InBox.ind_eq hsm hj, h1.1]
      have hv1 := inBox_sub hj
      show (Res.assert (hasIndex (subVec (ceilVec (addVec start h.shape) ds) (ceilVec start ds)) _)).bind _ = _
      rw [(hasIndex_iff hv1.1).2 hv1, (hasIndex_iff h1.2.1).2 h1.2, Res.assert_true, Res.ok_bind, Res.ok_bind, read_window w hb h1.2, Res.ok_bind]
  · unfold getDownsampledShape
    rw [firstInd_eq hok, Res.ok_bind, lastInd_eq hok, Res.ok_bind, dsShape_eq hok]
  · refine ⟨⟨c1, hlen, by rw [r2]; simp⟩, fun d hd => ?_, fun d hd => ?_, ?_, fun j hj => ?_⟩
    · rw [getD_ceilVec ls hd]; exact ceil_isCeil (hok.pos d (by omega))
    · rw [← getD_addVec (a := ceilVec start ds) (by omega), hadd, getD_ceilVec la hd, getD_addVec (by omega)]
      exact ceil_isCeil (hok.pos d (by omega))
    · rw [hadd]; exact hsame
    · rw [hadd] at hj
      refine ⟨_, r3 _ (List.mem_map.2 ⟨j, mem_elemLoop.2 hj, rfl⟩), ?_, (hsrc j hj).2⟩
      rw [read_window w hb (hsrc j hj).2]

end Verif.Ops
