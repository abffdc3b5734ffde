import Verif.Stream.Props16
import Verif.Array.Props3
/-
Owning arrays as values, and what a chunk file holds: the link between the streamer (C15, C16) and the chunk cache.
-/
namespace Verif.Dist
open Verif Verif.ND Verif.Bytes Verif.NullSup Verif.Stream

/-- An owning `NDVecArray<float, dims, vec_dims>`: shape and buffer (NDVecArray.hxx 6-14; strides and offset are determined by
    the shape). -/
structure Arr where
  shape : List Nat
  buf : List Nat
deriving DecidableEq, Repr

/-- The header of an owning array. -/
def Arr.hdr (vd : Nat) (a : Arr) : Hdr := mkHdr vd a.shape

/-- `arr[ind]`. -/
def Arr.get (vd : Nat) (a : Arr) (i : List Nat) : Res (List Nat) := ND.read vd (a.hdr vd) a.buf i

/-- The fixed parameters of a chunk cache: byte order of the machine, `vec_dims`, `dims`, the streamer chunk size, the requested cache
    size (DistributedNDVecArray.hxx 23-36), and the contents of uninitialised memory. -/
structure Cfg where
  hst : Host
  vd : Nat
  dims : Nat
  chunk : List Nat
  size : Nat
  junk : Nat → Nat

/-! ### Specification vocabulary -/

/-- The same vector of numbers: equal bit by bit, or both zero (`+0` and `-0` are the same number). -/
def VEq (v w : List Nat) : Prop := v = w ∨ (v.length = w.length ∧ (∀ x ∈ v, FloatIsZero x) ∧ ∀ x ∈ w, FloatIsZero x)

/-- The same array of numbers: same shape, and the same vector at every index. -/
def AEq (vd : Nat) (a b : Arr) : Prop :=
  a.shape = b.shape ∧ ∀ i, ValidInd a.shape i → ∃ v w, a.get vd i = .ok v ∧ b.get vd i = .ok w ∧ VEq v w

/-- Concatenation along the first axis (row-major storage: the buffers follow each other). -/
def Arr.cat (a s : Arr) : Arr := ⟨a.shape.set 0 (a.shape.getD 0 0 + s.shape.getD 0 0), a.buf ++ s.buf⟩

/-- The streamer chunk size is usable: one positive entry per dimension, bounded along the first axis. -/
structure Cfg.Ok (C : Cfg) : Prop where
  vd : 0 < C.vd
  dims : 0 < C.dims
  len : C.chunk.length = C.dims
  small : Small C.chunk
  pos : ∀ c ∈ C.chunk, 0 < c
  first : C.chunk.getD 0 0 < 2 ^ 63

/-- A shape that can be stored and extended: it exists in memory, the streamer chunk length divides the extent along the first axis
    (always the case for chunk length 1, as used throughout Eisvogel), divides or covers the extents along the other axes, and no
    streamer chunk has `2^32` or more vectors. -/
structure Fit (C : Cfg) (sh : List Nat) : Prop where
  len : sh.length = C.dims
  lt : ∀ x ∈ sh, x < 2 ^ 62
  vol : volume C.vd sh < 2 ^ 62
  div0 : C.chunk.getD 0 0 ∣ sh.getD 0 0
  fit : ∀ d, 0 < d → d < C.dims → sh.getD d 0 ≤ C.chunk.getD d 0 ∨ C.chunk.getD d 0 ∣ sh.getD d 0
  below : C.chunk.getD 0 0 * numElems sh.tail < 2 ^ 32

/-- An array in memory with an admissible shape. -/
structure Arr.Ok (C : Cfg) (a : Arr) : Prop where
  fit : Fit C a.shape
  len : a.buf.length = volume C.vd a.shape
  bits : ∀ w ∈ a.buf, w < 2 ^ 32

/-! ### Elementary facts -/

theorem VEq.refl (v : List Nat) : VEq v v := Or.inl rfl
theorem VEq.symm {v w : List Nat} (h : VEq v w) : VEq w v := by
  rcases h with rfl | ⟨a, b, c⟩
  · exact .refl _
  · exact Or.inr ⟨a.symm, c, b⟩
theorem VEq.trans {u v w : List Nat} (h : VEq u v) (h' : VEq v w) : VEq u w := by
  rcases h with rfl | ⟨a, b, c⟩
  · exact h'
  · rcases h' with rfl | ⟨a', b', c'⟩
    · exact Or.inr ⟨a, b, c⟩
    · exact Or.inr ⟨a.trans a', b, c'⟩
theorem VEq.of_canon {v w : List Nat} (h : Canon v w) : VEq v w := by
  by_cases hz : ∀ x ∈ v, FloatIsZero x
  · rw [h.1 hz]
    refine Or.inr ⟨by simp, hz, fun x hx => ?_⟩
    obtain ⟨_, _, rfl⟩ := List.mem_map.1 hx
    exact Or.inl rfl
  · rw [h.2 hz]; exact .refl _

theorem VEq.bits {v w : List Nat} (h : VEq v w) (hv : ∀ x ∈ v, x < 2 ^ 32) : ∀ x ∈ w, x < 2 ^ 32 := by
  rcases h with rfl | ⟨_, _, c⟩
  · exact hv
  · intro x hx
    rcases c x hx with rfl | rfl <;> decide

theorem AEq.symm {vd : Nat} {a b : Arr} (h : AEq vd a b) : AEq vd b a := by
  refine ⟨h.1.symm, fun i hi => ?_⟩
  obtain ⟨v, w, h1, h2, h3⟩ := h.2 i (by rw [h.1]; exact hi)
  exact ⟨w, v, h2, h1, h3.symm⟩
theorem AEq.trans {vd : Nat} {a b c : Arr} (h : AEq vd a b) (h' : AEq vd b c) : AEq vd a c := by
  refine ⟨h.1.trans h'.1, fun i hi => ?_⟩
  obtain ⟨v, w, h1, h2, h3⟩ := h.2 i hi
  obtain ⟨v', w', k1, k2, k3⟩ := h'.2 i (by rw [← h.1]; exact hi)
  rw [h2] at k1; cases k1
  exact ⟨v, w', h1, k2, h3.trans k3⟩

theorem Arr.Ok.small {C : Cfg} {a : Arr} (h : a.Ok C) : Small a.shape := fun x hx => by have := h.fit.lt x hx; omega

theorem Arr.Ok.given {C : Cfg} (hC : C.Ok) {a : Arr} (h : a.Ok C) : Given C.vd a.shape (a.shape.map fun _ => 0) (a.hdr C.vd) a.buf where
  view := ViewOf.own
  small := h.small
  vd_pos := hC.vd
  dims := by show 0 < a.shape.length; rw [h.fit.len]; exact hC.dims
  len := h.len
  vol := h.fit.vol
  bits := h.bits

theorem Arr.Ok.get {C : Cfg} (hC : C.Ok) {a : Arr} (h : a.Ok C) {i : List Nat} (hi : ValidInd a.shape i) :
    ∃ v, a.get C.vd i = .ok v ∧ v.length = C.vd ∧ ∀ x ∈ v, x < 2 ^ 32 := by
  obtain ⟨h1, h2, h3⟩ := elemFn_good (h.given hC) (i := i) hi
  exact ⟨_, h1, h2, h3⟩

theorem AEq.refl {C : Cfg} (hC : C.Ok) {a : Arr} (h : a.Ok C) : AEq C.vd a a := by
  refine ⟨rfl, fun i hi => ?_⟩
  obtain ⟨v, h1, _⟩ := h.get hC hi
  exact ⟨v, v, h1, h1, .refl _⟩

/-- Every word of the buffer belongs to an element. -/
theorem pred_of_elems {Q : Nat → Prop} {vd : Nat} (hvd : 0 < vd) {a : Arr} (hl : a.buf.length = volume vd a.shape)
    (he : ∀ i, ValidInd a.shape i → ∃ v, a.get vd i = .ok v ∧ ∀ x ∈ v, Q x) : ∀ w ∈ a.buf, Q w := by
  intro w hw
  obtain ⟨x, hx, rfl⟩ := List.getElem_of_mem hw
  obtain ⟨i, hi, h1, h2⟩ := (C03_addressing_bijective vd hvd a.shape).2.2 x (by rw [← hl]; exact hx)
  obtain ⟨v, hv, hb⟩ := he i hi
  apply hb
  unfold Arr.get ND.read at hv
  split at hv
  · split at hv
    · cases hv
      rw [List.mem_iff_getElem]
      refine ⟨x - flatInd (a.hdr vd) i, ?_, ?_⟩
      · rw [List.length_take, List.length_drop]
        have : flatInd (a.hdr vd) i = flatInd (mkHdr vd a.shape) i := rfl
        omega
      · rw [List.getElem_take, List.getElem_drop]
        congr 1
        have : flatInd (a.hdr vd) i = flatInd (mkHdr vd a.shape) i := rfl
        omega
    · cases hv
  · cases hv

theorem bits_of_elems {vd : Nat} (hvd : 0 < vd) {a : Arr} (hl : a.buf.length = volume vd a.shape)
    (he : ∀ i, ValidInd a.shape i → ∃ v, a.get vd i = .ok v ∧ ∀ x ∈ v, x < 2 ^ 32) : ∀ w ∈ a.buf, w < 2 ^ 32 := pred_of_elems hvd hl he

theorem get_subset {vd : Nat} {a : Arr} {i v : List Nat} (h : a.get vd i = .ok v) : ∀ x ∈ v, x ∈ a.buf := by
  unfold Arr.get ND.read at h
  split at h
  · split at h
    · cases h
      exact fun x hx => List.mem_of_mem_drop (List.mem_of_mem_take hx)
    · cases h
  · cases h

theorem AEq.ok {C : Cfg} (hC : C.Ok) {a b : Arr} (h : AEq C.vd a b) (ha : a.Ok C) (hl : b.buf.length = volume C.vd b.shape) : b.Ok C where
  fit := by rw [← h.1]; exact ha.fit
  len := hl
  bits := bits_of_elems hC.vd hl fun i hi => by
    rw [← h.1] at hi
    obtain ⟨v, w, h1, h2, h3⟩ := h.2 i hi
    obtain ⟨v', k1, _, k3⟩ := ha.get hC hi
    rw [h1] at k1; cases k1
    exact ⟨w, h2, h3.bits k3⟩

theorem safe_of {b e c : List Nat} (h1 : b.length = e.length) (h2 : c.length = e.length)
    (h : ∀ d < e.length, SafeDim (b.getD d 0) (e.getD d 0) (c.getD d 0)) : Safe b e c := by
  induction e generalizing b c with
  | nil =>
    rw [List.length_nil, List.length_eq_zero_iff] at h1 h2
    subst h1 h2; exact trivial
  | cons e es ih =>
    cases b with
    | nil => simp at h1
    | cons b bs =>
      cases c with
      | nil => simp at h2
      | cons c cs =>
        exact ⟨by simpa using h 0 (by simp), ih (by simpa using h1) (by simpa using h2) fun d hd => by
          simpa using h (d + 1) (by simpa using hd)⟩

theorem getD_mem {l : List Nat} {d : Nat} (h : d < l.length) : l.getD d 0 ∈ l := by
  rw [List.getD_eq_getElem?_getD, List.getElem?_eq_getElem h]; exact List.getElem_mem h

theorem Fit.safe {C : Cfg} (hC : C.Ok) {sh : List Nat} (h : Fit C sh) : Safe (sh.map fun _ => 0) sh C.chunk := by
  refine safe_of (by simp) (by rw [hC.len, h.len]) fun d hd => ?_
  have h0 : (sh.map fun _ => 0).getD d 0 = 0 := by
    rw [List.getD_eq_getElem?_getD, List.getElem?_map]; cases sh[d]? <;> rfl
  rw [h0]
  have hlt := h.lt _ (getD_mem hd)
  have hpos := hC.pos _ (getD_mem (l := C.chunk) (d := d) (by rw [hC.len, ← h.len]; exact hd))
  have hsm := hC.small _ (getD_mem (l := C.chunk) (d := d) (by rw [hC.len, ← h.len]; exact hd))
  unfold SafeDim
  by_cases h00 : d = 0
  · subst h00
    have := hC.first
    omega
  · rcases h.fit d (by omega) (by rw [← h.len]; exact hd) with h3 | h3
    · omega
    · by_cases hz : sh.getD d 0 = 0
      · omega
      · have := Nat.le_of_dvd (by omega) h3
        omega

theorem Fit.below' {C : Cfg} (hC : C.Ok) {sh : List Nat} (h : Fit C sh) : ChunksBelow sh C.chunk := by
  intro lo hi hb
  obtain ⟨h1, h2, h3⟩ := hb
  simp only [List.length_map] at h1 h2 h3
  have hd := hC.dims
  have hl := h.len
  have hle : prod (subVec hi lo) ≤ prod (C.chunk.getD 0 0 :: sh.tail) := by
    apply prod_mono
    refine ⟨?_, fun d hd' => ?_⟩
    · rw [length_subVec (by omega)]; simp only [List.length_cons, List.length_tail]; omega
    · rw [length_subVec (by omega)] at hd'
      rw [getD_subVec (by omega)]
      have := h3 d (by omega)
      cases d with
      | zero => rw [List.getD_cons_zero]; omega
      | succ d =>
        rw [List.getD_cons_succ]
        have e : sh.tail.getD d 0 = sh.getD (d + 1) 0 := by
          cases sh with
          | nil => rfl
          | cons a as => rfl
        rw [e]; omega
  rw [numElems_eq]
  have hb := h.below
  rw [numElems_eq] at hb
  simp only [prod] at hle
  omega

end Verif.Dist
