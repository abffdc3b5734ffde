import Verif.Array.Props3
/-
C08: exactly what a copy contains when the source is a view, and exactly which views are copied correctly.
-/
namespace Verif.ND
open Verif
variable {S : Type}

/-- **C08, what a copy contains, for any source**: whatever the strides and the offset of the source (an owning array or
    a view) are, copy assignment into an owning array gives an owning array of the shape of the source whose scalars
    are the first ones of the source's underlying buffer, in storage order. -/
theorem C08_assign_any_source_partial (vd : Nat) (hs : Hdr) (hS : Small hs.shape) (hd0 : 0 < hs.shape.length)
    (src : List S) (hsrc : volume vd hs.shape ≤ src.length) (Q : List Nat) (dst : List S) (junk : Nat → S) :
    ∃ out, assign vd (mkHdr vd Q) dst hs src junk = .ok (mkHdr vd hs.shape, out) ∧ out.length = volume vd hs.shape ∧
      ∀ i, ValidInd hs.shape i → read vd (mkHdr vd hs.shape) out i
        = read vd (mkHdr vd hs.shape) (src.take (volume vd hs.shape)) i := by
  generalize hP : hs.shape = P at hS hd0 hsrc
  unfold assign
  have w := mkHdr_window vd P
  rw [resize_own, hP]
  simp only [Res.bind_eq, Res.ok_bind]
  rcases shape_cases hd0 hS with ⟨h1, h2⟩ | ⟨e0, z, hez, hz, hr⟩
  · obtain ⟨boxes, hb1, hb2⟩ := arrayRows hS h1
    have : boxes = [] := by simpa using hb2
    subst this
    refine ⟨(List.range (volume vd P)).map fun k => dst.getD k (junk k), ?_, by simp, fun i hi => (h2 i hi).elim⟩
    simp only [mkHdr] at *
    simp only [hb1, Res.ok_bind]
    rfl
  · obtain ⟨boxes, hb1, hb2⟩ := arrayRows hS hr
    have hlv : LeVec (e0 ++ [z]) P := by rw [hez]; exact ⟨rfl, fun _ _ => Nat.le_refl _⟩
    have hlast : lastD P = z := by rw [hez, lastD_append]
    have hstep := runLoop_map (σ := List S) Prod.fst
      (fun lo d => copyN src (flatInd (mkHdr vd P) lo) (z * vd) d (flatInd (mkHdr vd P) lo)) boxes
      ((List.range (volume vd P)).map fun k => dst.getD k (junk k))
    rw [hb2] at hstep
    obtain ⟨r, q1, q2, q3, _⟩ := rowsWrite w ((List.range (volume vd P)).map fun k => dst.getD k (junk k)) (by simp)
      src (fun p => flatInd (mkHdr vd P) (p ++ [0])) id 0 z hz (elemLoop (e0.map fun _ => 0) e0) (elemLoop_nodup _ _)
      (fun p hp t ht => row_valid (by simp) hlv hp (by omega)) (fun _ _ _ _ h => h)
      (fun p hp => Nat.le_trans (row_bound w hz (fun t ht => row_valid (by simp) hlv hp (by omega))) hsrc)
    have hrl : r.length = volume vd P := by simpa using q2
    refine ⟨r, ?_, hrl, ?_⟩
    · rw [show (mkHdr vd P).shape = P from rfl, hb1]
      simp only [Res.ok_bind, hlast]
      rw [runLoop_map] at hstep
      simp only [id] at q1
      rw [← hstep, q1]
      rfl
    · intro i hi
      have hst : (src.take (volume vd P)).length = volume vd P := by simp; omega
      rw [read_own hrl hi, read_own hst hi]
      have hle := blk_le (vd := vd) hi
      have hi2 := inBox_of_valid hi
      obtain ⟨p, t, rfl⟩ := exists_snoc (l := i) (by rw [hi.1]; exact hd0)
      rw [hez, List.map_append] at hi2
      have hpl : p.length = (e0.map fun _ => 0).length := by
        have := hi2.2.1; simpa using this
      obtain ⟨hp, ht0, ht⟩ := (inBox_snoc (by simp) hpl).1 hi2
      have hp' := mem_elemLoop.2 hp
      have := q3 p hp' t ht
      simp only [id, Nat.zero_add] at this
      rw [blk, addVec_zero P _ hi.1] at this
      rw [this]
      have hl : (p ++ [0]).length = P.length := by have := hi.1; simpa using this
      have hpos := pos_row (vd := vd) w hl t
      rw [Nat.zero_add, addVec_zero P _ hi.1] at hpos
      rw [hpos, List.drop_take, List.take_take, Nat.min_eq_left (by omega)]

theorem prod_le_of_extents : ∀ {E P : List Nat}, E.length = P.length → (∀ d < E.length, E.getD d 0 ≤ P.getD d 0) →
    prod E ≤ prod P
  | [], [], _, _ => Nat.le_refl _
  | e :: E, p :: P, hl, h => by
      have h0 := h 0 (by simp)
      have ih := prod_le_of_extents (E := E) (P := P) (by simpa using hl) fun d hd => by
        have := h (d + 1) (by simpa using hd)
        simpa using this
      simp only [prod]
      exact Nat.mul_le_mul (by simpa using h0) ih

theorem prod_of_zero_extent : ∀ {E : List Nat}, (∃ d < E.length, E.getD d 0 = 0) → prod E = 0
  | [], ⟨_, hd, _⟩ => by simp at hd
  | e :: E, ⟨d, hd, h⟩ => by
      cases d with
      | zero => simp at h; simp [prod, h]
      | succ d => simp only [prod]; rw [prod_of_zero_extent (E := E) ⟨d, by simpa using hd, by simpa using h⟩, Nat.mul_zero]

/-- A view never has more elements than the array it was taken from. -/
theorem view_volume_le {vd : Nat} {P st : List Nat} {h : Hdr} (hP : Small P) (hv : ViewOf vd P st h) :
    volume vd h.shape ≤ volume vd P := by
  have w := hv.window hP
  rw [volume_eq, volume_eq]
  apply Nat.mul_le_mul_right
  by_cases hz : ∃ d < h.shape.length, h.shape.getD d 0 = 0
  · rw [prod_of_zero_extent hz]; exact Nat.zero_le _
  · have hpos : ∀ d < h.shape.length, 0 < h.shape.getD d 0 := fun d hd =>
      Nat.pos_of_ne_zero fun h0 => hz ⟨d, hd, h0⟩
    have hval : ValidInd h.shape (h.shape.map (· - 1)) := by
      refine ⟨by simp, fun d hd => ?_⟩
      have := hpos d hd
      have hg : (h.shape.map (· - 1)).getD d 0 = h.shape.getD d 0 - 1 := by simp [hd]
      omega
    have hv2 := w.valid hval
    refine prod_le_of_extents (by rw [w.lenShape]) fun d hd => ?_
    have h1 := hv2.2 d (by rw [← w.lenShape]; exact hd)
    have hg : (addVec st (h.shape.map (· - 1))).getD d 0 = st.getD d 0 + (h.shape.getD d 0 - 1) := by
      have l1 : d < st.length := by rw [w.lenSt, ← w.lenShape]; exact hd
      rw [getD_addVec (by rw [w.lenSt, ← w.lenShape]; simp)]
      congr 1
      simp [hd]
    have := hpos d hd
    omega

/-- **C08, exactly which views are copied correctly**: the copy of a view equals the view, for every content of the
    underlying buffer, exactly when each element of the view lies where a fresh contiguous array of the view's shape
    would have it. -/
theorem C08_view_copy_exact_partial (vd : Nat) (hvd : 0 < vd) (P st : List Nat) (h : Hdr) (hP : Small P)
    (hv : ViewOf vd P st h) (hd0 : 0 < h.shape.length) (Q : List Nat) :
    (∀ (src dst : List Nat) (junk : Nat → Nat), src.length = volume vd P →
      CopyEqual vd h src (assign vd (mkHdr vd Q) dst h src junk)) ↔
    ∀ i, ValidInd h.shape i → flatInd h i = flatInd (mkHdr vd h.shape) i := by
  have w := hv.window hP
  have w2 := mkHdr_window vd h.shape
  have sm := (hv.shape_small hP).1
  have hfit := view_volume_le hP hv
  have key : ∀ (src dst : List Nat) (junk : Nat → Nat), src.length = volume vd P →
      (CopyEqual vd h src (assign vd (mkHdr vd Q) dst h src junk) ↔
        ∀ i, ValidInd h.shape i → (src.drop (flatInd (mkHdr vd h.shape) i)).take vd
          = (src.drop (flatInd h i)).take vd) := by
    intro src dst junk hl
    obtain ⟨out, h1, h2, h3⟩ := C08_assign_any_source_partial vd h sm hd0 src (by omega) Q dst junk
    have hst : (src.take (volume vd h.shape)).length = volume vd h.shape := by simp; omega
    have hread : ∀ i, ValidInd h.shape i →
        (read vd (mkHdr vd h.shape) out i = read vd h src i ↔
          (src.drop (flatInd (mkHdr vd h.shape) i)).take vd = (src.drop (flatInd h i)).take vd) := by
      intro i hi
      have hle := blk_le (vd := vd) hi
      have hil : i.length = P.length := by rw [hi.1, w.lenShape]
      rw [h3 i hi, read_own hst hi, read_window w hl hi, w.flat hil, w2.flat hi.1, addVec_zero _ _ hi.1,
        List.drop_take, List.take_take, Nat.min_eq_left (by omega)]
      simp
    rw [h1]
    constructor
    · rintro ⟨o, e, _, hh⟩ i hi
      cases e
      exact (hread i hi).1 (hh i hi)
    · intro hh
      exact ⟨out, rfl, h2, fun i hi => (hread i hi).2 (hh i hi)⟩
  constructor
  · intro hall i hi
    have := (key (List.range (volume vd P)) [] (fun _ => 0) (by simp)).1 (hall _ _ _ (by simp)) i hi
    have hil : i.length = P.length := by rw [hi.1, w.lenShape]
    have l1 : flatInd h i + vd ≤ volume vd P := by rw [w.flat hil]; exact blk_le (w.valid hi)
    have l2 : flatInd (mkHdr vd h.shape) i + vd ≤ volume vd h.shape := by
      rw [w2.flat hi.1, addVec_zero _ _ hi.1]; exact blk_le hi
    have h0 := congrArg (fun l : List Nat => l[0]?) this
    simp only [List.getElem?_take_of_lt hvd, List.getElem?_drop, Nat.add_zero] at h0
    rw [List.getElem?_range (by omega), List.getElem?_range (by omega)] at h0
    exact (Option.some.inj h0).symm
  · intro hall src dst junk hl
    exact (key src dst junk hl).2 fun i hi => by rw [hall i hi]

/-- **C08**  In particular a view of the leading rows of an owning array (all of the other axes) is copied correctly. -/
theorem C08_leading_rows_view_partial (vd m n : Nat) (T : List Nat) (hP : Small (m :: T)) (hn : n ≤ m) (src : List S)
    (hs : src.length = volume vd (m :: T)) (Q : List Nat) (dst : List S) (junk : Nat → S) :
    CopyEqual vd (view (mkHdr vd (m :: T)) (0 :: T.map fun _ => 0) (n :: T)) src
      (assign vd (mkHdr vd Q) dst (view (mkHdr vd (m :: T)) (0 :: T.map fun _ => 0) (n :: T)) src junk) := by
  have hz : vsub (n :: T) (0 :: T.map fun _ => 0) = n :: T := by
    have hT : ∀ T : List Nat, (∀ x ∈ T, x < 2 ^ 64) → List.zipWith wsub T (T.map fun _ => 0) = T := by
      intro T hT
      induction T with
      | nil => rfl
      | cons t T ih =>
          simp only [List.map_cons, List.zipWith_cons_cons]
          rw [ih fun x hx => hT x (by simp [hx]), wsub_eq (by omega) (hT t (by simp))]
          simp
    show List.zipWith wsub _ _ = _
    have hm : m < 2 ^ 64 := hP m (by simp)
    rw [List.zipWith_cons_cons, hT T fun x hx => hP x (by simp [hx]), wsub_eq (by omega) (by show _ < 2 ^ 64; omega)]
    simp
  have hv : ViewOf vd (m :: T) (addVec ((m :: T).map fun _ => 0) (0 :: T.map fun _ => 0))
      (view (mkHdr vd (m :: T)) (0 :: T.map fun _ => 0) (n :: T)) :=
    ViewOf.step ViewOf.own ⟨by simp, by
      intro d hd
      cases d with
      | zero => simp
      | succ d =>
        have hd : d < T.length := by simpa using hd
        simp [hd]⟩ ⟨by simp [mkHdr], by
      intro d hd
      cases d with
      | zero => simpa [mkHdr] using hn
      | succ d => simp [mkHdr]⟩
  have w := hv.window hP
  rw [addVec_zero _ _ (by simp)] at w
  have hsh : (view (mkHdr vd (m :: T)) (0 :: T.map fun _ => 0) (n :: T)).shape = n :: T := hz
  have hvol : volume vd (n :: T) ≤ volume vd (m :: T) := by
    rw [volume_cons, volume_cons]; exact Nat.mul_le_mul_right _ hn
  have sm : Small (n :: T) := by
    rw [← hsh]; exact (hv.shape_small hP).1
  obtain ⟨out, h1, h2, h3⟩ := C08_assign_any_source_partial vd (view (mkHdr vd (m :: T)) (0 :: T.map fun _ => 0) (n :: T))
    (by rw [hsh]; exact sm) (by rw [hsh]; simp) src (by rw [hsh]; omega) Q dst junk
  refine ⟨out, h1, h2, fun i hi => ?_⟩
  rw [h3 i hi, read_window w hs hi]
  rw [hsh] at hi ⊢
  have hst : (src.take (volume vd (n :: T))).length = volume vd (n :: T) := by simp; omega
  have hle := blk_le (vd := vd) hi
  rw [read_own hst hi, List.drop_take, List.take_take, Nat.min_eq_left (by omega)]
  obtain ⟨a, l, rfl⟩ : ∃ a l, i = a :: l := by
    have := hi.1
    cases i with
    | nil => simp at this
    | cons a l => exact ⟨a, l, rfl⟩
  have hl : l.length = T.length := by have := hi.1; simpa using this
  have e1 : addVec (0 :: T.map fun _ => 0) (a :: l) = a :: l := by
    have := addVec_zero (m :: T) (a :: l) (by simp [hl])
    simpa using this
  rw [e1]
  rfl

-- the condition fails for the right column of a 2x2 array, and the copy holds the left upper elements instead
example : assign 1 (mkHdr 1 [2, 1]) [0, 0] (view (mkHdr 1 [2, 2]) [0, 1] [2, 2]) [1, 2, 3, 4] (fun _ => 0)
    = .ok (mkHdr 1 [2, 1], [1, 2]) := by decide +kernel
example : assign 1 (mkHdr 1 [1]) [0] (view (mkHdr 1 [3, 2]) [0, 0] [2, 2]) [1, 2, 3, 4, 5, 6] (fun _ => 0)
    = .ok (mkHdr 1 [2, 2], [1, 2, 3, 4]) := by decide +kernel

end Verif.ND
