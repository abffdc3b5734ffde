import Verif.Stream.Lemmas
/-
C15: arrays written by the streamer read back.
-/
namespace Verif.Stream
open Verif Verif.ND Verif.Bytes Verif.NullSup

theorem prod_mono : ∀ {a b : List Nat}, LeVec a b → prod a ≤ prod b
  | [], [], _ => Nat.le_refl _
  | [], _ :: _, h => absurd h.1 (by simp)
  | _ :: _, [], h => absurd h.1 (by simp)
  | a :: as, b :: bs, h => by
      have h0 : a ≤ b := by simpa using h.2 0 (by simp)
      have ih := prod_mono (a := as) (b := bs)
        ⟨by simpa using h.1, fun d hd => by simpa using h.2 (d + 1) (by simpa using hd)⟩
      simp only [prod]
      exact Nat.mul_le_mul h0 ih

theorem permitsEqual_ok : ∀ {s c : List Nat}, Safe (s.map fun _ => 0) s c → ∃ b, permitsEqual s c = .ok b
  | [], [], _ => ⟨true, rfl⟩
  | [], _ :: _, h => h.elim
  | _ :: _, [], h => h.elim
  | a :: s, c :: cs, h => by
      obtain ⟨h0, h1⟩ := h
      obtain ⟨b, hb⟩ := permitsEqual_ok h1
      unfold permitsEqual
      by_cases hlt : c < a
      · rw [if_pos hlt]
        have : c ≠ 0 := by
          have h0 : SafeDim 0 a c := h0
          unfold SafeDim at h0; omega
        rw [if_neg this]
        by_cases hm : a % c ≠ 0
        · rw [if_pos hm]; exact ⟨false, rfl⟩
        · rw [if_neg hm]; exact ⟨b, hb⟩
      · rw [if_neg hlt]; exact ⟨b, hb⟩

theorem runLoop_append {ι : Type} (g : ι → Res (List Nat)) (r : ι → List Nat) (post : List Nat → List Nat) :
    ∀ (L : List ι) (acc : List Nat), (∀ p ∈ L, g p = .ok (r p)) →
    runLoop (fun p out => (g p).bind fun ws => .ok (out ++ post ws)) L acc = .ok (acc ++ L.flatMap fun p => post (r p))
  | [], acc, _ => by simp [runLoop]
  | p :: L, acc, h => by
      simp only [runLoop]
      rw [h p (by simp)]
      simp only [Res.ok_bind]
      rw [runLoop_append g r post L _ (fun q hq => h q (by simp [hq]))]
      simp

/-- Element function of a window. -/
def elemFn (vd : Nat) (P st : List Nat) (buf : List Nat) (i : List Nat) : List Nat := blk vd P buf (addVec st i)

/-- What is assumed about an array (or view) handed to the streamer: it exists in memory. -/
structure Given (vd : Nat) (P st : List Nat) (h : Hdr) (buf : List Nat) : Prop where
  view : ViewOf vd P st h
  small : Small P
  vd_pos : 0 < vd
  dims : 0 < h.shape.length
  len : buf.length = volume vd P
  vol : volume vd P < 2 ^ 62
  bits : ∀ w ∈ buf, w < 2 ^ 32

/-- No serialization chunk has `2^32` or more vectors. -/
def ChunksBelow (shape chunk : List Nat) : Prop :=
  ∀ lo hi, BoxOK (shape.map fun _ => 0) shape chunk lo hi → numElems (subVec hi lo) < 2 ^ 32

theorem boxOK_le {b e c lo hi : List Nat} (h : BoxOK b e c lo hi) (hbe : b.length = e.length) : LeVec lo hi ∧ LeVec hi e := by
  obtain ⟨h1, h2, h3⟩ := h
  refine ⟨⟨by omega, fun d hd => ?_⟩, ⟨by omega, fun d hd => ?_⟩⟩
  · have := h3 d (by omega); omega
  · have := h3 d (by omega); omega

theorem elemFn_good {vd : Nat} {P st : List Nat} {h : Hdr} {buf : List Nat} (g : Given vd P st h buf) {i : List Nat}
    (hi : ValidInd h.shape i) :
    ND.read vd h buf i = .ok (elemFn vd P st buf i) ∧ (elemFn vd P st buf i).length = vd ∧
      ∀ w ∈ elemFn vd P st buf i, w < 2 ^ 32 := by
  have w := g.view.window g.small
  refine ⟨read_window w g.len hi, ?_, ?_⟩
  · have := blk_le (vd := vd) (w.valid hi)
    rw [elemFn, List.length_take, List.length_drop, g.len]
    omega
  · intro x hx
    exact g.bits x (List.mem_of_mem_drop (List.mem_of_mem_take hx))

theorem window_shape_le {vd : Nat} {P st : List Nat} {h : Hdr} (w : IsWindow vd P st h) : LeVec h.shape P :=
  ⟨w.lenShape, fun d hd => by have := w.inside d (by rw [← w.lenShape]; exact hd); omega⟩

theorem valid_of_box {lo hi Q i : List Nat} (hle : LeVec hi Q) (hi' : InBox lo hi i) : ValidInd Q i := by
  refine ⟨by rw [hi'.2.1, hle.1], fun d hd => ?_⟩
  have a1 := hi'.2.2 d (by rw [hi'.2.1, hle.1]; exact hd)
  have a2 := hle.2 d (by rw [hle.1]; exact hd)
  omega

/-- Sizes of a box of an existing array. -/
theorem box_size {vd : Nat} {Q lo hi : List Nat} (hvd : 0 < vd) (hvol : volume vd Q < 2 ^ 62) (hle : LeVec lo hi)
    (hleQ : LeVec hi Q) :
    numElems (subVec hi lo) * vd + (numElems (subVec hi lo) + 1) / 2 < 2 ^ 64 := by
  have h1 : LeVec (subVec hi lo) Q := by
    refine ⟨by rw [length_subVec hle.1.symm, hleQ.1], fun d hd => ?_⟩
    rw [getD_subVec hle.1.symm]
    rw [length_subVec hle.1.symm] at hd
    have := hleQ.2 d hd
    omega
  have h2 := prod_mono h1
  rw [← numElems_eq, ← numElems_eq] at h2
  have h3 : numElems (subVec hi lo) * vd ≤ numElems Q * vd := Nat.mul_le_mul_right _ h2
  have h4 : numElems (subVec hi lo) ≤ numElems (subVec hi lo) * vd := Nat.le_mul_of_pos_right _ hvd
  have h5 : volume vd Q = numElems Q * vd := rfl
  omega

/-- What `serialize_all_chunks` writes: the records of the boxes of the chunk loop. -/
theorem serializeChunks_eq (hst : Host) {vd : Nat} {P st : List Nat} {h : Hdr} {buf : List Nat} (g : Given vd P st h buf)
    (chunk : List Nat) (hsafe : Safe (h.shape.map fun _ => 0) h.shape chunk) (mode : Mode) (hm : mode ≠ .automatic) :
    serializeChunks hst vd h buf chunk mode
      = .ok (((chunkSpec (h.shape.map fun _ => 0) h.shape chunk).map fun p => (p, mode)).flatMap
          (boxRecord hst vd (elemFn vd P st buf))) := by
  have w := g.view.window g.small
  have hsm := (g.view.shape_small g.small).1
  unfold serializeChunks
  rw [if_neg hm, arrayChunkLoop, chunkLoop_eq _ hsafe lt_fuelFor]
  simp only [Res.ofLoop, Res.ok_bind]
  rw [runLoop_append _ (fun p => encW hst vd mode (elemsOf (subVec p.2 p.1) fun k => elemFn vd P st buf (addVec p.1 k))) _ _ _
    (by
      intro p hp
      obtain ⟨hle, hleQ⟩ := boxOK_le (chunkSpec_boxOK hsafe p hp) (by simp)
      have hvs := C04_view_step (S := Nat) vd P st h g.small g.view p.1 p.2 hle hleQ
      have hvo : ViewOf vd P (addVec st p.1) (view h p.1 p.2) := ViewOf.step g.view hle hleQ
      have := chunkWords_eq hst (hvo.window g.small) (hvo.shape_small g.small).1 g.len
        (by rw [hvs.1, length_subVec hle.1.symm, hleQ.1]; exact g.dims) mode hm
        (fun k => elemFn vd P st buf (addVec p.1 k)) (by
          intro k hk
          rw [hvs.1] at hk
          rw [(hvs.2 buf g.len k hk).2]
          exact (elemFn_good g (hvs.2 buf g.len k hk).1).1)
      rw [this, hvs.1])]
  rw [List.nil_append, List.flatMap_map]
  rfl

theorem wellFormed_iff {chunk : List Nat} : wellFormed chunk = true ↔ ∃ c ∈ chunk, c ≠ 2 ^ 64 - 1 := by
  simp [wellFormed, INFTY]

/-- Deserializing a file that consists of metadata and box records of a partition. -/
theorem deserialize_records (hst : Host) {vd : Nat} {Q chunk : List Nat} (hQ : Small Q) (hc : Small chunk) (access : Nat)
    (hacc : access < 2 ^ 64) (hsafe : Safe (Q.map fun _ => 0) Q chunk) {f : List Nat → List Nat}
    (bs : List ((List Nat × List Nat) × Mode)) (hbs : bs.map Prod.fst = chunkSpec (Q.map fun _ => 0) Q chunk)
    (hg : ∀ x ∈ bs, BoxGood vd Q f x) (Q0 : List Nat) (dst : List Nat) (junk : Nat → Nat) (rest : List Nat) :
    ∃ out, deserialize hst vd Q.length (mkHdr vd Q0) dst junk
        ((sMeta hst Q.length).ser ⟨chunk, Q, access⟩ ++ bs.flatMap (boxRecord hst vd f) ++ rest)
        = .ok ((mkHdr vd Q, out), rest) ∧ out.length = volume vd Q ∧
      ∀ i, ValidInd Q i → ∃ x ∈ bs, InBox x.1.1 x.1.2 i ∧ ND.read vd (mkHdr vd Q) out i = .ok (gMode x.2 (f i)) := by
  have hlens := hsafe.len
  unfold deserialize
  rw [List.append_assoc, sMeta_rt hst Q.length ⟨chunk, Q, access⟩ (by simp at hlens; exact hlens.symm) rfl hc hQ hacc]
  simp only [Res.ok_bind]
  rw [resize_own]
  simp only [Res.ok_bind]
  rw [show (mkHdr vd Q).shape = Q from rfl, arrayChunkLoop, chunkLoop_eq _ hsafe lt_fuelFor]
  simp only [Res.ofLoop, Res.ok_bind]
  obtain ⟨out, r1, r2, r3, _⟩ := readChunks_spec hst hQ rest bs
    ((List.range (volume vd Q)).map fun k => dst.getD k (junk k)) (by simp) hg (by
      have := chunkSpec_disjoint hsafe
      rw [← hbs, List.pairwise_map] at this
      exact this)
  rw [hbs] at r1
  rw [r1]
  refine ⟨out, rfl, by simpa using r2, fun i hi => ?_⟩
  obtain ⟨p, hp, hpi⟩ := (chunkSpec_cover hsafe).1 (inBox_of_valid hi)
  rw [← hbs] at hp
  obtain ⟨x, hx, rfl⟩ := List.mem_map.1 hp
  exact ⟨x, hx, hpi, r3 x hx i hpi⟩

/-- Boxes of an existing array are good. -/
theorem boxGood_of_given {vd : Nat} {P st : List Nat} {h : Hdr} {buf : List Nat} (g : Given vd P st h buf)
    {chunk : List Nat} (mode : Mode) (hm : mode ≠ .automatic)
    (hsz : mode = .null_suppressed → ChunksBelow h.shape chunk) {p : List Nat × List Nat}
    (hb : BoxOK (h.shape.map fun _ => 0) h.shape chunk p.1 p.2) :
    BoxGood vd h.shape (elemFn vd P st buf) (p, mode) := by
  have w := g.view.window g.small
  obtain ⟨hle, hleQ⟩ := boxOK_le hb (by simp)
  have hvol : volume vd h.shape < 2 ^ 62 := by
    have h1 := prod_mono (window_shape_le w)
    have h2 : prod h.shape * vd ≤ prod P * vd := Nat.mul_le_mul_right _ h1
    rw [← volume_eq, ← volume_eq] at h2
    have := g.vol
    omega
  exact {
    mode := hm
    le := hle
    leQ := hleQ
    size := box_size g.vd_pos hvol hle hleQ
    small := fun h => hsz h _ _ hb
    elems := fun i hi => (elemFn_good g (valid_of_box hleQ hi)).2 }

/-- **C15**  Round trip through the streamer: for every array or view, every serialization chunk shape with at least one
    bounded dimension, dense or null-suppressed, the bytes written read back - into any owning array, with anything
    following in the stream - as an array of the same shape with the same elements (zero vectors as `+0` if
    null-suppressed), and the stream is left right behind the record. -/
theorem C15_round_trip (hst : Host) (vd : Nat) (P st : List Nat) (h : Hdr) (buf : List Nat) (g : Given vd P st h buf)
    (chunk : List Nat) (hc : Small chunk) (hwf : ∃ c ∈ chunk, c ≠ 2 ^ 64 - 1)
    (hsafe : Safe (h.shape.map fun _ => 0) h.shape chunk) (mode : Mode) (hm : mode ≠ .automatic)
    (hsz : mode = .null_suppressed → ChunksBelow h.shape chunk) :
    ∃ bytes, serialize hst vd h buf chunk mode = .ok bytes ∧
      ∀ (Q0 dst : List Nat) (junk : Nat → Nat) (rest : List Nat), ∃ out,
        deserialize hst vd h.shape.length (mkHdr vd Q0) dst junk (bytes ++ rest) = .ok ((mkHdr vd h.shape, out), rest) ∧
        out.length = volume vd h.shape ∧
        ∀ i, ValidInd h.shape i → ∃ v v', ND.read vd h buf i = .ok v ∧ ND.read vd (mkHdr vd h.shape) out i = .ok v' ∧
          (mode = .dense → v' = v) ∧ (mode = .null_suppressed → Canon v v') := by
  obtain ⟨b, hb⟩ := permitsEqual_ok hsafe
  have hsm := (g.view.shape_small g.small).1
  refine ⟨(sMeta hst h.shape.length).ser ⟨chunk, h.shape, accessOf b⟩ ++
    ((chunkSpec (h.shape.map fun _ => 0) h.shape chunk).map fun p => (p, mode)).flatMap
      (boxRecord hst vd (elemFn vd P st buf)), ?_, ?_⟩
  · unfold serialize
    rw [if_neg (by rw [wellFormed_iff.2 hwf]; simp), hb]
    simp only [Res.ok_bind]
    rw [serializeChunks_eq hst g chunk hsafe mode hm]
    rfl
  · intro Q0 dst junk rest
    obtain ⟨out, r1, r2, r3⟩ := deserialize_records hst hsm hc (accessOf b) (by cases b <;> decide) hsafe
      ((chunkSpec (h.shape.map fun _ => 0) h.shape chunk).map fun p => (p, mode))
      (by rw [List.map_map]; exact List.map_id _)
      (by
        intro x hx
        obtain ⟨p, hp, rfl⟩ := List.mem_map.1 hx
        exact boxGood_of_given g mode hm hsz (chunkSpec_boxOK hsafe p hp))
      Q0 dst junk rest
    refine ⟨out, r1, r2, fun i hi => ?_⟩
    obtain ⟨x, hx, _, hrd⟩ := r3 i hi
    obtain ⟨p, _, rfl⟩ := List.mem_map.1 hx
    refine ⟨_, _, (elemFn_good g hi).1, hrd, ?_, ?_⟩
    · rintro rfl; rfl
    · rintro rfl; exact canonV_spec _

/-- **C15**  A chunk shape that is unbounded in all dimensions, and the mode `automatic`, are refused with an exception. -/
theorem C15_refused (hst : Host) (vd : Nat) (h : Hdr) (buf : List Nat) (chunk : List Nat) (mode : Mode) :
    ((∀ c ∈ chunk, c = 2 ^ 64 - 1) → serialize hst vd h buf chunk mode = .throw) ∧
    (Safe (h.shape.map fun _ => 0) h.shape chunk → serialize hst vd h buf chunk .automatic = .throw) := by
  constructor
  · intro hall
    unfold serialize
    rw [if_pos]
    cases hw : wellFormed chunk with
    | false => rfl
    | true =>
      obtain ⟨c, hc1, hc2⟩ := wellFormed_iff.1 hw
      exact absurd (hall c hc1) hc2
  · intro hsafe
    unfold serialize
    by_cases hw : wellFormed chunk = false
    · rw [if_pos hw]
    · rw [if_neg hw]
      obtain ⟨b, hb⟩ := permitsEqual_ok hsafe
      rw [hb]
      simp only [Res.ok_bind]
      unfold serializeChunks
      rw [if_pos rfl]
      rfl

/-! A 2x3 array of 1-vectors, chunks of 2x2 (not dividing), and its round trips. -/
example : Given 1 [2, 3] [0, 0] (mkHdr 1 [2, 3]) [1, 0, 0, 4, 5, 6] where
  view := ViewOf.own
  small := by unfold Small; decide
  vd_pos := by decide
  dims := by decide
  len := by decide
  vol := by decide
  bits := by decide
example : Safe [0, 0] [2, 3] [2 ^ 64 - 1, 2] ∧ ∃ c ∈ [2 ^ 64 - 1, 2], c ≠ 2 ^ 64 - 1 := by
  refine ⟨⟨?_, ?_, trivial⟩, 2, by decide⟩ <;> unfold SafeDim <;> decide
example : (serialize .little 1 (mkHdr 1 [2, 3]) [1, 0, 0, 4, 5, 6] [2 ^ 64 - 1, 2] .null_suppressed).bind
    (fun b => deserialize .little 1 2 (mkHdr 1 [1, 1]) [9] (fun _ => 0) (b ++ [42]))
    = .ok ((mkHdr 1 [2, 3], [1, 0, 0, 4, 5, 6]), [42]) := by decide +kernel

end Verif.Stream
