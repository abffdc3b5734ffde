import Verif.Dist.Store
/-
What a chunk file holds; reading, writing and extending it (from C15 and C16).
-/
namespace Verif.Dist
open Verif Verif.ND Verif.Bytes Verif.NullSup Verif.Stream

variable {C : Cfg}

/-- The piece an array is for the streamer. -/
def pieceOf (vd : Nat) (a : Arr) : Piece := ⟨a.shape, a.shape.map fun _ => 0, a.hdr vd, a.buf, .null_suppressed⟩

/-- The bytes `f` are a chunk file with the contents of the array `a`. -/
def FileHolds (C : Cfg) (f : List Nat) (a : Arr) : Prop :=
  ∃ R l, Hist C.hst C.vd R C.chunk l f ∧ a.shape = extent l :: R ∧ (∀ s ∈ l, s.mode = .null_suppressed ∧ Fit C s.h.shape) ∧
    ∀ pre s post, l = pre ++ s :: post → ∀ k is, ValidInd s.h.shape (k :: is) →
      ∃ v w, ND.read C.vd s.h s.buf (k :: is) = .ok v ∧ a.get C.vd ((extent pre + k) :: is) = .ok w ∧ VEq v w

theorem Arr.Ok.cons (hC : C.Ok) {a : Arr} (h : a.Ok C) : a.shape = a.shape.getD 0 0 :: a.shape.tail := by
  have := h.fit.len
  have := hC.dims
  cases hs : a.shape with
  | nil => have h1 := h.fit.len; rw [hs] at h1; simp at h1; omega
  | cons x xs => rfl

theorem pieceOf_ok (hC : C.Ok) {a : Arr} (h : a.Ok C) : (pieceOf C.vd a).Ok C.vd a.shape.tail C.chunk where
  given := h.given hC
  shape := h.cons hC
  sizes := fun _ => h.fit.below' hC

theorem extent_pos_split : ∀ (l : List Piece) (i : Nat), i < extent l →
    ∃ pre s post k, l = pre ++ s :: post ∧ i = extent pre + k ∧ k < s.ext
  | [], i, h => by simp [extent] at h
  | s :: l, i, h => by
      by_cases hi : i < s.ext
      · exact ⟨[], s, l, i, rfl, by simp [extent], hi⟩
      · rw [extent] at h
        obtain ⟨pre, s', post, k, h1, h2, h3⟩ := extent_pos_split l (i - s.ext) (by omega)
        exact ⟨s :: pre, s', post, k, by rw [h1]; rfl, by rw [extent]; omega, h3⟩

/-- Writing a chunk. -/
theorem ser_holds (hC : C.Ok) {a : Arr} (h : a.Ok C) :
    ∃ f, serialize C.hst C.vd (a.hdr C.vd) a.buf C.chunk .null_suppressed = .ok f ∧ FileHolds C f a := by
  have h0 : C.chunk.getD 0 0 ∈ C.chunk := getD_mem (by rw [hC.len]; exact hC.dims)
  obtain ⟨f, hf, _⟩ := C15_round_trip C.hst C.vd _ _ _ _ (h.given hC) C.chunk hC.small
    ⟨_, h0, by have := hC.first; omega⟩ (h.fit.safe hC) .null_suppressed (by decide) (fun _ => h.fit.below' hC)
  refine ⟨f, hf, a.shape.tail, [pieceOf C.vd a], Hist.init (pieceOf_ok hC h) hf, ?_, ?_, ?_⟩
  · rw [h.cons hC]; simp [extent, Piece.ext, pieceOf, Arr.hdr, mkHdr]
  · intro s hs; rw [List.mem_singleton.1 hs]; exact ⟨rfl, h.fit⟩
  · intro pre s post hl k is hk
    cases pre with
    | nil =>
      rw [List.nil_append, List.cons.injEq] at hl
      obtain ⟨rfl, _⟩ := hl
      obtain ⟨v, hv, _⟩ := h.get hC (i := k :: is) hk
      exact ⟨v, v, hv, by rw [extent, Nat.zero_add]; exact hv, .refl _⟩
    | cons p pre => simp at hl

/-- Reading a chunk file into any owning array. -/
theorem des_holds (hC : C.Ok) {f : List Nat} {a : Arr} (h : a.Ok C) (hf : FileHolds C f a) (old : Arr) :
    ∃ b, deserialize C.hst C.vd C.dims (old.hdr C.vd) old.buf C.junk f = .ok ((Arr.hdr C.vd b, b.buf), []) ∧ b.Ok C ∧ AEq C.vd a b := by
  obtain ⟨R, l, hh, hsh, hm, hv⟩ := hf
  have hlen : R.length + 1 = C.dims := by rw [← h.fit.len, hsh]; rfl
  have hsafe := h.fit.safe hC
  rw [hsh] at hsafe
  have hlt : extent l < 2 ^ 64 := by
    have := h.fit.lt (extent l) (by rw [hsh]; simp)
    omega
  obtain ⟨out, r1, r2, r3⟩ := C16_append_slice_partial C.hst C.vd R C.chunk hC.small l f hh hlt hsafe old.shape old.buf C.junk []
  rw [List.append_nil, hlen] at r1
  have hAEq : AEq C.vd a ⟨extent l :: R, out⟩ := by
    refine ⟨hsh, fun i hi => ?_⟩
    rw [hsh] at hi
    cases i with
    | nil => have := hi.1; simp at this
    | cons i is =>
      rw [validInd_cons] at hi
      obtain ⟨pre, s, post, k, e1, e2, e3⟩ := extent_pos_split l i hi.1
      have hsok := hist_pieces hh s (by rw [e1]; simp)
      have hk : ValidInd s.h.shape (k :: is) := by rw [hsok.shape, validInd_cons]; exact ⟨e3, hi.2⟩
      obtain ⟨v, w, v1, v2, v3⟩ := hv pre s post e1 k is hk
      obtain ⟨v', w', u1, u2, _, u4⟩ := r3 pre s post e1 k is hk
      rw [v1] at u1; cases u1
      rw [e2]
      exact ⟨w, w', v2, u2, v3.symm.trans (.of_canon (u4 (hm s (by rw [e1]; simp)).1))⟩
  refine ⟨⟨extent l :: R, out⟩, r1, hAEq.ok hC h r2, hAEq⟩

theorem cat_shape {a s : Arr} {n m : Nat} {R : List Nat} (ha : a.shape = n :: R) (hs : s.shape = m :: R) :
    (a.cat s).shape = (n + m) :: R := by simp [Arr.cat, ha, hs]

/-- The elements of a concatenation. -/
theorem cat_get {vd : Nat} {a s : Arr} {n m : Nat} {R : List Nat} (ha : a.shape = n :: R) (hs : s.shape = m :: R) (hnm : n + m < 2 ^ 64)
    (hla : a.buf.length = volume vd a.shape) (hls : s.buf.length = volume vd s.shape) {i : Nat} {is : List Nat}
    (hi : ValidInd ((n + m) :: R) (i :: is)) :
    (a.cat s).get vd (i :: is) = if i < n then a.get vd (i :: is) else s.get vd ((i - n) :: is) := by
  obtain ⟨out, h1, h2, h3⟩ := C06_append_concatenates vd n m R hnm (fun _ => 0) a.buf s.buf (by rw [hla, ha]) (by rw [hls, hs])
  have hout : out = a.buf ++ s.buf := by
    unfold append at h1
    have hsh : shapeAllowsConcat (mkHdr vd (n :: R)).shape (mkHdr vd (m :: R)).shape 0 = true := by
      simp only [shapeAllowsConcat, List.all_eq_true, List.mem_range, Bool.or_eq_true, beq_iff_eq, mkHdr]
      intro d hd
      cases d with
      | zero => left; rfl
      | succ d => right; simp
    rw [hsh] at h1
    simp only [mkHdr, Res.assert_true, Res.bind_eq, Res.ok_bind, if_true, resize, List.getD_cons_zero, List.set_cons_zero,
      wadd_eq (show n + m < U64 from hnm)] at h1
    unfold copyN at h1
    split at h1
    · simp only [Res.ok_bind, Res.ok.injEq, Prod.mk.injEq] at h1
      rw [← h1.2]
      rename_i hc
      have hvol : volume vd ((n + m) :: R) = a.buf.length + s.buf.length := by
        rw [hla, hls, ha, hs, volume_cons, volume_cons, volume_cons, Nat.add_mul]
      rw [List.drop_zero, List.take_of_length_le (l := s.buf) (Nat.le_refl _), List.drop_eq_nil_of_le (by simp; omega), List.append_nil]
      congr 1
      rw [hvol]
      apply List.ext_getElem
      · simp
      · intro k k1 k2
        simp only [List.getElem_take, List.getElem_map, List.getElem_range]
        rw [List.getD_eq_getElem?_getD, List.getElem?_eq_getElem k2]; rfl
    · cases h1
  have := h3 i is hi
  subst hout
  unfold Arr.get Arr.hdr
  rw [cat_shape ha hs, ha, hs]
  exact this

/-- In-memory `Append` along axis 0. -/
theorem append_eq_cat {vd : Nat} {a s : Arr} {n m : Nat} {R : List Nat} (ha : a.shape = n :: R) (hs : s.shape = m :: R) (hnm : n + m < 2 ^ 64)
    (hla : a.buf.length = volume vd a.shape) (hls : s.buf.length = volume vd s.shape) (junk : Nat → Nat) :
    append vd (a.hdr vd) a.buf (s.hdr vd) s.buf 0 junk = .ok ((a.cat s).hdr vd, (a.cat s).buf) := by
  unfold append Arr.hdr
  rw [cat_shape ha hs, ha, hs]
  have hsh : shapeAllowsConcat (mkHdr vd (n :: R)).shape (mkHdr vd (m :: R)).shape 0 = true := by
    simp only [shapeAllowsConcat, List.all_eq_true, List.mem_range, Bool.or_eq_true, beq_iff_eq, mkHdr]
    intro d hd
    cases d with
    | zero => left; rfl
    | succ d => right; simp
  rw [hsh]
  simp only [mkHdr, Res.assert_true, Res.bind_eq, Res.ok_bind, if_true, resize, List.getD_cons_zero, List.set_cons_zero,
    wadd_eq (show n + m < U64 from hnm)]
  have hvol : volume vd ((n + m) :: R) = a.buf.length + s.buf.length := by
    rw [hla, hls, ha, hs, volume_cons, volume_cons, volume_cons, Nat.add_mul]
  unfold copyN
  rw [if_pos ⟨by omega, by simp; omega⟩]
  simp only [Res.ok_bind, Res.ok.injEq, Prod.mk.injEq, true_and]
  rw [List.drop_zero, List.take_of_length_le (l := s.buf) (Nat.le_refl _), List.drop_eq_nil_of_le (by simp; omega), List.append_nil]
  show _ = a.buf ++ s.buf
  congr 1
  rw [hvol]
  apply List.ext_getElem
  · simp
  · intro k k1 k2
    simp only [List.getElem_take, List.getElem_map, List.getElem_range]
    rw [List.getD_eq_getElem?_getD, List.getElem?_eq_getElem k2]; rfl

/-- `s` has the cross section of `a`, and the concatenation is an admissible array. -/
structure Extends (C : Cfg) (a s : Arr) : Prop where
  tail : s.shape.tail = a.shape.tail
  fit : Fit C (a.cat s).shape

theorem Extends.shapes (hC : C.Ok) {a s : Arr} (ha : a.Ok C) (hs : s.Ok C) (h : Extends C a s) :
    ∃ n m R, a.shape = n :: R ∧ s.shape = m :: R ∧ n + m < 2 ^ 62 := by
  refine ⟨_, _, _, ha.cons hC, by rw [← h.tail]; exact hs.cons hC, ?_⟩
  apply h.fit.lt
  have e1 := ha.cons hC
  rw [Arr.cat]
  show _ ∈ a.shape.set 0 _
  rw [e1]
  simp

theorem cat_ok (hC : C.Ok) {a s : Arr} (ha : a.Ok C) (hs : s.Ok C) (h : Extends C a s) : (a.cat s).Ok C where
  fit := h.fit
  len := by
    obtain ⟨n, m, R, h1, h2, _⟩ := h.shapes hC ha hs
    rw [cat_shape h1 h2]
    show (a.buf ++ s.buf).length = _
    rw [List.length_append, ha.len, hs.len, h1, h2, volume_cons, volume_cons, volume_cons, Nat.add_mul]
  bits := by
    intro w hw
    rcases List.mem_append.1 hw with hw | hw
    · exact ha.bits w hw
    · exact hs.bits w hw

/-- Concatenation respects equality of arrays. -/
theorem cat_congr (hC : C.Ok) {a a' s s' : Arr} (ha : a.Ok C) (ha' : a'.Ok C) (hs : s.Ok C) (hs' : s'.Ok C) (he : Extends C a s)
    (h : AEq C.vd a a') (h' : AEq C.vd s s') : AEq C.vd (a.cat s) (a'.cat s') := by
  obtain ⟨n, m, R, h1, h2, h3⟩ := he.shapes hC ha hs
  have h1' := h1; rw [h.1] at h1'
  have h2' := h2; rw [h'.1] at h2'
  refine ⟨by rw [cat_shape h1 h2, cat_shape h1' h2'], fun i hi => ?_⟩
  rw [cat_shape h1 h2] at hi
  cases i with
  | nil => have := hi.1; simp at this
  | cons i is =>
    rw [cat_get h1 h2 (by omega) ha.len hs.len hi, cat_get h1' h2' (by omega) ha'.len hs'.len hi]
    rw [validInd_cons] at hi
    by_cases hlt : i < n
    · rw [if_pos hlt, if_pos hlt]
      exact h.2 _ (by rw [h1, validInd_cons]; exact ⟨hlt, hi.2⟩)
    · rw [if_neg hlt, if_neg hlt]
      exact h'.2 _ (by rw [h2, validInd_cons]; exact ⟨by omega, hi.2⟩)

theorem cat_assoc (hC : C.Ok) {a s t : Arr} (ha : a.Ok C) : (a.cat s).cat t = a.cat (s.cat t) ∨ s.shape = [] := by
  have h1 := ha.cons hC
  cases hs : s.shape with
  | nil => exact Or.inr rfl
  | cons m R =>
    left
    unfold Arr.cat
    rw [h1]
    simp only [hs, List.set_cons_zero, List.getD_cons_zero, List.append_assoc, Arr.mk.injEq, and_true, List.cons.injEq]
    omega

/-- A file that holds `a` holds every array equal to `a`. -/
theorem holds_congr {f : List Nat} {a b : Arr} (h : FileHolds C f a) (hab : AEq C.vd a b) : FileHolds C f b := by
  obtain ⟨R, l, hh, hsh, hm, hv⟩ := h
  refine ⟨R, l, hh, hab.1 ▸ hsh, hm, fun pre s post hl k is hk => ?_⟩
  obtain ⟨v, w, h1, h2, h3⟩ := hv pre s post hl k is hk
  have hsok := hist_pieces hh s (by rw [hl]; simp)
  have : ValidInd a.shape ((extent pre + k) :: is) := by
    rw [hsh, validInd_cons]
    rw [hsok.shape, validInd_cons] at hk
    refine ⟨?_, hk.2⟩
    rw [hl, extent_append, extent]
    have := hk.1
    omega
  obtain ⟨w', u, k1, k2, k3⟩ := hab.2 _ this
  rw [h2] at k1; cases k1
  exact ⟨v, u, h1, k2, h3.trans k3⟩

/-- Extending a chunk file. -/
theorem app_holds (hC : C.Ok) {f : List Nat} {a s : Arr} (ha : a.Ok C) (hs : s.Ok C) (he : Extends C a s) (hf : FileHolds C f a) :
    ∃ f', appendSlice C.hst C.vd f (s.hdr C.vd) s.buf 0 .null_suppressed = .ok f' ∧ FileHolds C f' (a.cat s) := by
  obtain ⟨n, m, R', h1, h2, h3⟩ := he.shapes hC ha hs
  obtain ⟨R, l, hh, hsh, hm, hv⟩ := hf
  rw [h1, List.cons.injEq] at hsh
  obtain ⟨rfl, rfl⟩ := hsh
  have hsafe := ha.fit.safe hC
  rw [h1] at hsafe
  have hpo := pieceOf_ok hC hs
  rw [h2, List.tail_cons] at hpo
  obtain ⟨hne, _⟩ := hist_inv hh hC.small (by omega) hsafe
  obtain ⟨l0, s0, rfl⟩ : ∃ l0 s0, l = l0 ++ [s0] := ⟨_, _, (List.dropLast_concat_getLast hne).symm⟩
  have hm0 := hm s0 (by simp)
  have hdiv : C.chunk.getD 0 0 ∣ extent (l0 ++ [s0]) := by
    have := ha.fit.div0
    rw [h1, List.getD_cons_zero] at this
    exact this
  obtain ⟨f', hf'⟩ := C16_append_accepted C.hst C.vd R' C.chunk hC.small l0 s0 f hh (by omega) hsafe (by
    intro d hd
    cases d with
    | zero => right; exact hm0.2.div0
    | succ d => exact hm0.2.fit (d + 1) (by omega) (by rw [← hm0.2.len]; exact hd))
    (pieceOf C.vd s) hpo (by intro h; cases h) (hs.fit.safe hC)
  refine ⟨f', hf', R', (l0 ++ [s0]) ++ [pieceOf C.vd s], Hist.append hh hdiv hpo hf', ?_, ?_, ?_⟩
  · rw [cat_shape h1 h2, extent_append (l0 ++ [s0])]
    congr 1
    simp [extent, Piece.ext, pieceOf, Arr.hdr, mkHdr, h2]
  · intro p hp
    rcases List.mem_append.1 hp with hp | hp
    · exact hm p hp
    · rw [List.mem_singleton.1 hp]; exact ⟨rfl, hs.fit⟩
  · intro pre p post hl k is hk
    rcases List.eq_nil_or_concat post with rfl | ⟨post', z, rfl⟩
    · obtain ⟨hl1, hl2⟩ := List.append_inj' hl rfl
      rw [List.cons.injEq] at hl2
      obtain ⟨rfl, _⟩ := hl2
      subst hl1
      have hk' : ValidInd (m :: R') (k :: is) := by rw [← h2]; exact hk
      obtain ⟨v, hv1, _⟩ := hs.get hC (i := k :: is) hk
      rw [validInd_cons] at hk'
      refine ⟨v, v, hv1, ?_, .refl _⟩
      rw [cat_get h1 h2 (by omega) ha.len hs.len (by rw [validInd_cons]; exact ⟨by omega, hk'.2⟩), if_neg (by omega)]
      rw [Nat.add_sub_cancel_left]; exact hv1
    · rw [List.concat_eq_append, ← List.cons_append, ← List.append_assoc] at hl
      obtain ⟨hl1, _⟩ := List.append_inj' hl rfl
      obtain ⟨v, w, u1, u2, u3⟩ := hv pre p post' hl1 k is hk
      have hpk := hist_pieces hh p (by rw [hl1]; simp)
      rw [hpk.shape, validInd_cons] at hk
      have : extent pre + k < extent (l0 ++ [s0]) := by
        rw [hl1, extent_append, extent]; have := hk.1; omega
      refine ⟨v, w, u1, ?_, u3⟩
      rw [cat_get h1 h2 (by omega) ha.len hs.len (by rw [validInd_cons]; exact ⟨by omega, hk.2⟩), if_pos this]
      exact u2

/-- Copy assignment between owning arrays. -/
theorem assign_spec (hC : C.Ok) {a : Arr} (h : a.Ok C) (old : Arr) :
    ∃ b, assign C.vd (old.hdr C.vd) old.buf (a.hdr C.vd) a.buf C.junk = .ok (Arr.hdr C.vd b, b.buf) ∧ b.Ok C ∧ AEq C.vd a b := by
  have hd : 0 < a.shape.length := by rw [h.fit.len]; exact hC.dims
  obtain ⟨out, h1, h2, h3⟩ := C08_assign_partial C.vd a.shape h.small hd a.buf h.len old.shape old.buf C.junk
  have hAEq : AEq C.vd a ⟨a.shape, out⟩ := by
    refine ⟨rfl, fun i hi => ?_⟩
    obtain ⟨v, hv, _⟩ := h.get hC hi
    refine ⟨v, v, hv, ?_, .refl _⟩
    have := h3 i hi
    exact this.trans hv
  exact ⟨⟨a.shape, out⟩, h1, hAEq.ok hC h h2, hAEq⟩

end Verif.Dist
