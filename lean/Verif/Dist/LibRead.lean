import Verif.Dist.LibOps
/-
Reading from the chunk library: `operator[]` and `FillArray`.
-/
namespace Verif.Dist
open Verif Verif.ND Verif.Tree Verif.Bytes Verif.Stream Verif.NullSup

variable {C : Cfg} {S : Sorter} {Z : SlabSize}

theorem LInv.lookup {lib : Lib} {fs : FS} {cs : List (Meta × Arr)} (h : LInv C S Z lib fs cs) {c : Meta × Arr} (hc : c ∈ cs) :
    chunksOf cs c.1.id = some c := chunksOf_of_mem h.chunky.ids hc

theorem get_ok (hC : C.Ok) {lib : Lib} {fs : FS} {cs : List (Meta × Arr)} (h : LInv C S Z lib fs cs) {c : Meta × Arr} (hc : c ∈ cs) {i : List Nat}
    (hi : InBox c.1.start c.1.stop i) (hnp : c.1.ctype = .all_null → c.1.overlap = 0) :
    ∃ lib' fs' v w, lib.get C fs i = .ok (lib', fs', w) ∧ LInv C S Z lib' fs' cs ∧ lib'.idx.nextId = lib.idx.nextId ∧ lib'.idx.dir = lib.idx.dir ∧
      c.2.get C.vd (localInd c.1 i) = .ok v ∧ VEq v w ∧ SameBut lib.idx.dir (chunksOf cs) fs fs' := by
  obtain ⟨k, hk⟩ := List.getElem?_of_mem hc
  have hpl := h.chunky.placed c hc
  have ho := h.chunky.onlyAt hk hi
  obtain ⟨t, e1, e2⟩ := h.idx.getChunk_ok hC (hpl.point hi) (i := k) (m := c.1) (by rw [List.getElem?_map, hk]; rfl) ho
  obtain ⟨s, hs⟩ := h.cache
  obtain ⟨cc', fs', s', b, f1, f2, f3, f4, f5, f6⟩ := retrieve_ok hC h.chunky.ok hs (m := c.1) (a := c.2) (h.lookup hc)
  have hv := valid_local hpl hi
  obtain ⟨v, w, g1, g2, g3⟩ := f5.2 _ hv
  have hl : i.length = C.dims := by rw [hi.1, hpl.startLen]
  have hoff : vsub i c.1.offset = localInd c.1 i := vsub_offset hpl hnp hl fun d hd => by have := hi.2.2 d (by omega); omega
  refine ⟨⟨cc', { lib.idx with tree := t, valid := false }⟩, fs', v, w, ?_, ⟨h.chunky, e2, f2.trans h.dir, ⟨s', f3⟩, metaValid_false rfl⟩, rfl, rfl, g1, g3, ?_⟩
  · unfold Lib.get
    rw [e1]
    simp only [Res.ok_bind]
    rw [f1]
    simp only [Res.ok_bind]
    rw [hoff, g2]; rfl
  · rw [← h.dir]; exact f6

/-! ### FillArray -/

/-- Conditions on the target of `FillArray` and on the region. -/
structure FillOk (C : Cfg) (P st : List Nat) (hd : Hdr) (lo hi out : List Nat) : Prop where
  small : Small P
  view : ViewOf C.vd P st hd
  loLen : lo.length = C.dims
  hiLen : hi.length = C.dims
  lt : ∀ d < C.dims, lo.getD d 0 < hi.getD d 0 ∧ hi.getD d 0 < 2 ^ 64
  shape : hd.shape.length = C.dims
  fits : Fits out (subVec hi lo) hd.shape

/-- Where the element with global index `i` goes. -/
def target (lo out i : List Nat) : List Nat := addVec out (subVec i lo)

section fill
variable {P st : List Nat} {hd : Hdr} {lo hi out : List Nat}

theorem FillOk.outLen (h : FillOk C P st hd lo hi out) : out.length = C.dims := by rw [h.fits.1, h.shape]

theorem FillOk.getD_fits (h : FillOk C P st hd lo hi out) {d : Nat} (hdd : d < C.dims) :
    out.getD d 0 + (hi.getD d 0 - lo.getD d 0) ≤ hd.shape.getD d 0 ∧ hd.shape.getD d 0 < 2 ^ 64 := by
  have h1 := h.fits.2.2 d (by rw [h.shape]; exact hdd)
  rw [getD_subVec (by rw [h.hiLen, h.loLen])] at h1
  have := ((h.view.shape_small h.small).1).getD d
  have hU : U64 = 2 ^ 64 := rfl
  exact ⟨h1.2, by omega⟩

theorem getD_target (h : FillOk C P st hd lo hi out) {i : List Nat} (hi' : i.length = C.dims) (d : Nat) :
    (target lo out i).getD d 0 = out.getD d 0 + (i.getD d 0 - lo.getD d 0) := by
  unfold target
  rw [getD_addVec (by rw [length_subVec (by rw [h.loLen, hi']), h.outLen, hi']), getD_subVec (by rw [h.loLen, hi'])]

theorem length_target (h : FillOk C P st hd lo hi out) {i : List Nat} (hi' : i.length = C.dims) : (target lo out i).length = C.dims := by
  unfold target addVec
  rw [List.length_zipWith, length_subVec (by rw [h.loLen, hi']), h.outLen, hi']; simp

theorem valid_target (h : FillOk C P st hd lo hi out) {i : List Nat} (hin : InBox lo hi i) : ValidInd hd.shape (target lo out i) := by
  have hl : i.length = C.dims := by rw [hin.1, h.loLen]
  refine ⟨by rw [length_target h hl, h.shape], fun d hdd => ?_⟩
  rw [h.shape] at hdd
  rw [getD_target h hl]
  have := h.getD_fits hdd
  have := hin.2.2 d (by omega)
  omega

theorem target_inj (h : FillOk C P st hd lo hi out) {i j : List Nat} (hin : InBox lo hi i) (hjn : InBox lo hi j)
    (e : target lo out i = target lo out j) : i = j := by
  have hl : i.length = C.dims := by rw [hin.1, h.loLen]
  have hl' : j.length = C.dims := by rw [hjn.1, h.loLen]
  apply ext_getD (by rw [hl, hl'])
  intro d hdd
  have e1 := getD_target h hl d
  have e2 := getD_target h hl' d
  rw [e, e2] at e1
  have := hin.2.2 d hdd
  have := hjn.2.2 d (by omega)
  omega

theorem st_inj (h : FillOk C P st hd lo hi out) {i j : List Nat} (hil : i.length = hd.shape.length) (hjl : j.length = hd.shape.length)
    (e : addVec st i = addVec st j) : i = j := by
  have w := h.view.window h.small
  have hs : st.length = hd.shape.length := by rw [w.lenShape]; exact w.lenSt
  apply ext_getD (by rw [hil, hjl])
  intro d _
  have e1 := getD_addVec (a := st) (b := i) (by rw [hs, hil]) d
  have e2 := getD_addVec (a := st) (b := j) (by rw [hs, hjl]) d
  rw [e, e2] at e1
  omega

/-- Facts about the overlap of a chunk with the region. -/
theorem overlap_facts (h : FillOk C P st hd lo hi out) {m : Meta} {a : Arr} (hp : Placed C m a) (ho : Overlap lo hi m.start m.stop) :
    (overlapStart m lo).length = C.dims ∧ (overlapEnd m hi).length = C.dims ∧
    ∀ d < C.dims, (overlapStart m lo).getD d 0 = max (lo.getD d 0) (m.start.getD d 0) ∧ (overlapEnd m hi).getD d 0 = min (hi.getD d 0) (m.stop.getD d 0) ∧
      (overlapStart m lo).getD d 0 < (overlapEnd m hi).getD d 0 := by
  have h1 := h.loLen
  have h2 := h.hiLen
  have h3 := hp.startLen
  have h4 := hp.stopLen
  refine ⟨by simp [overlapStart, h1, h3], by simp [overlapEnd, h2, h4], fun d hdd => ?_⟩
  have e1 : (overlapStart m lo).getD d 0 = max (lo.getD d 0) (m.start.getD d 0) := getD_zipWith (by omega) (by omega)
  have e2 : (overlapEnd m hi).getD d 0 = min (hi.getD d 0) (m.stop.getD d 0) := getD_zipWith (by omega) (by omega)
  have h5 := ho d (by omega)
  have h6 := h.lt d hdd
  have h7 := hp.getD_stop d
  have h8 := hp.pos d hdd
  exact ⟨e1, e2, by omega⟩

theorem in_overlap_iff (h : FillOk C P st hd lo hi out) {m : Meta} {a : Arr} (hp : Placed C m a) (ho : Overlap lo hi m.start m.stop) {i : List Nat}
    : InBox (overlapStart m lo) (overlapEnd m hi) i ↔ InBox lo hi i ∧ InBox m.start m.stop i := by
  obtain ⟨h1, h2, h3⟩ := overlap_facts h hp ho
  have k1 := h.loLen
  have k2 := h.hiLen
  have k3 := hp.startLen
  have k4 := hp.stopLen
  constructor
  · intro hi'
    have hl : i.length = C.dims := by rw [hi'.1, h1]
    have key := fun d (hdd : d < i.length) => hi'.2.2 d hdd
    refine ⟨⟨by omega, by omega, fun d hdd => ?_⟩, ⟨by omega, by omega, fun d hdd => ?_⟩⟩
    all_goals
      have a1 := key d hdd
      have a2 := h3 d (by omega)
      omega
  · rintro ⟨ha, hb⟩
    have hl : i.length = C.dims := by rw [ha.1, k1]
    refine ⟨by omega, by omega, fun d hdd => ?_⟩
    have a1 := ha.2.2 d hdd
    have a2 := hb.2.2 d hdd
    have a3 := h3 d (by omega)
    omega

/-- Destination of the overlap: the wrapping arithmetic of the code is exact. -/
theorem out_eq (h : FillOk C P st hd lo hi out) {x : List Nat} (hx : x.length = C.dims) (hb : ∀ d < C.dims, lo.getD d 0 ≤ x.getD d 0 ∧ x.getD d 0 ≤ hi.getD d 0) :
    vadd (vsub x lo) out = target lo out x := by
  have k1 := h.loLen
  have hU : U64 = 2 ^ 64 := rfl
  have e1 : vsub x lo = subVec x lo := by
    apply vsub_eq (fun d hdd => (hb d (by omega)).1) (by omega)
    intro y hy
    obtain ⟨d, hdd, rfl⟩ := List.getElem_of_mem hy
    have a1 := (hb d (by omega)).2
    have a2 := (h.lt d (by omega)).2
    rw [List.getD_eq_getElem?_getD (l := x), List.getElem?_eq_getElem hdd, Option.getD_some] at a1
    omega
  have hl : (subVec x lo).length = C.dims := by rw [length_subVec (by omega)]; exact hx
  have hol := h.outLen
  rw [e1, vadd_eq (by omega)]
  · apply ext_getD
    · rw [length_target h hx]; simp [addVec, hl, hol]
    · intro d _
      rw [getD_addVec (by omega), getD_target h hx, getD_subVec (by omega)]; omega
  · intro d hdd
    rw [getD_subVec (by omega)]
    have := h.getD_fits (d := d) (by omega)
    have := hb d (by omega)
    omega

/-- What one chunk contributes: zeros. -/
theorem fillOne_null (hC : C.Ok) (h : FillOk C P st hd lo hi out) {cs : List (Meta × Arr)} (hch : Chunky C cs) {c : Meta × Arr} (hc : c ∈ cs)
    (ho : Overlap lo hi c.1.start c.1.stop) {cc : CC} {fs : FS} {s : List (Nat × Entry)} (hcc : CInv C (chunksOf cs) cc fs s) {buf : List Nat}
    (hb : buf.length = volume C.vd P) (hct : c.1.ctype = .all_null) :
    ∃ cc' fs' s' buf', fillOne C hd lo hi out c.1 (cc, fs, buf) = .ok (cc', fs', buf') ∧ cc'.dir = cc.dir ∧ CInv C (chunksOf cs) cc' fs' s' ∧
      SameBut cc.dir (chunksOf cs) fs fs' ∧ buf'.length = buf.length ∧
      (∀ i, InBox lo hi i → InBox c.1.start c.1.stop i →
        ∃ v w, c.2.get C.vd (localInd c.1 i) = .ok v ∧ ND.read C.vd hd buf' (target lo out i) = .ok w ∧ VEq v w) ∧
      (∀ j, ValidInd P j → (∀ i, InBox lo hi i → InBox c.1.start c.1.stop i → j ≠ addVec st (target lo out i)) →
        ND.read C.vd (mkHdr C.vd P) buf' j = ND.read C.vd (mkHdr C.vd P) buf j) := by
  have hp := hch.placed c hc
  obtain ⟨l1, l2, l3⟩ := overlap_facts h hp ho
  have k1 := h.loLen
  have k2 := h.hiLen
  have k3 := hp.startLen
  have k4 := hp.stopLen
  have kd := hC.dims
  have hout := h.outLen
  have bs : ∀ d < C.dims, lo.getD d 0 ≤ (overlapStart c.1 lo).getD d 0 ∧ (overlapStart c.1 lo).getD d 0 ≤ hi.getD d 0 := fun d hdd => by
    have := l3 d hdd; omega
  have be : ∀ d < C.dims, lo.getD d 0 ≤ (overlapEnd c.1 hi).getD d 0 ∧ (overlapEnd c.1 hi).getD d 0 ≤ hi.getD d 0 := fun d hdd => by
    have := l3 d hdd; omega
  have o1 := out_eq h l1 bs
  have o2 := out_eq h l2 be
  have hlk := chunksOf_of_mem hch.ids hc
  have hlt : (target lo out (overlapStart c.1 lo)).length = (target lo out (overlapEnd c.1 hi)).length := by
    rw [length_target h l1, length_target h l2]
  have hext : ∀ d, (subVec (target lo out (overlapEnd c.1 hi)) (target lo out (overlapStart c.1 lo))).getD d 0 =
      (out.getD d 0 + ((overlapEnd c.1 hi).getD d 0 - lo.getD d 0)) - (out.getD d 0 + ((overlapStart c.1 lo).getD d 0 - lo.getD d 0)) := by
    intro d
    rw [getD_subVec (by rw [hlt]), getD_target h l1, getD_target h l2]
  obtain ⟨buf', e1, e2, e3, e4⟩ := C05_fill C.vd P st hd h.small h.view buf hb (target lo out (overlapStart c.1 lo)) (target lo out (overlapEnd c.1 hi))
    (by rw [length_target h l1]; exact kd) hlt (by
      refine ⟨by rw [length_target h l1, h.shape], by rw [length_subVec hlt.symm, length_target h l2, h.shape], fun d hdd => ?_⟩
      rw [h.shape] at hdd
      rw [hext, getD_target h l1]
      have := l3 d hdd
      have := h.getD_fits hdd
      omega) 0
  have corr : ∀ i, InBox (overlapStart c.1 lo) (overlapEnd c.1 hi) i → ∃ k, ValidInd (subVec (target lo out (overlapEnd c.1 hi)) (target lo out (overlapStart c.1 lo))) k ∧
      addVec (target lo out (overlapStart c.1 lo)) k = target lo out i := by
    intro i hin
    have hil : i.length = C.dims := by rw [hin.1, l1]
    refine ⟨subVec i (overlapStart c.1 lo), ⟨?_, fun d hdd => ?_⟩, ?_⟩
    · rw [length_subVec (by omega), length_subVec hlt.symm, length_target h l2, hil]
    · rw [length_subVec hlt.symm, length_target h l2] at hdd
      rw [hext, getD_subVec (by omega)]
      have := hin.2.2 d (by omega)
      have := l3 d hdd
      omega
    · have hsl : (subVec i (overlapStart c.1 lo)).length = C.dims := by rw [length_subVec (by omega), hil]
      have htl := length_target h l1
      apply ext_getD
      · rw [length_target h hil]; simp [addVec, htl, hsl]
      · intro d hdd
        have hdd : d < C.dims := by simpa [addVec, htl, hsl] using hdd
        rw [getD_addVec (by omega), getD_target h l1, getD_target h hil, getD_subVec (by omega)]
        have := hin.2.2 d (by omega)
        have := l3 d hdd
        omega
  refine ⟨cc, fs, s, buf', ?_, rfl, hcc, .refl _, e2, fun i hi1 hi2 => ?_, fun j hj hne => ?_⟩
  · unfold fillOne
    simp only [hct]
    rw [o1, o2, e1]; rfl
  · have hin := (in_overlap_iff h hp ho).2 ⟨hi1, hi2⟩
    obtain ⟨k, g1, g2⟩ := corr i hin
    have r := e3 k g1
    rw [g2] at r
    have hnull := hch.ok.null _ c.1 c.2 hlk hct
    obtain ⟨v, w, a1, a2, a3⟩ := hnull.2.2 (localInd c.1 i) (by rw [hnull.2.1]; exact valid_local hp hi2)
    refine ⟨w, _, a2, r, (a3.symm.trans (Or.inr ⟨?_, ?_, ?_⟩))⟩
    · have hz : (zeros C.vd c.1.shape).Ok C := zeros_ok (by have := (hch.ok.arr _ _ _ hlk).fit; rw [← hnull.2.1] at this; exact this)
      obtain ⟨v', b1, b2, _⟩ := hz.get hC (i := localInd c.1 i) (by show ValidInd (zeros C.vd c.1.shape).shape _; rw [hnull.2.1]; exact valid_local hp hi2)
      rw [a1] at b1; cases b1
      rw [b2]; simp
    · intro x hx
      have := get_subset a1 x hx
      unfold zeros at this
      simp only [List.mem_replicate] at this
      rw [this.2]; exact Or.inl rfl
    · intro x hx
      simp only [List.mem_replicate] at hx
      rw [hx.2]; exact Or.inl rfl
  · refine e4 j hj fun k hk he => ?_
    have hkl : k.length = C.dims := by rw [hk.1, length_subVec hlt.symm, length_target h l2]
    have hbox : InBox (overlapStart c.1 lo) (overlapEnd c.1 hi) (addVec (overlapStart c.1 lo) k) := by
      refine ⟨by simp [addVec, l1, hkl], by simp [addVec, l1, l2, hkl], fun d hdd => ?_⟩
      have hdd : d < C.dims := by simpa [addVec, l1, hkl] using hdd
      rw [getD_addVec (by omega)]
      have a1 := hk.2 d (by rw [length_subVec hlt.symm, length_target h l2]; exact hdd)
      rw [hext] at a1
      have := l3 d hdd
      omega
    have hb2 := (in_overlap_iff h hp ho).1 hbox
    refine hne _ hb2.1 hb2.2 ?_
    rw [he]
    congr 1
    have hal : (addVec (overlapStart c.1 lo) k).length = C.dims := by simp [addVec, l1, hkl]
    have htl := length_target h l1
    apply ext_getD
    · rw [length_target h hal]; simp [addVec, htl, hkl]
    · intro d hdd
      have hdd : d < C.dims := by simpa [addVec, htl, hkl] using hdd
      rw [getD_addVec (by omega), getD_target h l1, getD_target h hal, getD_addVec (by omega)]
      have := l3 d hdd
      omega

set_option maxHeartbeats 800000 in
/-- What one chunk contributes: stored data. -/
theorem fillOne_spec (hC : C.Ok) (h : FillOk C P st hd lo hi out) {cs : List (Meta × Arr)} (hch : Chunky C cs) {c : Meta × Arr} (hc : c ∈ cs)
    (ho : Overlap lo hi c.1.start c.1.stop) {cc : CC} {fs : FS} {s : List (Nat × Entry)} (hcc : CInv C (chunksOf cs) cc fs s) {buf : List Nat}
    (hb : buf.length = volume C.vd P) (hct : c.1.ctype = .specified) :
    ∃ cc' fs' s' buf', fillOne C hd lo hi out c.1 (cc, fs, buf) = .ok (cc', fs', buf') ∧ cc'.dir = cc.dir ∧ CInv C (chunksOf cs) cc' fs' s' ∧
      SameBut cc.dir (chunksOf cs) fs fs' ∧ buf'.length = buf.length ∧
      (∀ i, InBox lo hi i → InBox c.1.start c.1.stop i →
        ∃ v w, c.2.get C.vd (localInd c.1 i) = .ok v ∧ ND.read C.vd hd buf' (target lo out i) = .ok w ∧ VEq v w) ∧
      (∀ j, ValidInd P j → (∀ i, InBox lo hi i → InBox c.1.start c.1.stop i → j ≠ addVec st (target lo out i)) →
        ND.read C.vd (mkHdr C.vd P) buf' j = ND.read C.vd (mkHdr C.vd P) buf j) := by
  have hp := hch.placed c hc
  obtain ⟨l1, l2, l3⟩ := overlap_facts h hp ho
  have k1 := h.loLen
  have k2 := h.hiLen
  have k3 := hp.startLen
  have k4 := hp.stopLen
  have kd := hC.dims
  have hout := h.outLen
  have bs : ∀ d < C.dims, lo.getD d 0 ≤ (overlapStart c.1 lo).getD d 0 ∧ (overlapStart c.1 lo).getD d 0 ≤ hi.getD d 0 := fun d hdd => by
    have := l3 d hdd; omega
  have be : ∀ d < C.dims, lo.getD d 0 ≤ (overlapEnd c.1 hi).getD d 0 ∧ (overlapEnd c.1 hi).getD d 0 ≤ hi.getD d 0 := fun d hdd => by
    have := l3 d hdd; omega
  have o1 := out_eq h l1 bs
  have o2 := out_eq h l2 be
  have hlk := chunksOf_of_mem hch.ids hc
  obtain ⟨cc', fs', s', b, f1, f2, f3, f4, f5, f6⟩ := retrieve_ok hC hch.ok hcc (m := c.1) (a := c.2) hlk
  have i1 : vsub (overlapStart c.1 lo) c.1.offset = localInd c.1 (overlapStart c.1 lo) := vsub_offset hp (fun hn => by rw [hct] at hn; cases hn) l1 fun d hdd => by
    have := l3 d hdd; omega
  have i2 : vsub (overlapEnd c.1 hi) c.1.offset = localInd c.1 (overlapEnd c.1 hi) := vsub_offset hp (fun hn => by rw [hct] at hn; cases hn) l2 fun d hdd => by
    have := l3 d hdd; omega
  have L1 : (localInd c.1 (overlapStart c.1 lo)).length = C.dims := by rw [length_localInd (by omega), l1]
  have L2 : (localInd c.1 (overlapEnd c.1 hi)).length = C.dims := by rw [length_localInd (by omega), l2]
  have hbs : b.shape = c.2.shape := f5.1.symm
  have hext : ∀ d < C.dims, (subVec (localInd c.1 (overlapEnd c.1 hi)) (localInd c.1 (overlapStart c.1 lo))).getD d 0 =
      (overlapEnd c.1 hi).getD d 0 - (overlapStart c.1 lo).getD d 0 := by
    intro d hdd
    rw [getD_subVec (by omega), getD_localInd (by omega) (by omega), getD_localInd (by omega) (by omega)]
    have := l3 d hdd
    omega
  have hextl : (subVec (localInd c.1 (overlapEnd c.1 hi)) (localInd c.1 (overlapStart c.1 lo))).length = C.dims := by
    rw [length_subVec (by omega), L2]
  obtain ⟨buf', e1, e2, e3, e4⟩ := C05_fill_from C.vd P st hd h.small h.view buf hb b.shape _ (b.hdr C.vd) f4.small ViewOf.own b.buf f4.len
    (localInd c.1 (overlapStart c.1 lo)) (localInd c.1 (overlapEnd c.1 hi)) (target lo out (overlapStart c.1 lo)) (by omega) (by omega)
    (by
      have hsl : (b.hdr C.vd).shape.length = C.dims := by show b.shape.length = _; rw [hbs, hp.arrLen]
      refine ⟨by omega, by omega, fun d hdd => ?_⟩
      rw [hsl] at hdd
      rw [hext d hdd, getD_localInd (by omega) (by omega)]
      have e : (b.hdr C.vd).shape.getD d 0 = c.2.shape.getD d 0 := by show b.shape.getD d 0 = _; rw [hbs]
      rw [e, hp.getD_arr hdd]
      have := l3 d hdd
      have := hp.getD_stop d
      omega)
    (by
      refine ⟨by rw [length_target h l1, h.shape], by rw [hextl, h.shape], fun d hdd => ?_⟩
      rw [h.shape] at hdd
      rw [hext d hdd, getD_target h l1]
      have := l3 d hdd
      have := h.getD_fits hdd
      omega)
  have corr : ∀ i, InBox (overlapStart c.1 lo) (overlapEnd c.1 hi) i →
      ValidInd (subVec (localInd c.1 (overlapEnd c.1 hi)) (localInd c.1 (overlapStart c.1 lo))) (subVec i (overlapStart c.1 lo)) ∧
      addVec (target lo out (overlapStart c.1 lo)) (subVec i (overlapStart c.1 lo)) = target lo out i ∧
      addVec (localInd c.1 (overlapStart c.1 lo)) (subVec i (overlapStart c.1 lo)) = localInd c.1 i := by
    intro i hin
    have hil : i.length = C.dims := by rw [hin.1, l1]
    have hsl : (subVec i (overlapStart c.1 lo)).length = C.dims := by rw [length_subVec (by omega), hil]
    have htl := length_target h l1
    refine ⟨⟨by omega, fun d hdd => ?_⟩, ?_, ?_⟩
    · rw [hextl] at hdd
      rw [hext d hdd, getD_subVec (by omega)]
      have := hin.2.2 d (by omega)
      omega
    · apply ext_getD
      · rw [length_target h hil]; simp [addVec, htl, hsl]
      · intro d hdd
        have hdd : d < C.dims := by simpa [addVec, htl, hsl] using hdd
        rw [getD_addVec (by omega), getD_target h l1, getD_target h hil, getD_subVec (by omega)]
        have := hin.2.2 d (by omega)
        have := l3 d hdd
        omega
    · apply ext_getD
      · rw [length_localInd (by omega)]; simp [addVec, L1, hsl, hil]
      · intro d hdd
        have hdd : d < C.dims := by simpa [addVec, L1, hsl] using hdd
        rw [getD_addVec (by omega), getD_localInd (by omega) (by omega), getD_localInd (by omega) (by omega), getD_subVec (by omega)]
        have := hin.2.2 d (by omega)
        have := l3 d hdd
        omega
  refine ⟨cc', fs', s', buf', ?_, f2, f3, f6, e2, fun i hi1 hi2 => ?_, fun j hj hne => ?_⟩
  · unfold fillOne
    simp only [hct]
    rw [f1]
    simp only [Res.ok_bind]
    rw [i1, i2, o1, e1]; rfl
  · have hin := (in_overlap_iff h hp ho).2 ⟨hi1, hi2⟩
    obtain ⟨g1, g2, g3⟩ := corr i hin
    have r := e3 _ g1
    rw [g2, g3] at r
    obtain ⟨v, w, a1, a2, a3⟩ := f5.2 _ (valid_local hp hi2)
    exact ⟨v, w, a1, r.trans a2, a3⟩
  · refine e4 j hj fun k hk he => ?_
    have hkl : k.length = C.dims := by rw [hk.1, hextl]
    have hbox : InBox (overlapStart c.1 lo) (overlapEnd c.1 hi) (addVec (overlapStart c.1 lo) k) := by
      refine ⟨by simp [addVec, l1, hkl], by simp [addVec, l1, l2, hkl], fun d hdd => ?_⟩
      have hdd : d < C.dims := by simpa [addVec, l1, hkl] using hdd
      rw [getD_addVec (by omega)]
      have a1 := hk.2 d (by rw [hextl]; exact hdd)
      rw [hext d hdd] at a1
      have := l3 d hdd
      omega
    have hb2 := (in_overlap_iff h hp ho).1 hbox
    refine hne _ hb2.1 hb2.2 ?_
    rw [he]
    congr 1
    have hal : (addVec (overlapStart c.1 lo) k).length = C.dims := by simp [addVec, l1, hkl]
    have htl := length_target h l1
    apply ext_getD
    · rw [length_target h hal]; simp [addVec, htl, hkl]
    · intro d hdd
      have hdd : d < C.dims := by simpa [addVec, htl, hkl] using hdd
      rw [getD_addVec (by omega), getD_target h l1, getD_target h hal, getD_addVec (by omega)]
      have := l3 d hdd
      omega


/-- What one chunk contributes. -/
theorem fillOne_ok (hC : C.Ok) (h : FillOk C P st hd lo hi out) {cs : List (Meta × Arr)} (hch : Chunky C cs) {c : Meta × Arr} (hc : c ∈ cs)
    (ho : Overlap lo hi c.1.start c.1.stop) {cc : CC} {fs : FS} {s : List (Nat × Entry)} (hcc : CInv C (chunksOf cs) cc fs s) {buf : List Nat}
    (hb : buf.length = volume C.vd P) :
    ∃ cc' fs' s' buf', fillOne C hd lo hi out c.1 (cc, fs, buf) = .ok (cc', fs', buf') ∧ cc'.dir = cc.dir ∧ CInv C (chunksOf cs) cc' fs' s' ∧
      SameBut cc.dir (chunksOf cs) fs fs' ∧ buf'.length = buf.length ∧
      (∀ i, InBox lo hi i → InBox c.1.start c.1.stop i →
        ∃ v w, c.2.get C.vd (localInd c.1 i) = .ok v ∧ ND.read C.vd hd buf' (target lo out i) = .ok w ∧ VEq v w) ∧
      (∀ j, ValidInd P j → (∀ i, InBox lo hi i → InBox c.1.start c.1.stop i → j ≠ addVec st (target lo out i)) →
        ND.read C.vd (mkHdr C.vd P) buf' j = ND.read C.vd (mkHdr C.vd P) buf j) := by
  cases hct : c.1.ctype with
  | all_null => exact fillOne_null hC h hch hc ho hcc hb hct
  | specified => exact fillOne_spec hC h hch hc ho hcc hb hct

theorem fill_loop (hC : C.Ok) (h : FillOk C P st hd lo hi out) {cs : List (Meta × Arr)} (hch : Chunky C cs) :
    ∀ (ds : List (Meta × Arr)), (∀ c ∈ ds, c ∈ cs ∧ Overlap lo hi c.1.start c.1.stop) → Disj ds → ∀ {cc : CC} {fs : FS} {s : List (Nat × Entry)},
    CInv C (chunksOf cs) cc fs s → ∀ {buf : List Nat}, buf.length = volume C.vd P →
    ∃ cc' fs' s' buf', runLoop (fillOne C hd lo hi out) (ds.map Prod.fst) (cc, fs, buf) = .ok (cc', fs', buf') ∧ cc'.dir = cc.dir ∧
      CInv C (chunksOf cs) cc' fs' s' ∧ SameBut cc.dir (chunksOf cs) fs fs' ∧ buf'.length = buf.length ∧
      (∀ c ∈ ds, ∀ i, InBox lo hi i → InBox c.1.start c.1.stop i →
        ∃ v w, c.2.get C.vd (localInd c.1 i) = .ok v ∧ ND.read C.vd hd buf' (target lo out i) = .ok w ∧ VEq v w) ∧
      (∀ j, ValidInd P j → (∀ c ∈ ds, ∀ i, InBox lo hi i → InBox c.1.start c.1.stop i → j ≠ addVec st (target lo out i)) →
        ND.read C.vd (mkHdr C.vd P) buf' j = ND.read C.vd (mkHdr C.vd P) buf j)
  | [], _, _, cc, fs, s, hcc, buf, hb => ⟨cc, fs, s, buf, rfl, rfl, hcc, .refl _, rfl, fun c hc => (by cases hc), fun j _ _ => rfl⟩
  | c :: ds, hds, hdj, cc, fs, s, hcc, buf, hb => by
      obtain ⟨hcm, hov⟩ := hds c (by simp)
      obtain ⟨cc1, fs1, s1, buf1, e1, e2, e3, e4, e5, e6, e7⟩ := fillOne_ok hC h hch hcm hov hcc hb
      unfold Disj at hdj
      rw [List.pairwise_cons] at hdj
      obtain ⟨cc2, fs2, s2, buf2, f1, f2, f3, f4, f5, f6, f7⟩ := fill_loop hC h hch ds (fun c hc => hds c (by simp [hc])) hdj.2 e3 (e5.trans hb)
      refine ⟨cc2, fs2, s2, buf2, ?_, f2.trans e2, f3, ?_, f5.trans e5, ?_, ?_⟩
      · show (fillOne C hd lo hi out c.1 (cc, fs, buf)).bind _ = _
        rw [e1]; exact f1
      · rw [e2] at f4; exact e4.trans f4
      · intro c' hc' i hi1 hi2
        rcases List.mem_cons.1 hc' with rfl | hc'
        · obtain ⟨v, w, a1, a2, a3⟩ := e6 i hi1 hi2
          refine ⟨v, w, a1, ?_, a3⟩
          have hvt := valid_target h hi1
          have w1 := C04_view_is_window C.vd P st hd h.small h.view buf1 (e5.trans hb) _ hvt
          have w2 := C04_view_is_window C.vd P st hd h.small h.view buf2 (f5.trans (e5.trans hb)) _ hvt
          rw [w2.2.1, ← a2, w1.2.1]
          refine f7 _ w1.1 fun c'' hc'' i' hi1' hi2' he => ?_
          have := st_inj h hvt.1 (valid_target h hi1').1 he
          have := target_inj h hi1 hi1' this
          subst this
          exact hdj.1 c'' hc'' i ⟨hi2, hi2'⟩
        · exact f6 c' hc' i hi1 hi2
      · intro j hj hne
        rw [f7 j hj fun c' hc' => hne c' (by simp [hc']), e7 j hj (hne c (by simp))]

end fill

theorem perm_map_inv {α β : Type} (f : α → β) : ∀ {r s : List β}, r.Perm s → ∀ l : List α, s = l.map f → ∃ l' : List α, l'.Perm l ∧ l'.map f = r := by
  intro r s hp
  induction hp with
  | nil => intro l h; exact ⟨l, .refl _, h.symm⟩
  | cons x _ ih =>
    intro l h
    cases l with
    | nil => cases h
    | cons a l =>
      simp only [List.map_cons, List.cons.injEq] at h
      obtain ⟨l', h1, h2⟩ := ih l h.2
      exact ⟨a :: l', h1.cons a, by simp [h2, h.1]⟩
  | swap x y l₀ =>
    intro l h
    cases l with
    | nil => cases h
    | cons a l =>
      cases l with
      | nil => simp at h
      | cons b l =>
        simp only [List.map_cons, List.cons.injEq] at h
        exact ⟨b :: a :: l, .swap _ _ _, by simp [h.1, h.2.1, h.2.2]⟩
  | trans _ _ ih1 ih2 =>
    intro l h
    obtain ⟨l1, a1, a2⟩ := ih2 l h
    obtain ⟨l2, b1, b2⟩ := ih1 l1 a2.symm
    exact ⟨l2, b1.trans a1, b2⟩

theorem exists_cs {cs : List (Meta × Arr)} : ∀ (r : List Meta) (f : Meta → Bool), r.Perm ((cs.map Prod.fst).filter f) →
    ∃ ds : List (Meta × Arr), ds.map Prod.fst = r ∧ ds.Perm (cs.filter fun c => f c.1) := by
  intro r f hp
  have e : (cs.map Prod.fst).filter f = (cs.filter fun c => f c.1).map Prod.fst := by rw [List.filter_map]; rfl
  rw [e] at hp
  generalize cs.filter (fun c => f c.1) = l at hp
  obtain ⟨l', h1, h2⟩ := perm_map_inv Prod.fst hp l rfl
  exact ⟨l', h2, h1⟩

theorem fillArray_ok (hC : C.Ok) {lib : Lib} {fs : FS} {cs : List (Meta × Arr)} (hl : LInv C S Z lib fs cs) {P st : List Nat} {hd : Hdr} {lo hi out : List Nat}
    (h : FillOk C P st hd lo hi out) {buf : List Nat} (hb : buf.length = volume C.vd P) :
    ∃ lib' fs' buf', lib.fillArray C fs hd buf lo hi out = .ok (lib', fs', buf') ∧ LInv C S Z lib' fs' cs ∧ lib'.idx = lib.idx ∧
      SameBut lib.idx.dir (chunksOf cs) fs fs' ∧ buf'.length = buf.length ∧
      (∀ c ∈ cs, ∀ i, InBox lo hi i → InBox c.1.start c.1.stop i →
        ∃ v w, c.2.get C.vd (localInd c.1 i) = .ok v ∧ ND.read C.vd hd buf' (target lo out i) = .ok w ∧ VEq v w) ∧
      (∀ j, ValidInd P j → (∀ c ∈ cs, ∀ i, InBox lo hi i → InBox c.1.start c.1.stop i → j ≠ addVec st (target lo out i)) →
        ND.read C.vd (mkHdr C.vd P) buf' j = ND.read C.vd (mkHdr C.vd P) buf j) := by
  obtain ⟨r, e1, e2⟩ := hl.idx.getChunks_ok hC (lo := lo) (hi := hi) h.loLen
  obtain ⟨ds, d1, d2⟩ := exists_cs r _ e2
  obtain ⟨s, hs⟩ := hl.cache
  have hmem : ∀ c ∈ ds, c ∈ cs ∧ Overlap lo hi c.1.start c.1.stop := fun c hc => by
    have := d2.mem_iff.1 hc
    rw [List.mem_filter] at this
    exact ⟨this.1, by simpa using this.2⟩
  have hdj : Disj ds := (d2.pairwise_iff (fun h => DisjointBox.symm h)).2 (hl.chunky.disj.filter _)
  obtain ⟨cc', fs', s', buf', f1, f2, f3, f4, f5, f6, f7⟩ := fill_loop hC h hl.chunky ds hmem hdj hs hb
  have hov : ∀ c ∈ cs, ∀ i, InBox lo hi i → InBox c.1.start c.1.stop i → c ∈ ds := by
    intro c hc i hi1 hi2
    rw [d2.mem_iff, List.mem_filter]
    refine ⟨hc, decide_eq_true fun d hdd => ?_⟩
    have a := hi1.2.2 d (by rw [hi1.1]; exact hdd)
    have b := hi2.2.2 d (by rw [hi1.1]; exact hdd)
    omega
  refine ⟨⟨cc', lib.idx⟩, fs', buf', ?_, ⟨hl.chunky, hl.idx, f2.trans hl.dir, ⟨s', f3⟩, hl.valid⟩, rfl, by rw [← hl.dir]; exact f4, f5,
    fun c hc i hi1 hi2 => f6 c (hov c hc i hi1 hi2) i hi1 hi2, fun j hj hne => f7 j hj fun c hc => hne c (hmem c hc).1⟩
  unfold Lib.fillArray
  have a1 : hasIndex hd.shape out = true := (hasIndex_iff h.fits.1).2 ⟨h.fits.1, fun d hdd => by have := h.fits.2.2 d hdd; omega⟩
  have a2 : hasIndex hd.shape (vsubS (vadd out (vsub hi lo)) 1) = true := by
    have hvs : vsub hi lo = subVec hi lo := by
      apply vsub_eq (fun d hdd => Nat.le_of_lt (h.lt d (by rw [← h.hiLen]; exact hdd)).1) (by rw [h.hiLen, h.loLen])
      intro y hy
      obtain ⟨d, hdd, rfl⟩ := List.getElem_of_mem hy
      have a2 := (h.lt d (by rw [← h.hiLen]; exact hdd)).2
      rw [List.getD_eq_getElem?_getD, List.getElem?_eq_getElem hdd, Option.getD_some] at a2
      exact a2
    have hsl : (subVec hi lo).length = C.dims := by rw [length_subVec (by rw [h.hiLen, h.loLen]), h.hiLen]
    have hol := h.outLen
    have hva : vadd out (vsub hi lo) = addVec out (subVec hi lo) := by
      rw [hvs]
      apply vadd_eq (by omega)
      intro d hdd
      have h1 := h.getD_fits (d := d) (by omega)
      rw [getD_subVec (by rw [h.hiLen, h.loLen])]
      have hU : U64 = 2 ^ 64 := rfl
      omega
    have hal : (addVec out (subVec hi lo)).length = hd.shape.length := by simp [addVec, hol, hsl, h.shape]
    rw [hva, hasIndex_iff (by simp [vsubS, hal])]
    refine vsubS_one_valid hal (h.view.shape_small h.small).1 fun d hdd => ?_
    have := h.fits.2.2 d hdd
    rw [getD_addVec (by omega)]
    omega
  rw [a1, a2]
  show Res.bind _ _ = _
  rw [e1]
  simp only [Res.ok_bind]
  rw [← d1, f1]; rfl

end Verif.Dist
