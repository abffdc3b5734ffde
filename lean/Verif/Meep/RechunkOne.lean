import Verif.Meep.RechunkPart
/-
One call of `RebuildChunksPartial` in `rechunk_mpi`.
-/
namespace Verif.Meep
open Verif Verif.ND Verif.Dist Verif.Tree Verif.Rebuild Verif.Ops

variable {C : Cfg} {S : Sorter} {Z : SlabSize} {ps : List Piece} {ge : List Nat} {X : Rech}

/-- What is in the directory of partition `n` when `[p.1, p.2)` has been rechunked. -/
structure PartFiles (C : Cfg) (ps : List Piece) (ge : List Nat) (X : Rech) (n : Nat) (p : List Nat × List Nat) (fs : FS) (cs : List (Meta × Arr)) : Prop where
  saved : Saved (outCfg C) fs (X.dir n) cs
  made : ∀ c ∈ cs, OutChunk C ps ge X c
  inside : ∀ c ∈ cs, ∀ i, InBox c.1.start c.1.stop i → InBox p.1 p.2 (addVec i X.pre)
  cover : ∀ i, i.length = C.dims → InBox p.1 p.2 (addVec i X.pre) → ∃ c ∈ cs, InBox c.1.start c.1.stop i
  path : ∀ c ∈ cs, c.1.path = [] ∨ ∃ k, c.1.path = X.uuid n k
  files : ∀ m, fs (X.dir n, .chunk m) ≠ none → ∃ k, m = X.uuid n k

theorem PartFiles.frame {n : Nat} {p : List Nat × List Nat} {fs fs' : FS} {cs : List (Meta × Arr)} (h : PartFiles C ps ge X n p fs cs) (hf : ∀ m, fs' (X.dir n, m) = fs (X.dir n, m)) :
    PartFiles C ps ge X n p fs' cs :=
  ⟨h.saved.frame hf, h.made, h.inside, h.cover, h.path, fun m hm => h.files m (by rw [← hf]; exact hm)⟩

/-- Shifting an index of the result into the input. -/
theorem inBoxZ_shift {b e pre : List Nat} {o : Nat} (hb : b.length = pre.length) (he : e.length = pre.length) (hle : ∀ d < b.length, pre.getD d 0 ≤ b.getD d 0 ∧ b.getD d 0 ≤ e.getD d 0) {j : List Int}
    (hj : InBoxZ (padStart (subVec b pre) o) (padEnd (subVec e pre) o) j) :
    InBoxZ (padStart b o) (padEnd e o) (shiftZ pre j) ∧ loc (padStart b o) (shiftZ pre j) = loc (padStart (subVec b pre) o) j := by
  obtain ⟨h1, h2, h3⟩ := hj
  have hl1 : (subVec b pre).length = b.length := length_subVec (by omega)
  have hl2 : (subVec e pre).length = e.length := length_subVec (by omega)
  have hjl : j.length = b.length := by rw [h1]; simp [padStart, hl1]
  have hsl : (shiftZ pre j).length = b.length := by unfold shiftZ; rw [List.length_zipWith]; omega
  have hps : (padStart b o).length = b.length := by simp [padStart]
  have hpe : (padEnd e o).length = e.length := by simp [padEnd]
  have hpl : (padStart (subVec b pre) o).length = b.length := by simp [padStart, hl1]
  have hsd : ∀ d < b.length, (shiftZ pre j).getD d 0 = j.getD d 0 + ((pre.getD d 0 : Nat) : Int) := fun d hd => by
    unfold shiftZ
    rw [List.getD_eq_getElem?_getD, List.getElem?_zipWith, List.getElem?_eq_getElem (by omega), List.getElem?_eq_getElem (l := pre) (by omega)]
    rw [List.getD_eq_getElem?_getD, List.getD_eq_getElem?_getD, List.getElem?_eq_getElem (by omega), List.getElem?_eq_getElem (l := pre) (by omega)]
    rfl
  constructor
  · refine ⟨by omega, by omega, fun d hd => ?_⟩
    have hd : d < b.length := by omega
    have h4 := h3 d (by omega)
    have h5 := hle d hd
    rw [getD_padStart (by omega), getD_padEnd (by omega), getD_subVec (by omega), getD_subVec (by omega)] at h4
    rw [getD_padStart hd, getD_padEnd (by omega), hsd d hd]
    omega
  · apply ext_getD
    · rw [length_loc (by omega), length_loc (by omega)]; omega
    · intro d hd
      rw [length_loc (by omega)] at hd
      have h5 := hle d (by omega)
      rw [getD_loc (by omega), getD_loc (by omega), hsd d (by omega), getD_padStart (by omega), getD_padStart (by omega), getD_subVec (by omega)]
      congr 1
      omega

theorem addVec_subVec {i pre : List Nat} (hl : i.length = pre.length) : subVec (addVec i pre) pre = i := by
  have hl' : (addVec i pre).length = i.length := by unfold addVec; rw [List.length_zipWith]; omega
  apply ext_getD
  · rw [length_subVec (by omega)]; exact hl'
  · intro d _
    rw [getD_subVec (by omega), getD_addVec (by omega)]; omega

/-- A box shifted back. -/
theorem inBox_back {b e pre i : List Nat} (hb : b.length = pre.length) (he : e.length = pre.length) (hi : i.length = pre.length) (hle : ∀ d < b.length, pre.getD d 0 ≤ b.getD d 0 ∧ b.getD d 0 ≤ e.getD d 0) :
    InBox (subVec b pre) (subVec e pre) i ↔ InBox b e (addVec i pre) := by
  have hl' : (addVec i pre).length = i.length := by unfold addVec; rw [List.length_zipWith]; omega
  have hl1 : (subVec b pre).length = b.length := length_subVec (by omega)
  have hl2 : (subVec e pre).length = e.length := length_subVec (by omega)
  constructor
  · rintro ⟨h1, h2, h3⟩
    refine ⟨by omega, by omega, fun d hd => ?_⟩
    have h4 := h3 d (by omega)
    have := hle d (by omega)
    rw [getD_subVec (by omega), getD_subVec (by omega)] at h4
    rw [getD_addVec (by omega)]; omega
  · rintro ⟨h1, h2, h3⟩
    refine ⟨by omega, by omega, fun d hd => ?_⟩
    have h4 := h3 d (by omega)
    have := hle d (by omega)
    rw [getD_addVec (by omega)] at h4
    rw [getD_subVec (by omega), getD_subVec (by omega)]; omega

set_option maxHeartbeats 1000000 in
/-- The conditions for rechunking a partition. -/
theorem part_cond (hC : C.Ok) (h : CanRechunk C ps ge X) {cs : List (Meta × Arr)} (hch : Chunky C cs) (hr : Rep C cs ps) {parts : List (List Nat × List Nat)}
    (hP : PartsOk C ge X parts) {n : Nat} {p : List Nat × List Nat} (hp : p ∈ parts) :
    cs ≠ [] ∧ vsub p.1 X.pre = subVec p.1 X.pre ∧ PartOk C cs (List.replicate C.dims 0) ge p.1 p.2 (subVec p.1 X.pre) X.req X.overlap (X.uuid n) ∧
      (∀ lo hi, Hull C.dims (cs.map Prod.fst) lo hi → lo = List.replicate C.dims 0 ∧ hi = ge) ∧
      ∀ b e R, R.C = C → R.bev = cylindrical C.vd → R.gs = List.replicate C.dims 0 → R.ge = ge → R.overlap = X.overlap → Ctx R cs b e →
        Total C.vd (cylindrical C.vd) (List.replicate C.dims 0) ge (padStart b X.overlap) (padEnd e X.overlap) := by
  have h1 := h.preLen; have h2 := h.postLen; have h3 := h.geLen; have h4 := h.shapeLen; have h5 := h.stopLen; have h6 := h.reqLen
  have hd0 := hC.dims
  obtain ⟨size, hsz, hbox⟩ := hP.box
  have hb := hbox p hp
  obtain ⟨l1, l2, l3⟩ := hb
  have hb := hbox p hp
  have hps : ps ≠ [] := by
    obtain ⟨p, hp, _⟩ := h.hull.loAtt 0 hd0
    intro e; rw [e] at hp; cases hp
  have hcs : cs ≠ [] := by
    intro e; apply hps; have := hr.1; rw [e] at this
    exact List.length_eq_zero_iff.1 this.symm
  have hout : vsub p.1 X.pre = subVec p.1 X.pre := vsub_eq' (by omega) fun d hd => by
    have := l3 d (by omega)
    have := h.inner d (by omega)
    have := h.int d (by omega)
    have := h.stopD d
    omega
  have hol : (subVec p.1 X.pre).length = C.dims := by rw [length_subVec (by omega)]; omega
  have hod : ∀ d, (subVec p.1 X.pre).getD d 0 = p.1.getD d 0 - X.pre.getD d 0 := fun d => getD_subVec (by omega) d
  have hcomp : ∀ {b e}, BoxOK p.1 p.2 X.req b e → BoxOK X.pre (X.stop ge) X.req b e := fun hb' => box_compose (fun d hd => by
    obtain ⟨k, _, hk⟩ := hsz d (by omega)
    exact ⟨k, hk⟩) hb hb'
  have hvol : boxVolume p.1 p.2 < 2 ^ 64 := by
    have h7 := h.vol.2
    rw [← boxVolume_eq (by omega)]
    rw [← boxVolume_eq (by simp; omega)] at h7
    have hn : (elemLoop p.1 p.2).Nodup := elemLoop_nodup _ _
    have hs : elemLoop p.1 p.2 ⊆ elemLoop (List.replicate C.dims 0) ge := by
      intro i hi
      rw [mem_elemLoop] at hi ⊢
      obtain ⟨i1, i2, i3⟩ := hi
      refine ⟨by simp; omega, by omega, fun d hd => ?_⟩
      have := i3 d hd
      have := l3 d (by omega)
      have := h.stopD d
      have := h.inner d (by omega)
      rw [zeros_getD]; omega
    have := (List.Nodup.subperm hn hs).length_le
    omega
  have hpart : PartOk C cs (List.replicate C.dims 0) ge p.1 p.2 (subVec p.1 X.pre) X.req X.overlap (X.uuid n) := by
    refine ⟨by omega, by omega, hol, h6, fun d hd => ?_, fun d hd => ?_, fun i hi => ?_, fun b e hb' => h.fit _ _ (hcomp hb'), hvol, fun k => ?_⟩
    · have := l3 d (by omega)
      have := h.stopD d
      have := h.inner d hd
      have := h.int d hd
      rw [zeros_getD, hod]; omega
    · have := h.req d hd; omega
    · exact (covered_iff hr i).1 (h.filled i hi)
    · obtain ⟨u1, u2⟩ := h.names n k
      exact ⟨u1, u2, fun j hj e => hj (h.inj _ _ _ _ e).2⟩
  exact ⟨hcs, hout, hpart, fun lo hi hh' => by
      obtain ⟨e1, e2⟩ := h.hull.unique (hull_pieces hch hr hcs hh')
      exact ⟨e1, e2⟩, fun b e R r1 r2 r3 r4 r5 hctx => by
      have := cyl_total (R := R) (by rw [r1]; exact hC) hctx
      rw [r1, r3, r4, r5] at this
      exact this⟩

set_option maxHeartbeats 1000000 in
/-- The files of a partition that is done. -/
theorem part_files (hC : C.Ok) (hchunk : C.chunk = (outCfg C).chunk) (h : CanRechunk C ps ge X) {cs : List (Meta × Arr)} (hch : Chunky C cs) (hr : Rep C cs ps)
    {parts : List (List Nat × List Nat)} (hP : PartsOk C ge X parts) {n : Nat} {p : List Nat × List Nat} (hp : p ∈ parts) {R : RCfg} {cs1 : List (Meta × Arr)} {boxes : List (List Nat × List Nat)} {fs₀ fs' : FS}
    (hRe : R = ⟨C, outCfg C, S, cylindrical C.vd, List.replicate C.dims 0, ge, vsub (subVec p.1 X.pre) p.1, X.overlap, true, X.uuid n⟩)
    (D : PartDone C S Z R cs cs1 p.1 p.2 (subVec p.1 X.pre) X.req X.indir (X.dir n) boxes fs₀ fs') (hnone : ∀ m, fs₀ (X.dir n, m) = none) : PartFiles C ps ge X n p fs' cs1 := by
  have h1 := h.preLen; have h2 := h.postLen; have h3 := h.geLen; have h4 := h.shapeLen; have h5 := h.stopLen; have h6 := h.reqLen
  have hd0 := hC.dims
  obtain ⟨size, hsz, hbox⟩ := hP.box
  have hb := hbox p hp
  obtain ⟨l1, l2, l3⟩ := hb
  have hb := hbox p hp
  have hps : ps ≠ [] := by
    obtain ⟨p, hp, _⟩ := h.hull.loAtt 0 hd0
    intro e; rw [e] at hp; cases hp
  have hcs : cs ≠ [] := by
    intro e; apply hps; have := hr.1; rw [e] at this
    exact List.length_eq_zero_iff.1 this.symm
  have hout : vsub p.1 X.pre = subVec p.1 X.pre := vsub_eq' (by omega) fun d hd => by
    have := l3 d (by omega)
    have := h.inner d (by omega)
    have := h.int d (by omega)
    have := h.stopD d
    omega
  have hol : (subVec p.1 X.pre).length = C.dims := by rw [length_subVec (by omega)]; omega
  have hod : ∀ d, (subVec p.1 X.pre).getD d 0 = p.1.getD d 0 - X.pre.getD d 0 := fun d => getD_subVec (by omega) d
  have hcomp : ∀ {b e}, BoxOK p.1 p.2 X.req b e → BoxOK X.pre (X.stop ge) X.req b e := fun hb' => box_compose (fun d hd => by
    obtain ⟨k, _, hk⟩ := hsz d (by omega)
    exact ⟨k, hk⟩) hb hb'
  have hRC : R.C = C := by rw [hRe]
  have hRgs : R.gs = List.replicate C.dims 0 := by rw [hRe]
  have hRge : R.ge = ge := by rw [hRe]
  have hRo : R.overlap = X.overlap := by rw [hRe]
  have hRb : R.bev = cylindrical C.vd := by rw [hRe]
  -- places
  have hplace : ∀ q ∈ boxes, q.1.length = C.dims ∧ q.2.length = C.dims ∧ outInd p.1 (subVec p.1 X.pre) q.1 = subVec q.1 X.pre ∧ outInd p.1 (subVec p.1 X.pre) q.2 = subVec q.2 X.pre ∧
      ∀ d < C.dims, X.pre.getD d 0 ≤ p.1.getD d 0 ∧ p.1.getD d 0 ≤ q.1.getD d 0 ∧ q.1.getD d 0 < q.2.getD d 0 ∧ q.2.getD d 0 ≤ p.2.getD d 0 := by
    intro q hq
    obtain ⟨m1, m2, m3⟩ := D.boxOK q hq
    have hg : ∀ v : List Nat, v.length = C.dims → (∀ d < C.dims, p.1.getD d 0 ≤ v.getD d 0) → outInd p.1 (subVec p.1 X.pre) v = subVec v X.pre := fun v hv hle => by
      apply ext_getD
      · rw [length_outInd (by omega) (by omega), length_subVec (by omega)]
      · intro d hd
        rw [length_outInd (by omega) (by omega)] at hd
        have := hle d (by omega)
        have := l3 d (by omega)
        rw [getD_outInd (by omega) (by omega), hod, getD_subVec (by omega)]; omega
    have key : ∀ d < C.dims, X.pre.getD d 0 ≤ p.1.getD d 0 ∧ p.1.getD d 0 ≤ q.1.getD d 0 ∧ q.1.getD d 0 < q.2.getD d 0 ∧ q.2.getD d 0 ≤ p.2.getD d 0 := fun d hd => by
      have := m3 d (by omega)
      have := l3 d (by omega)
      omega
    exact ⟨by omega, by omega, hg _ (by omega) fun d hd => (key d hd).2.1, hg _ (by omega) fun d hd => by have := key d hd; omega, key⟩
  have hmk : ∀ c ∈ cs1, ∃ k, ∃ q ∈ boxes, MadeOne R cs p.1 (subVec p.1 X.pre) q k c := by
    intro c hc
    obtain ⟨k, hk⟩ := List.getElem?_of_mem hc
    have hkb : k < boxes.length := by have := lt_of_get? hk; rw [D.len] at this; exact this
    exact ⟨k, _, List.getElem_mem hkb, D.made k c _ hk (List.getElem?_eq_getElem hkb)⟩
  have hpath : ∀ c ∈ cs1, c.1.path = [] ∨ ∃ k, c.1.path = X.uuid n k := by
    intro c hc
    obtain ⟨k, q, hq, m⟩ := hmk c hc
    have := m.path
    rw [hRe] at this
    exact this.imp_right fun e => ⟨k, e⟩
  refine ⟨D.saved, ?_, ?_, ?_, hpath, ?_⟩
  · -- the chunks
    intro c hc
    obtain ⟨k, q, hq, m⟩ := hmk c hc
    obtain ⟨q1, q2, q3, q4, q5⟩ := hplace q hq
    have ms : c.1.start = subVec q.1 X.pre := m.mstart.trans q3
    have me : c.1.stop = subVec q.2 X.pre := m.mstop.trans q4
    obtain ⟨a, ca, ka⟩ := m.content
    have hok : a.Ok C := by
      have := ka.ok
      rw [hRe] at this
      replace this : a.Ok (outCfg C) := this
      rw [outCfg_eq hchunk] at this
      exact Arr.Ok.size this
    refine ⟨?_, by rw [m.ovl, hRo], a, ?_, fun h => ka.same (Or.inl h), fun h => ⟨ka.null h, ka.zero h⟩, fun j hj => ?_⟩
    · rw [ms, me]; exact h.boxShift (hcomp (D.boxOK q hq))
    · rw [ca.shape, hRo, ms, me]
      congr 1
      apply ext_getD
      · rw [length_subVec (by omega), length_subVec (by rw [length_subVec (by omega), length_subVec (by omega)]; omega), length_subVec (by omega)]
      · intro d hd
        rw [length_subVec (by omega)] at hd
        have := q5 d (by omega)
        rw [getD_subVec (by omega), getD_subVec (by rw [length_subVec (by omega), length_subVec (by omega)]; omega), getD_subVec (by omega), getD_subVec (by omega)]; omega
    · rw [ms, me] at hj
      obtain ⟨z1, z2⟩ := inBoxZ_shift (by omega) (by omega) (fun d hd => by have := q5 d (by omega); omega) hj
      rw [ms, ← z2, ← hRo]
      rw [← hRo] at z1
      exact content_value hC h3 hch hr h.filled hRC hRgs hRge hRb (D.ctx q hq) ca hok z1
  · intro c hc i hi
    obtain ⟨k, q, hq, m⟩ := hmk c hc
    obtain ⟨q1, q2, q3, q4, q5⟩ := hplace q hq
    rw [m.mstart.trans q3, m.mstop.trans q4] at hi
    have hil : i.length = C.dims := by rw [hi.1, length_subVec (by omega)]; omega
    exact (D.cover _).2 ⟨q, hq, (inBox_back (by omega) (by omega) (by omega) fun d hd => by have := q5 d (by omega); omega).1 hi⟩
  · intro i hil hi
    obtain ⟨q, hq, hqi⟩ := (D.cover _).1 hi
    obtain ⟨q1, q2, q3, q4, q5⟩ := hplace q hq
    obtain ⟨k, hk⟩ := List.getElem?_of_mem hq
    have hkl : k < cs1.length := by have := lt_of_get? hk; rw [D.len]; exact this
    have m := D.made k _ q (List.getElem?_eq_getElem hkl) hk
    refine ⟨cs1[k], List.getElem_mem hkl, ?_⟩
    rw [m.mstart.trans q3, m.mstop.trans q4]
    exact (inBox_back (by omega) (by omega) (by omega) fun d hd => by have := q5 d (by omega); omega).2 hqi
  · intro m hm
    rcases D.outFiles m hm with q | ⟨c, hc, c1, c2⟩
    · exact absurd (hnone _) q
    · rcases hpath c hc with q | ⟨k, q⟩
      · exact absurd q c1
      · exact ⟨k, c2.symm.trans q⟩

theorem part_ok (hC : C.Ok) (hchunk : C.chunk = (outCfg C).chunk) (hjunk : ∀ k, C.junk k < 2 ^ 32) (h : CanRechunk C ps ge X) {cs : List (Meta × Arr)} (hch : Chunky C cs) (hr : Rep C cs ps) {parts : List (List Nat × List Nat)}
    (hP : PartsOk C ge X parts) {lib : Lib} {fs : FS} (hR : Ready C S Z X cs fs lib) {n : Nat} {p : List Nat × List Nat} (hp : p ∈ parts) :
    ∃ lib' fs' cs', rebuildPartial C S (cylindrical C.vd) (X.uuid n) lib (emptyDir fs (X.dir n)) p.1 p.2 (vsub p.1 X.pre) X.req (X.dir n) X.overlap true = .ok (lib', fs') ∧
      Ready C S Z X cs fs' lib' ∧ (∀ d, d ≠ X.dir n → ∀ m, fs' (d, m) = fs (d, m)) ∧ PartFiles C ps ge X n p fs' cs' := by
  obtain ⟨hcs, hout, hpart, hhull, htot⟩ := part_cond (n := n) hC h hch hr hP hp
  have hdn := h.dirs n
  have hR1 : Ready C S Z X cs (emptyDir fs (X.dir n)) lib := hR.frame fun m => by unfold emptyDir; rw [if_neg (Ne.symm hdn.1)]
  obtain ⟨lib1, fs1, cs1, boxes, R, e1, e2, e3, e4, hRe, e5, D⟩ := rebuildPartial_ok (bev := cylindrical C.vd) (opt := true) hC hjunk hR1.inv hcs hhull hpart (outdir := X.dir n)
    (by rw [hR.dir]; exact hdn.1) (by unfold emptyDir; rw [if_pos rfl]) htot
  obtain ⟨e5, e6⟩ := e5 hR.clean
  rw [hR.dir] at e6 D
  rw [hR.dir] at e4
  refine ⟨lib1, fs1, cs1, ?_, ⟨e2, e5, e4⟩, ?_, part_files hC hchunk h hch hr hP hp hRe D fun m => by unfold emptyDir; rw [if_pos rfl]⟩
  · rw [hout]; exact e1
  · intro d hd m
    by_cases hdi : d = X.indir
    · rw [hdi, e6]; unfold emptyDir; rw [if_neg (Ne.symm hdn.1)]
    · rw [D.other d hdi hd]; unfold emptyDir; rw [if_neg hd]

end Verif.Meep
