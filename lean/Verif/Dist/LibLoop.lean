import Verif.Dist.LibRead
/-
`index_loop_over_elements` of a chunk library.
-/
namespace Verif.Dist
open Verif Verif.ND Verif.Tree Verif.Bytes Verif.Stream Verif.NullSup

variable {C : Cfg} {S : Sorter} {Z : SlabSize}

/-- Conditions on the region. -/
structure RegOkay (C : Cfg) (lo hi : List Nat) : Prop where
  loLen : lo.length = C.dims
  hiLen : hi.length = C.dims
  lt : ∀ d < C.dims, lo.getD d 0 < hi.getD d 0 ∧ hi.getD d 0 < 2 ^ 64

section loop
variable {lo hi : List Nat}

theorem roverlap_facts (h : RegOkay C lo hi) {m : Meta} {a : Arr} (hp : Placed C m a) (ho : Overlap lo hi m.start m.stop) :
    (overlapStart m lo).length = C.dims ∧ (overlapEnd m hi).length = C.dims ∧
    ∀ d < C.dims, (overlapStart m lo).getD d 0 = max (lo.getD d 0) (m.start.getD d 0) ∧ (overlapEnd m hi).getD d 0 = min (hi.getD d 0) (m.stop.getD d 0) ∧
      (overlapStart m lo).getD d 0 < (overlapEnd m hi).getD d 0 := by
  have h1 := h.loLen
  have h2 := h.hiLen
  have h3 := hp.startLen
  have h4 := hp.stopLen
  refine ⟨by simp [overlapStart, h1, h3], by simp [overlapEnd, h2, h4], fun d hdd => ?_⟩
  have e1 : (overlapStart m lo).getD d 0 = max (lo.getD d 0) (m.start.getD d 0) := getD_zipWith (by omega) (by omega)
  have e2 : (overlapEnd m hi).getD d 0 = min (hi.getD d 0) (m.stop.getD d 0) := getD_zipWith (by omega) (by omega)
  have h5 := ho d (by omega)
  have h6 := h.lt d hdd
  have h7 := hp.getD_stop d
  have h8 := hp.pos d hdd
  exact ⟨e1, e2, by omega⟩

theorem rin_overlap_iff (h : RegOkay C lo hi) {m : Meta} {a : Arr} (hp : Placed C m a) (ho : Overlap lo hi m.start m.stop) {i : List Nat}
    : InBox (overlapStart m lo) (overlapEnd m hi) i ↔ InBox lo hi i ∧ InBox m.start m.stop i := by
  obtain ⟨h1, h2, h3⟩ := roverlap_facts h hp ho
  have k1 := h.loLen
  have k2 := h.hiLen
  have k3 := hp.startLen
  have k4 := hp.stopLen
  constructor
  · intro hi'
    have hl : i.length = C.dims := by rw [hi'.1, h1]
    have key := fun d (hdd : d < i.length) => hi'.2.2 d hdd
    refine ⟨⟨by omega, by omega, fun d hdd => ?_⟩, ⟨by omega, by omega, fun d hdd => ?_⟩⟩
    all_goals
      have a1 := key d hdd
      have a2 := h3 d (by omega)
      omega
  · rintro ⟨ha, hb⟩
    have hl : i.length = C.dims := by rw [ha.1, k1]
    refine ⟨by omega, by omega, fun d hdd => ?_⟩
    have a1 := ha.2.2 d hdd
    have a2 := hb.2.2 d hdd
    have a3 := h3 d (by omega)
    omega

/-- A position of the stored array is a global index, and back. -/
theorem local_back {m : Meta} {a : Arr} (hp : Placed C m a) (hnp : m.ctype = .all_null → m.overlap = 0) {s e j : List Nat} (hs : s.length = C.dims) (he : e.length = C.dims)
    (hb : ∀ d < C.dims, m.start.getD d 0 ≤ s.getD d 0 ∧ e.getD d 0 ≤ m.stop.getD d 0) (hj : InBox (localInd m s) (localInd m e) j) :
    InBox s e (vadd m.offset j) ∧ localInd m (vadd m.offset j) = j := by
  have hpo := padOf_of hnp
  have k1 := hp.startLen
  have k2 := hp.stopLen
  have hjl : j.length = C.dims := by rw [hj.1, length_localInd (by omega), hs]
  have hol : m.offset.length = C.dims := by rw [hp.offset]; simp [vsubS, k1]
  have hvl : (vadd m.offset j).length = C.dims := by simp [vadd, hol, hjl]
  have hg : ∀ d < C.dims, (vadd m.offset j).getD d 0 = j.getD d 0 + m.start.getD d 0 - m.overlap ∧ s.getD d 0 ≤ (vadd m.offset j).getD d 0 ∧
      (vadd m.offset j).getD d 0 < e.getD d 0 ∧ m.overlap ≤ j.getD d 0 := by
    intro d hd
    have h1 := hj.2.2 d (by omega)
    rw [getD_localInd (by omega) (by omega), getD_localInd (by omega) (by omega)] at h1
    have h2 := hb d hd
    have h3 := hp.lt d hd
    have h4 := hp.ovl
    have e1 : (vadd m.offset j).getD d 0 = wadd (m.offset.getD d 0) (j.getD d 0) := getD_zipWith (by omega) (by omega)
    have e2 : m.offset.getD d 0 = wsub (m.start.getD d 0) m.overlap := by
      rw [hp.offset]
      unfold vsubS
      rw [List.getD_eq_getElem?_getD, List.getD_eq_getElem?_getD, List.getElem?_map, List.getElem?_eq_getElem (by omega)]
      rfl
    rw [e1, e2]
    unfold wadd wsub
    rw [show U64 = 18446744073709551616 from rfl]
    omega
  refine ⟨⟨by omega, by omega, fun d hd => ?_⟩, ?_⟩
  · have := hg d (by omega); exact ⟨this.2.1, this.2.2.1⟩
  · apply ext_getD
    · rw [length_localInd (by omega), hvl, hjl]
    · intro d hd
      rw [length_localInd (by omega)] at hd
      rw [getD_localInd (by omega) hd]
      have h2 := hg d (by omega)
      have h3 := hb d (by omega)
      omega

/-- The indices one chunk contributes, with their values. -/
structure Calls (C : Cfg) (lo hi : List Nat) (c : Meta × Arr) (calls : List (List Nat × List Nat)) : Prop where
  nodup : (calls.map Prod.fst).Nodup
  mem : ∀ i, i ∈ calls.map Prod.fst ↔ InBox lo hi i ∧ InBox c.1.start c.1.stop i
  val : ∀ p ∈ calls, ∃ v, c.2.get C.vd (localInd c.1 p.1) = .ok v ∧ VEq v p.2

theorem loopOne_ok (hC : C.Ok) (h : RegOkay C lo hi) {cs : List (Meta × Arr)} (hch : Chunky C cs) {c : Meta × Arr} (hc : c ∈ cs)
    (hnp : c.1.ctype = .all_null → c.1.overlap = 0)
    (ho : Overlap lo hi c.1.start c.1.stop) {cc : CC} {fs : FS} {s : List (Nat × Entry)} (hcc : CInv C (chunksOf cs) cc fs s) (acc : List (List Nat × List Nat)) :
    ∃ cc' fs' s' calls, loopOne C lo hi c.1 (cc, fs, acc) = .ok (cc', fs', acc ++ calls) ∧ cc'.dir = cc.dir ∧ CInv C (chunksOf cs) cc' fs' s' ∧
      SameBut cc.dir (chunksOf cs) fs fs' ∧ Calls C lo hi c calls := by
  have hp := hch.placed c hc
  obtain ⟨l1, l2, l3⟩ := roverlap_facts h hp ho
  have k3 := hp.startLen
  have k4 := hp.stopLen
  have kd := hC.dims
  have hlk := chunksOf_of_mem hch.ids hc
  obtain ⟨cc', fs', s', b, f1, f2, f3, f4, f5, f6⟩ := retrieve_ok hC hch.ok hcc (m := c.1) (a := c.2) hlk
  have i1 : vsub (overlapStart c.1 lo) c.1.offset = localInd c.1 (overlapStart c.1 lo) := vsub_offset hp hnp l1 fun d hdd => by
    have := l3 d hdd; omega
  have i2 : vsub (overlapEnd c.1 hi) c.1.offset = localInd c.1 (overlapEnd c.1 hi) := vsub_offset hp hnp l2 fun d hdd => by
    have := l3 d hdd; omega
  have L1 : (localInd c.1 (overlapStart c.1 lo)).length = C.dims := by rw [length_localInd (by omega), l1]
  have L2 : (localInd c.1 (overlapEnd c.1 hi)).length = C.dims := by rw [length_localInd (by omega), l2]
  have hbs : b.shape = c.2.shape := f5.1.symm
  have hlev : LeVec (localInd c.1 (overlapEnd c.1 hi)) (b.hdr C.vd).shape := by
    refine ⟨by show _ = b.shape.length; rw [hbs, hp.arrLen, L2], fun d hdd => ?_⟩
    show _ ≤ b.shape.getD d 0
    rw [L2] at hdd
    rw [hbs, getD_localInd (by omega) (by omega), hp.getD_arr hdd]
    have := l3 d hdd
    have := hp.getD_stop d
    omega
  obtain ⟨calls, e1, e2, e3, e4⟩ := C09_index_loop C.vd b.shape _ (b.hdr C.vd) f4.small ViewOf.own b.buf f4.len
    (localInd c.1 (overlapStart c.1 lo)) (localInd c.1 (overlapEnd c.1 hi)) (by omega) (by omega) hlev
  have hback : ∀ j, InBox (localInd c.1 (overlapStart c.1 lo)) (localInd c.1 (overlapEnd c.1 hi)) j →
      InBox (overlapStart c.1 lo) (overlapEnd c.1 hi) (vadd c.1.offset j) ∧ localInd c.1 (vadd c.1.offset j) = j := fun j hj =>
    local_back hp hnp l1 l2 (fun d hdd => by have := l3 d hdd; omega) hj
  refine ⟨cc', fs', s', calls.map fun c' => (vadd c.1.offset c'.1, c'.2), ?_, f2, f3, f6, ?_, fun i => ?_, fun p hp' => ?_⟩
  · unfold loopOne
    simp only [f1, Res.ok_bind]
    rw [i1, i2, e1]; rfl
  · rw [List.map_map]
    show (calls.map fun c' => vadd c.1.offset c'.1).Nodup
    have hnd : (calls.map Prod.fst).Nodup := e2.imp fun {x y} hxy (he : x = y) => by subst he; exact lexLt_irrefl _ hxy
    have : (calls.map fun c' => vadd c.1.offset c'.1) = (calls.map Prod.fst).map (vadd c.1.offset ·) := by rw [List.map_map]; rfl
    rw [this]
    unfold List.Nodup at hnd ⊢
    rw [List.pairwise_map]
    refine hnd.imp_of_mem fun {x y} hx hy hxy he => hxy ?_
    have h1 := (hback x ((e3 x).1 hx)).2
    have h2 := (hback y ((e3 y).1 hy)).2
    rw [← h1, ← h2, he]
  · rw [← rin_overlap_iff h hp ho]
    constructor
    · intro hi'
      rw [List.map_map] at hi'
      obtain ⟨c', hc', rfl⟩ := List.mem_map.1 hi'
      exact (hback c'.1 ((e3 _).1 (List.mem_map.2 ⟨c', hc', rfl⟩))).1
    · intro hi'
      have hil : i.length = C.dims := by rw [hi'.1, l1]
      have hloc : InBox (localInd c.1 (overlapStart c.1 lo)) (localInd c.1 (overlapEnd c.1 hi)) (localInd c.1 i) := by
        refine ⟨by rw [length_localInd (by omega), L1, hil], by rw [length_localInd (by omega), L2, hil], fun d hdd => ?_⟩
        rw [length_localInd (by omega)] at hdd
        rw [getD_localInd (by omega) hdd, getD_localInd (by omega) (by omega), getD_localInd (by omega) (by omega)]
        have h1 := hi'.2.2 d hdd
        have h2 := l3 d (by omega)
        omega
      obtain ⟨c', hc', he⟩ := List.mem_map.1 ((e3 _).2 hloc)
      rw [List.map_map]
      refine List.mem_map.2 ⟨c', hc', ?_⟩
      show vadd c.1.offset c'.1 = i
      rw [he]
      obtain ⟨b1, b2⟩ := hback _ hloc
      -- both have the same local position and lie in the box
      apply ext_getD (by rw [b1.1, l1, hil])
      intro d hdd
      rw [b1.1, l1] at hdd
      have hvl : (vadd c.1.offset (localInd c.1 i)).length = C.dims := by rw [b1.1, l1]
      have q1 := getD_localInd (m := c.1) (i := vadd c.1.offset (localInd c.1 i)) (by omega) (d := d) (by omega)
      have q2 := getD_localInd (m := c.1) (i := i) (by omega) (d := d) (by omega)
      rw [b2, q2] at q1
      have r1 := b1.2.2 d (by omega)
      have r2 := hi'.2.2 d (by omega)
      have r3 := l3 d hdd
      omega
  · obtain ⟨c', hc', rfl⟩ := List.mem_map.1 hp'
    have hb1 := (e3 _).1 (List.mem_map.2 ⟨c', hc', rfl⟩)
    obtain ⟨b1, b2⟩ := hback _ hb1
    show ∃ v, c.2.get C.vd (localInd c.1 (vadd c.1.offset c'.1)) = .ok v ∧ VEq v c'.2
    rw [b2]
    have hval : ValidInd c.2.shape c'.1 := by
      have := valid_local hp ((rin_overlap_iff h hp ho).1 b1).2
      rw [b2] at this; exact this
    obtain ⟨v, w, g1, g2, g3⟩ := f5.2 _ hval
    have e4' : b.get C.vd c'.1 = .ok c'.2 := e4 c' hc'
    rw [e4'] at g2; cases g2
    exact ⟨v, g1, g3⟩

/-- The calls for several chunks. -/
structure AllCalls (C : Cfg) (lo hi : List Nat) (cs : List (Meta × Arr)) (calls : List (List Nat × List Nat)) : Prop where
  nodup : (calls.map Prod.fst).Nodup
  mem : ∀ i, i ∈ calls.map Prod.fst ↔ InBox lo hi i ∧ ∃ c ∈ cs, InBox c.1.start c.1.stop i
  val : ∀ p ∈ calls, ∀ c ∈ cs, InBox c.1.start c.1.stop p.1 → ∃ v, c.2.get C.vd (localInd c.1 p.1) = .ok v ∧ VEq v p.2

theorem loop_loop (hC : C.Ok) (h : RegOkay C lo hi) {cs : List (Meta × Arr)} (hch : Chunky C cs)
    (hnp : ∀ c ∈ cs, c.1.ctype = .all_null → c.1.overlap = 0) :
    ∀ (ds : List (Meta × Arr)), (∀ c ∈ ds, c ∈ cs ∧ Overlap lo hi c.1.start c.1.stop) → Disj ds → ∀ {cc : CC} {fs : FS} {s : List (Nat × Entry)},
    CInv C (chunksOf cs) cc fs s → ∀ (acc : List (List Nat × List Nat)),
    ∃ cc' fs' s' calls, runLoop (loopOne C lo hi) (ds.map Prod.fst) (cc, fs, acc) = .ok (cc', fs', acc ++ calls) ∧ cc'.dir = cc.dir ∧
      CInv C (chunksOf cs) cc' fs' s' ∧ SameBut cc.dir (chunksOf cs) fs fs' ∧ AllCalls C lo hi ds calls
  | [], _, _, cc, fs, s, hcc, acc => ⟨cc, fs, s, [], by rw [List.append_nil]; rfl, rfl, hcc, .refl _, by simp, by simp, by simp⟩
  | c :: ds, hds, hdj, cc, fs, s, hcc, acc => by
      obtain ⟨hcm, hov⟩ := hds c (by simp)
      obtain ⟨cc1, fs1, s1, calls1, e1, e2, e3, e4, e5⟩ := loopOne_ok hC h hch hcm (hnp c hcm) hov hcc acc
      unfold Disj at hdj
      rw [List.pairwise_cons] at hdj
      obtain ⟨cc2, fs2, s2, calls2, f1, f2, f3, f4, f5⟩ := loop_loop hC h hch hnp ds (fun c hc => hds c (by simp [hc])) hdj.2 e3 (acc ++ calls1)
      refine ⟨cc2, fs2, s2, calls1 ++ calls2, ?_, f2.trans e2, f3, ?_, ?_, fun i => ?_, fun p hp c' hc' hb => ?_⟩
      · show (loopOne C lo hi c.1 (cc, fs, acc)).bind _ = _
        rw [e1, ← List.append_assoc]; exact f1
      · rw [e2] at f4; exact e4.trans f4
      · rw [List.map_append, List.nodup_append]
        refine ⟨e5.nodup, f5.nodup, fun i hi1 j hj1 he => ?_⟩
        subst he
        obtain ⟨_, c', hc', hb'⟩ := (f5.mem i).1 hj1
        exact hdj.1 c' hc' i ⟨((e5.mem i).1 hi1).2, hb'⟩
      · rw [List.map_append, List.mem_append, e5.mem, f5.mem]
        constructor
        · rintro (⟨a, b⟩ | ⟨a, c', hc', b⟩)
          · exact ⟨a, c, by simp, b⟩
          · exact ⟨a, c', by simp [hc'], b⟩
        · rintro ⟨a, c', hc', b⟩
          rcases List.mem_cons.1 hc' with rfl | hc'
          · exact .inl ⟨a, b⟩
          · exact .inr ⟨a, c', hc', b⟩
      · have key1 : p ∈ calls1 → InBox c.1.start c.1.stop p.1 := fun hp => ((e5.mem p.1).1 (List.mem_map.2 ⟨p, hp, rfl⟩)).2
        have key2 : p ∈ calls2 → ∃ c'' ∈ ds, InBox c''.1.start c''.1.stop p.1 := fun hp => ((f5.mem p.1).1 (List.mem_map.2 ⟨p, hp, rfl⟩)).2
        rcases List.mem_append.1 hp with hp | hp
        · rcases List.mem_cons.1 hc' with rfl | hc'
          · exact e5.val p hp
          · exact absurd ⟨key1 hp, hb⟩ (hdj.1 c' hc' p.1)
        · rcases List.mem_cons.1 hc' with rfl | hc'
          · obtain ⟨c'', h1, h2⟩ := key2 hp
            exact absurd ⟨hb, h2⟩ (hdj.1 c'' h1 p.1)
          · exact f5.val p hp c' hc' hb

/-- `index_loop_over_elements(start, end, worker)`. -/
theorem loopRange_ok (hC : C.Ok) {lib : Lib} {fs : FS} {cs : List (Meta × Arr)} (hl : LInv C S Z lib fs cs) (h : RegOkay C lo hi)
    (hnp : ∀ c ∈ cs, c.1.ctype = .all_null → c.1.overlap = 0) :
    ∃ lib' fs' calls, lib.indexLoopRange C fs lo hi = .ok (lib', fs', calls) ∧ LInv C S Z lib' fs' cs ∧ lib'.idx = lib.idx ∧
      SameBut lib.idx.dir (chunksOf cs) fs fs' ∧ AllCalls C lo hi cs calls := by
  obtain ⟨r, e1, e2⟩ := hl.idx.getChunks_ok hC (lo := lo) (hi := hi) h.loLen
  obtain ⟨ds, d1, d2⟩ := exists_cs r _ e2
  obtain ⟨s, hs⟩ := hl.cache
  have hmem : ∀ c ∈ ds, c ∈ cs ∧ Overlap lo hi c.1.start c.1.stop := fun c hc => by
    have := d2.mem_iff.1 hc
    rw [List.mem_filter] at this
    exact ⟨this.1, by simpa using this.2⟩
  have hdj : Disj ds := (d2.pairwise_iff (fun h => DisjointBox.symm h)).2 (hl.chunky.disj.filter _)
  obtain ⟨cc', fs', s', calls, f1, f2, f3, f4, f5⟩ := loop_loop hC h hl.chunky hnp ds hmem hdj hs []
  have hov : ∀ c ∈ cs, ∀ i, InBox lo hi i → InBox c.1.start c.1.stop i → c ∈ ds := by
    intro c hc i hi1 hi2
    rw [d2.mem_iff, List.mem_filter]
    refine ⟨hc, decide_eq_true fun d hdd => ?_⟩
    have a := hi1.2.2 d (by rw [hi1.1]; exact hdd)
    have b := hi2.2.2 d (by rw [hi1.1]; exact hdd)
    omega
  refine ⟨⟨cc', lib.idx⟩, fs', calls, ?_, ⟨hl.chunky, hl.idx, f2.trans hl.dir, ⟨s', f3⟩, hl.valid⟩, rfl, by rw [← hl.dir]; exact f4, f5.nodup, fun i => ?_, fun p hp c hc hb => ?_⟩
  · unfold Lib.indexLoopRange
    rw [e1]
    simp only [Res.ok_bind]
    rw [← d1, f1]; rfl
  · rw [f5.mem]
    exact ⟨fun ⟨a, c, hc, b⟩ => ⟨a, c, (hmem c hc).1, b⟩, fun ⟨a, c, hc, b⟩ => ⟨a, c, hov c hc i a b, b⟩⟩
  · have hin := ((f5.mem p.1).1 (List.mem_map.2 ⟨p, hp, rfl⟩)).1
    exact f5.val p hp c (hov c hc p.1 hin hb) hb

end loop
end Verif.Dist
