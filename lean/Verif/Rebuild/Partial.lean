import Verif.Rebuild.Cyl
import Mathlib.Data.List.Nodup
import Mathlib.Data.List.Perm.Subperm
/-
`RebuildChunksPartial`.
-/
namespace Verif.Rebuild
open Verif Verif.ND Verif.Dist Verif.Tree Verif.NullSup

/-- Conditions for rebuilding the region `[start, stop)` of the array `[gs, ge)`: the region lies inside of the array, the chunks fill the array, the indices
    (with padding on both sides) fit into `int`, the padded chunks can be stored and file names are different. -/
structure PartOk (C : Cfg) (cs : List (Meta × Arr)) (gs ge start stop outStart req : List Nat) (overlap : Nat) (uuid : Nat → List Nat) : Prop where
  startLen : start.length = C.dims
  stopLen : stop.length = C.dims
  outLen : outStart.length = C.dims
  reqLen : req.length = C.dims
  sub : ∀ d < C.dims, gs.getD d 0 ≤ start.getD d 0 ∧ start.getD d 0 < stop.getD d 0 ∧ stop.getD d 0 ≤ ge.getD d 0 ∧ ge.getD d 0 + 2 * overlap < 2 ^ 31 ∧
    outStart.getD d 0 < 2 ^ 61
  reqPos : ∀ d < C.dims, 0 < req.getD d 0 ∧ req.getD d 0 < 2 ^ 63
  filled : ∀ i, InBox gs ge i → ∃ c ∈ cs, InBox c.1.start c.1.stop i
  fit : ∀ b e, BoxOK start stop req b e → Storable C ((subVec e b).map (· + 2 * overlap))
  vol : boxVolume start stop < 2 ^ 64
  names : ∀ k, uuid k ≠ [] ∧ (uuid k).length < 2 ^ 64 ∧ ∀ j, j ≠ k → uuid j ≠ uuid k

theorem safe_of : ∀ {b e c : List Nat}, b.length = c.length → e.length = c.length → (∀ d < c.length, b.getD d 0 < e.getD d 0 ∧ e.getD d 0 < 2 ^ 63 ∧ 0 < c.getD d 0 ∧ c.getD d 0 < 2 ^ 63) →
    Safe b e c
  | [], [], [], _, _, _ => trivial
  | b :: bs, e :: es, c :: cs, h1, h2, h3 => by
      refine ⟨Or.inr ?_, safe_of (by simpa using h1) (by simpa using h2) fun d hd => h3 (d + 1) (by simpa using hd)⟩
      have := h3 0 (by simp)
      simp only [List.getD_cons_zero] at this
      omega
  | [], _ :: _, [], _, h2, _ => by cases h2
  | _ :: _, _, [], h1, _, _ => by cases h1
  | [], _, _ :: _, h1, _, _ => by cases h1
  | _ :: _, [], _ :: _, _, h2, _ => by cases h2

theorem boxes_length {b e c : List Nat} {boxes : List (List Nat × List Nat)} (hok : ∀ p ∈ boxes, BoxOK b e c p.1 p.2) (hl : e.length = b.length)
    (hd : boxes.Pairwise fun p q => DisjointBox p.1 p.2 q.1 q.2) : boxes.length ≤ (elemLoop b e).length := by
  have hin : ∀ p ∈ boxes, InBox p.1 p.2 p.1 := fun p hp => by
    obtain ⟨h1, h2, h3⟩ := hok p hp
    refine ⟨rfl, by omega, fun d hd => ?_⟩
    have := h3 d (by omega)
    omega
  have hn : (boxes.map Prod.fst).Nodup := by
    unfold List.Nodup
    rw [List.pairwise_map]
    refine List.Pairwise.imp_of_mem (fun {p q} hp hq h e => ?_) hd
    refine h p.1 ⟨hin p hp, ?_⟩
    rw [e]; exact hin q hq
  have hsub : boxes.map Prod.fst ⊆ elemLoop b e := by
    intro i hi
    obtain ⟨p, hp, rfl⟩ := List.mem_map.1 hi
    obtain ⟨h1, h2, h3⟩ := hok p hp
    rw [mem_elemLoop]
    refine ⟨h1, by omega, fun d hd => ?_⟩
    have := h3 d (by omega)
    omega
  have := (List.Nodup.subperm hn hsub).length_le
  rwa [List.length_map] at this

variable {C : Cfg} {S : Sorter} {Z : SlabSize}

/-- What `RebuildChunksPartial` leaves behind. -/
structure PartDone (C : Cfg) (S : Sorter) (Z : SlabSize) (R : RCfg) (cs cs' : List (Meta × Arr)) (start stop outStart req : List Nat) (dir outdir : Nat)
    (boxes : List (List Nat × List Nat)) (fs fs' : FS) : Prop where
  boxOK : ∀ p ∈ boxes, BoxOK start stop req p.1 p.2
  cover : ∀ i, InBox start stop i ↔ ∃ p ∈ boxes, InBox p.1 p.2 i
  disj : boxes.Pairwise fun p q => DisjointBox p.1 p.2 q.1 q.2
  num : boxes.length < 2 ^ 64
  ctx : ∀ p ∈ boxes, Ctx R cs p.1 p.2
  saved : Saved (outCfg C) fs' outdir cs'
  len : cs'.length = boxes.length
  made : ∀ (k : Nat) (c : Meta × Arr) (p : List Nat × List Nat), cs'[k]? = some c → boxes[k]? = some p → MadeOne R cs start outStart p k c
  other : ∀ d, d ≠ dir → d ≠ outdir → ∀ m, fs' (d, m) = fs (d, m)
  srcFiles : ∀ m, (∀ k m' a', chunksOf cs k = some (m', a') → m'.path ≠ [] → (dir, m) ≠ absPath dir m') → fs' (dir, m) = fs (dir, m)
  outFiles : ∀ m, fs' (outdir, .chunk m) ≠ none → fs (outdir, .chunk m) ≠ none ∨ ∃ c ∈ cs', c.1.path ≠ [] ∧ c.1.path = m

/-- The three parts of `RebuildChunksPartial`. -/
theorem rebuildPartial_split (bev : Bev) (uuid : Nat → List Nat) (lib : Lib) (fs : FS) (start stop outStart req : List Nat) (outdir overlap : Nat) (opt : Bool) :
    rebuildPartial C S bev uuid lib fs start stop outStart req outdir overlap opt =
      (partBegin C S bev uuid lib fs start stop outStart req outdir overlap opt).bind fun b =>
      (runLoop (rebuildOne b.1) b.2.1.zipIdx b.2.2).bind fun st => partEnd C st := by
  unfold rebuildPartial partBegin
  cases Lib.open (outCfg C) S fs outdir req with
  | ok out =>
    simp only [Res.ok_bind]
    cases lib.idx.getStart C with
    | ok x =>
      simp only [Res.ok_bind]
      cases x.1.getStop C with
      | ok y =>
        simp only [Res.ok_bind]
        cases chunkLoop (fuelFor stop) start stop req with
        | none => rfl
        | some boxes => rfl
      | _ => rfl
    | _ => rfl
  | _ => rfl

/-- What is known about the boxes before the loop. -/
structure Begun (R : RCfg) (cs : List (Meta × Arr)) (start stop outStart req : List Nat) (boxes : List (List Nat × List Nat)) : Prop where
  boxOK : ∀ p ∈ boxes, BoxOK start stop req p.1 p.2
  cover : ∀ i, InBox start stop i ↔ ∃ p ∈ boxes, InBox p.1 p.2 i
  disj : boxes.Pairwise fun p q => DisjointBox p.1 p.2 q.1 q.2
  num : boxes.length < 2 ^ 64
  ctx : ∀ p ∈ boxes, Ctx R cs p.1 p.2
  loop : LoopOk R cs start outStart boxes

theorem partBegin_ok (hC : C.Ok) (hj : ∀ k, C.junk k < 2 ^ 32) {lib : Lib} {fs : FS} {cs : List (Meta × Arr)} (h : LInv C S Z lib fs cs) (hne : cs ≠ [])
    {bev : Bev} {uuid : Nat → List Nat} {start stop outStart req gs ge : List Nat} {outdir overlap : Nat} {opt : Bool}
    (hull : ∀ lo hi, Hull C.dims (cs.map Prod.fst) lo hi → lo = gs ∧ hi = ge)
    (hp : PartOk C cs gs ge start stop outStart req overlap uuid) (hnew : fs (outdir, .index) = none)
    (ht : ∀ b e R, R.C = C → R.bev = bev → R.gs = gs → R.ge = ge → R.overlap = overlap → Ctx R cs b e → Total C.vd bev gs ge (padStart b overlap) (padEnd e overlap)) :
    ∃ boxes st y, partBegin C S bev uuid lib fs start stop outStart req outdir overlap opt =
        .ok (⟨C, outCfg C, S, bev, gs, ge, vsub outStart start, overlap, opt, uuid⟩, boxes, st) ∧
      chunkLoop (fuelFor stop) start stop req = some boxes ∧ y.nextId = lib.idx.nextId ∧ y.dir = lib.idx.dir ∧ st.fs = fs ∧
      Begun ⟨C, outCfg C, S, bev, gs, ge, vsub outStart start, overlap, opt, uuid⟩ cs start stop outStart req boxes ∧
      LoopInv ⟨C, outCfg C, S, bev, gs, ge, vsub outStart start, overlap, opt, uuid⟩ Z cs start outStart boxes lib.idx.dir outdir y fs lib.cc.Clean 0 st [] := by
  have hC' := outCfg_ok hC
  obtain ⟨out, o1, o2, o3, o4⟩ := open_new (C := outCfg C) (S := S) (Z := Z) hnew req
  obtain ⟨x, x1, x2, x3, x4, x5⟩ := ensure_ok hC h
  obtain ⟨y, y1, y2, y3, y4, y5⟩ := ensure_ok hC x2
  have hne' : cs.map Prod.fst ≠ [] := fun e => hne (List.map_eq_nil_iff.1 e)
  have hx := x5.hull hne'
  have hy := y5.hull hne'
  obtain ⟨ex, _⟩ := hull _ _ hx
  obtain ⟨_, ey⟩ := hull _ _ hy
  have hbx := hx.box
  rw [(hull _ _ hx).1, (hull _ _ hx).2] at hbx
  have hgl : gs.length = C.dims := hbx.1
  have hel : ge.length = C.dims := hbx.2.1
  have p1 := hp.startLen
  have p2 := hp.stopLen
  have p3 := hp.outLen
  have p4 := hp.reqLen
  have hsafe : Safe start stop req := safe_of (by omega) (by omega) fun d hd => by
    have := hp.sub d (by omega)
    have := hp.reqPos d (by omega)
    omega
  obtain ⟨boxes, b1, b2, b3, b4⟩ := C02_chunk_loop_partitions start stop req hsafe
  have hnum : boxes.length < 2 ^ 64 := by
    have := boxes_length b2 (by omega) b4
    have hv := hp.vol
    rw [← boxVolume_eq (by omega)] at hv
    omega
  let R : RCfg := ⟨C, outCfg C, S, bev, gs, ge, vsub outStart start, overlap, opt, uuid⟩
  have hctx : ∀ p ∈ boxes, Ctx R cs p.1 p.2 := by
    intro p hpm
    obtain ⟨h1, h2, h3⟩ := b2 p hpm
    refine ⟨by show _ = C.dims; omega, by show _ = C.dims; omega, hgl, hel, fun d hd => ?_, hp.filled⟩
    have hd : d < C.dims := hd
    have q1 := hp.sub d hd
    have q2 := h3 d (by omega)
    show gs.getD d 0 ≤ _ ∧ _ ∧ _ ≤ ge.getD d 0 ∧ ge.getD d 0 + 2 * overlap < _
    omega
  have hL : LoopOk R cs start outStart boxes := by
    refine ⟨p1, p3, rfl, hctx, fun p hpm d hd => ?_, fun p hpm d hd => ?_, b4, fun p hpm => ?_, fun p hpm => ?_, hnum, fun k _ => ?_, fun p hpm => ?_, rfl, rfl, rfl⟩
    · have hd : d < C.dims := hd
      have := (b2 p hpm).2.2 d (by omega)
      omega
    · have hd : d < C.dims := hd
      have := (b2 p hpm).2.2 d (by omega)
      have := hp.sub d hd
      omega
    · exact (hp.fit _ _ (b2 p hpm)).fit hC
    · exact ht _ _ R rfl rfl rfl rfl rfl (hctx p hpm)
    · obtain ⟨u1, u2, u3⟩ := hp.names k
      exact ⟨u1, u2, fun j hj => u3 j (by omega)⟩
    · exact (hp.fit _ _ (b2 p hpm)).unpad.fit hC
  have hinit : LoopInv R Z cs start outStart boxes lib.idx.dir outdir y fs lib.cc.Clean 0 ⟨⟨lib.cc, y⟩, fs, out, ⟨req, (List.range (volume C.vd req)).map C.junk⟩⟩ [] := by
    refine ⟨y2, rfl, o4, o2, o3, rfl, fun k c p hk => ?_, fun w hw => ?_, fun _ _ _ _ => rfl, fun _ _ => rfl, rfl, fun _ hm => Or.inl hm, fun hc => ⟨hc, fun _ => rfl⟩⟩
    · cases hk
    · obtain ⟨k, _, rfl⟩ := List.mem_map.1 hw
      exact hj k
  refine ⟨boxes, _, y, ?_, b1 _ lt_fuelFor, y3.trans x3, y4.trans x4, rfl, ⟨b2, b3, b4, hnum, hctx, hL⟩, hinit⟩
  unfold partBegin
  have hcl : chunkLoop (fuelFor stop) start stop req = some boxes := b1 _ lt_fuelFor
  have y1 : x.ensure C = .ok y := y1
  simp only [o1, Res.ok_bind, Index.getStart, x1, Index.getStop, y1, hcl]
  rw [ex, ey]

/-- Ending the work on a region. -/
theorem partEnd_ok (hC : C.Ok) {R : RCfg} (r1 : R.C = C) (r2 : R.C' = outCfg C) (r3 : R.S = S) {cs cs' : List (Meta × Arr)} {start outStart : List Nat} {boxes : List (List Nat × List Nat)}
    {dir outdir n : Nat} {idx : Index} {fs₀ : FS} {cl : Prop} {st : RState} (e2 : LoopInv R Z cs start outStart boxes dir outdir idx fs₀ cl n st cs') (hidx : idx.dir = dir) (hd : outdir ≠ dir) :
    ∃ fs', partEnd C st = .ok (st.src, fs') ∧ LInv C S Z st.src fs' cs ∧ Saved (outCfg C) fs' outdir cs' ∧ (∀ d m, d ≠ outdir → fs' (d, m) = st.fs (d, m)) ∧
      ∀ m, fs' (outdir, .chunk m) ≠ none → fs₀ (outdir, .chunk m) ≠ none ∨ ∃ c ∈ cs', c.1.path ≠ [] ∧ c.1.path = m := by
  have hC' := outCfg_ok hC
  have hout := e2.out
  rw [r2, r3] at hout
  have hsrc0 := e2.src
  rw [r1, r3] at hsrc0
  obtain ⟨out2, fs2, f1, f2, f3, f4, f5⟩ := flushLib_ok hC' hout
  obtain ⟨fs3, g1, g2, g3⟩ := destroy_ok hC' f2
  rw [f3] at g2 g3
  rw [e2.outDir] at f4 f5 g2 g3
  have hfs : ∀ d m, d ≠ outdir → fs3 (d, m) = st.fs (d, m) := by
    intro d m hdm
    rw [g3 (d, m) (fun e => hdm (Prod.ext_iff.1 e).1) (fun k m' a' _ _ e => hdm (Prod.ext_iff.1 e).1), f5.other hdm]
    unfold FS.set
    rw [if_neg (fun e => hdm (Prod.ext_iff.1 e).1)]
  refine ⟨fs3, ?_, hsrc0.frameIndex fun m => by rw [e2.idx, hidx]; exact hfs _ _ (Ne.symm hd), g2, hfs, fun m hm => ?_⟩
  · unfold partEnd
    simp only [f1, g1, Res.ok_bind]
  · by_cases hc : ∃ c ∈ cs', c.1.path ≠ [] ∧ c.1.path = m
    · exact Or.inr hc
    · rw [g3 _ (fun e => by cases (Prod.ext_iff.1 e).2) (fun k m' a' hk hpath e => hc ⟨(m', a'), (chunksOf_mem hk).1, hpath, by
        have h9 : Name.chunk m = Name.chunk m'.path := (Prod.ext_iff.1 e).2
        injection h9 with h9
        exact h9.symm⟩)] at hm
      rcases f5.new hm with g | ⟨_, g⟩
      · rw [set_index_chunk] at g
        exact e2.outFiles m g
      · exact Or.inr g

theorem rebuildPartial_ok (hC : C.Ok) (hj : ∀ k, C.junk k < 2 ^ 32) {lib : Lib} {fs : FS} {cs : List (Meta × Arr)} (h : LInv C S Z lib fs cs) (hne : cs ≠ [])
    {bev : Bev} {uuid : Nat → List Nat} {start stop outStart req gs ge : List Nat} {outdir overlap : Nat} {opt : Bool}
    (hull : ∀ lo hi, Hull C.dims (cs.map Prod.fst) lo hi → lo = gs ∧ hi = ge)
    (hp : PartOk C cs gs ge start stop outStart req overlap uuid) (hd : outdir ≠ lib.idx.dir) (hnew : fs (outdir, .index) = none)
    (ht : ∀ b e R, R.C = C → R.bev = bev → R.gs = gs → R.ge = ge → R.overlap = overlap → Ctx R cs b e → Total C.vd bev gs ge (padStart b overlap) (padEnd e overlap)) :
    ∃ lib' fs' cs' boxes R, rebuildPartial C S bev uuid lib fs start stop outStart req outdir overlap opt = .ok (lib', fs') ∧ LInv C S Z lib' fs' cs ∧
      lib'.idx.nextId = lib.idx.nextId ∧ lib'.idx.dir = lib.idx.dir ∧ R = ⟨C, outCfg C, S, bev, gs, ge, vsub outStart start, overlap, opt, uuid⟩ ∧
      (lib.cc.Clean → lib'.cc.Clean ∧ ∀ m, fs' (lib.idx.dir, m) = fs (lib.idx.dir, m)) ∧
      PartDone C S Z R cs cs' start stop outStart req lib.idx.dir outdir boxes fs fs' := by
  obtain ⟨boxes, st0, y, q1, _, q2, q3, q4, B, hinit⟩ := partBegin_ok (opt := opt) hC hj h hne hull hp hnew ht
  obtain ⟨st, cs', e1, e2⟩ := rebuild_loop (R := ⟨C, outCfg C, S, bev, gs, ge, vsub outStart start, overlap, opt, uuid⟩) hC (outCfg_ok hC) hj B.loop (idx := y) (dir := lib.idx.dir) q3
    (Ne.symm hd) boxes.length 0 (by omega) hinit
  rw [List.drop_zero] at e1
  obtain ⟨fs3, g1, hsrc, g2, hfs, g3⟩ := partEnd_ok (S := S) hC rfl rfl rfl e2 q3 hd
  refine ⟨st.src, fs3, cs', boxes, _, ?_, hsrc, ?_, ?_, rfl, fun hcl => ⟨(e2.clean hcl).1, fun m => ?_⟩, B.boxOK, B.cover, B.disj, B.num, B.ctx, g2, e2.len, e2.made, fun d h1 h2 m => ?_,
    fun m hm => ?_, g3⟩
  · rw [rebuildPartial_split, q1]
    simp only [Res.ok_bind, e1]
    exact g1
  · rw [e2.idx]; exact q2
  · rw [e2.idx]; exact q3
  · rw [hfs _ _ (Ne.symm hd)]; exact (e2.clean hcl).2 m
  · rw [hfs d m h2]; exact e2.other d h1 h2 m
  · rw [hfs _ _ (Ne.symm hd)]; exact e2.srcFiles m hm

end Verif.Rebuild
