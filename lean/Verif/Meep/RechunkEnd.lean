import Verif.Meep.RechunkMerge
/-
The end of `rechunk_mpi`: the result as a library.
-/
namespace Verif.Meep
open Verif Verif.ND Verif.Dist Verif.Tree Verif.Rebuild Verif.Ops Verif.NullSup

variable {C : Cfg} {S : Sorter} {Z : SlabSize} {ps : List Piece} {ge : List Nat} {X : Rech}

theorem _root_.Verif.Rebuild.PadValue.replace {vd : Nat} {j : List Int} {v w : List Nat} (h : PadValue vd ps ge j v) (e : VEq v w) : PadValue vd ps ge j w :=
  ⟨fun h1 => VEq.replace (h.inside h1) e, fun h1 h2 => (h.outside h1 h2).trans e, fun h1 h2 => VEq.replace (h.mirrored h1 h2) e⟩

/-! ### The chunk around an index -/

theorem padded_chunk (hC : C.Ok) {lib : Lib} {fs : FS} {cs : List (Meta × Arr)} (h : LInv C S Z lib fs cs) {c : Meta × Arr} (hc : c ∈ cs) {i : List Nat} (hi : InBox c.1.start c.1.stop i)
    (ho : OutChunk C ps ge X c) :
    ∃ lib' fs' a, chunkAt C lib fs i = .ok (lib', fs', c.1, a) ∧
      ((c.1.ctype = .specified ∧ a.shape = (subVec c.1.stop c.1.start).map (· + 2 * X.overlap) ∧
          ∀ j, InBoxZ (padStart c.1.start X.overlap) (padEnd c.1.stop X.overlap) j →
            ∃ v, a.get C.vd (loc (padStart c.1.start X.overlap) j) = .ok v ∧ PadValue C.vd ps ge (shiftZ X.pre j) v) ∨
       (c.1.ctype = .all_null ∧
          ∀ j, InBoxZ (padStart c.1.start X.overlap) (padEnd c.1.stop X.overlap) j → PadValue C.vd ps ge (shiftZ X.pre j) (List.replicate C.vd 0))) := by
  obtain ⟨lib', fs', a, g1, g2⟩ := chunkAt_ok hC h hc hi
  obtain ⟨a₀, q1, qs, qn, q4⟩ := ho.content
  refine ⟨lib', fs', a, g1, ?_⟩
  cases hct : c.1.ctype with
  | all_null =>
    have hz := (qn hct).1
    refine Or.inr ⟨rfl, fun j hj => ?_⟩
    obtain ⟨v, vl, v1, v2⟩ := q4 j hj
    refine v2.replace ?_
    unfold Arr.null at hz
    rw [List.all_eq_true] at hz
    refine Or.inr ⟨by simp [vl], fun x hx => floatNull_iff.1 (hz x (get_subset v1 x hx)), fun x hx => ?_⟩
    rw [(List.mem_replicate.1 hx).2]; exact Or.inl rfl
  | specified =>
    have q5 := qs hct
    subst q5
    refine Or.inl ⟨rfl, by rw [← g2.1]; exact q1, fun j hj => ?_⟩
    obtain ⟨v, _, v1, v2⟩ := q4 j hj
    have hpl := h.chunky.placed c hc
    have l1 := hpl.startLen
    have l2 := hpl.stopLen
    have hvalid : ValidInd c.2.shape (loc (padStart c.1.start X.overlap) j) := by
      have := valid_loc hj
      rw [show c.2.shape = extents (padStart c.1.start X.overlap) (padEnd c.1.stop X.overlap) from ?_]
      · exact this
      · rw [q1]
        apply ext_getD
        · simp [extents, padStart, padEnd, subVec, l1, l2]
        · intro d hd
          have hd : d < C.dims := by simpa [subVec, l1, l2] using hd
          rw [getD_extents (by simp [padStart, padEnd, l1, l2]), getD_padStart (by omega), getD_padEnd (by omega)]
          have hl : d < (subVec c.1.stop c.1.start).length := by rw [length_subVec (by omega)]; omega
          rw [List.getD_eq_getElem?_getD (l := List.map _ _), List.getElem?_map, List.getElem?_eq_getElem hl]
          have hg := getD_subVec (a := c.1.stop) (b := c.1.start) (by omega) d
          rw [List.getD_eq_getElem?_getD, List.getElem?_eq_getElem hl] at hg
          simp only [Option.map_some, Option.getD_some] at hg ⊢
          have := hpl.getD_stop d
          rw [hg]; omega
    obtain ⟨u, u', k1, k2, k3⟩ := g2.2 _ hvalid
    rw [v1] at k1; cases k1
    exact ⟨u', k2, v2.replace k3⟩

/-! ### The chunks as pieces -/

/-- The piece for a chunk of the result. -/
noncomputable def outPiece (ps : List Piece) (X : Rech) (c : Meta × Arr) : Piece := ⟨c.1.id, c.1.path, c.1.start, c.1.stop, c.1.overlap, fun i => valOf ps (addVec i X.pre)⟩

theorem shiftZ_signed {pre i : List Nat} : shiftZ pre (signed i) = signed (addVec i pre) := by
  induction i generalizing pre with
  | nil => cases pre <;> rfl
  | cons x i ih =>
    cases pre with
    | nil => rfl
    | cons p pre =>
      have := ih (pre := pre)
      unfold shiftZ signed addVec at this ⊢
      simp only [List.map_cons, List.zipWith_cons_cons]
      rw [this]
      simp

theorem Result.rep (hC : C.Ok) (h : CanRechunk C ps ge X) {cs₀ : List (Meta × Arr)} (hch : Chunky C cs₀) (hr : Rep C cs₀ ps) {cs : List (Meta × Arr)} {fs : FS} (hR : Result C ps ge X cs fs) :
    Rep C cs (cs.map (outPiece ps X)) := by
  have h1 := h.preLen; have h3 := h.geLen; have h4 := h.shapeLen
  refine ⟨by simp, fun k c p hc hp => ?_⟩
  rw [List.getElem?_map, hc] at hp
  cases hp
  have hcm := List.mem_of_getElem? hc
  refine ⟨rfl, rfl, rfl, rfl, rfl, fun i hi => ?_⟩
  have hi : InBox c.1.start c.1.stop i := hi
  have hm := hR.made c hcm
  have hpl := hR.saved.chunky.placed c hcm
  have hsl := hpl.startLen
  have hel := hpl.stopLen
  have hil : i.length = C.dims := by rw [hi.1]; exact hsl
  have hjb : InBoxZ (padStart c.1.start X.overlap) (padEnd c.1.stop X.overlap) (signed i) := by
    refine ⟨by simp [signed, padStart, hi.1], by simp [signed, padEnd, hi.2.1], fun d hd => ?_⟩
    have hd : d < C.dims := by simpa [signed, hil] using hd
    have := hi.2.2 d (by omega)
    rw [getD_signed, getD_padStart (by omega), getD_padEnd (by omega)]
    omega
  obtain ⟨a, q1, qs, qn, q4⟩ := hm.content
  obtain ⟨v, vl, v1, v2⟩ := q4 _ hjb
  obtain ⟨v', hv', hvl', _⟩ := (hR.saved.chunky.ok.arr _ _ _ (chunksOf_of_mem hR.saved.chunky.ids hcm)).get hC (valid_local hpl hi)
  have hvv : VEq v v' := by
    cases hct : c.1.ctype with
    | specified =>
      rw [loc_signed rfl (by rw [padOf_spec hct]; exact hm.ovl) (by omega) (fun d hd => by have := hi.2.2 d (by omega); omega)] at v1
      rw [qs hct, v1] at hv'
      cases hv'
      exact .refl _
    | all_null =>
      obtain ⟨z1, z2⟩ := qn hct
      unfold Arr.null at z1 z2
      rw [List.all_eq_true] at z1 z2
      exact Or.inr ⟨by omega, fun x hx => floatNull_iff.1 (z1 x (get_subset v1 x hx)), fun x hx => floatNull_iff.1 (z2 x (get_subset hv' x hx))⟩
  have hgin : InBox (List.replicate C.dims 0) ge (addVec i X.pre) := by
    have hg := (hR.cover i).2 ⟨c, hcm, hi⟩
    have hl : (addVec i X.pre).length = C.dims := by unfold addVec; rw [List.length_zipWith]; omega
    refine ⟨by simp [hl], by omega, fun d hd => ?_⟩
    have := h.inner d (by omega)
    have := hg.2.2 d (by omega)
    rw [h.shapeD] at this
    rw [zeros_getD, getD_addVec (by omega)]; omega
  have hin := v2.inside
  rw [shiftZ_signed, zeros_map h3] at hin
  obtain ⟨p, hp, hpi, hpv⟩ := hin (inBoxZ_signed.2 hgin)
  rw [unsigned_signed] at hpi hpv
  refine ⟨v', hv', ?_⟩
  show VEq (valOf ps (addVec i X.pre)) v'
  rw [valOf_eq hr hch.disj hp hpi]
  exact hpv.trans hvv

theorem Result.hull (h : CanRechunk C ps ge X) {cs : List (Meta × Arr)} {fs : FS} (hR : Result C ps ge X cs fs) :
    IsHull C.dims (cs.map (outPiece ps X)) (List.replicate C.dims 0) (X.shape ge) ∧ Filled (cs.map (outPiece ps X)) (List.replicate C.dims 0) (X.shape ge) := by
  have h4 := h.shapeLen
  have hpos : ∀ d < C.dims, 0 < (X.shape ge).getD d 0 := fun d hd => by
    have := h.inner d hd
    rw [h.shapeD]; omega
  have hencl : ∀ c ∈ cs, ∀ d < C.dims, c.1.stop.getD d 0 ≤ (X.shape ge).getD d 0 := fun c hc d hd => by
    have := (hR.made c hc).box.2.2 d (by simpa using hd)
    omega
  have hatt : ∀ i, InBox (List.replicate C.dims 0) (X.shape ge) i → ∃ c ∈ cs, InBox c.1.start c.1.stop i := fun i hi => (hR.cover i).1 hi
  refine ⟨⟨by simp, h4, fun d hd p hp => ?_, fun d hd => ?_, fun d hd => ?_⟩, fun i hi => ?_⟩
  · obtain ⟨c, hc, rfl⟩ := List.mem_map.1 hp
    rw [zeros_getD]
    exact ⟨Nat.zero_le _, hencl c hc d hd⟩
  · obtain ⟨c, hc, hi⟩ := hatt (List.replicate C.dims 0) ⟨rfl, by simp; omega, fun d hd => by
      rw [List.length_replicate] at hd
      have := hpos d hd
      rw [zeros_getD]; omega⟩
    refine ⟨outPiece ps X c, List.mem_map.2 ⟨c, hc, rfl⟩, ?_⟩
    have := hi.2.2 d (by simpa using hd)
    rw [zeros_getD] at this ⊢
    show c.1.start.getD d 0 = 0
    omega
  · obtain ⟨c, hc, hi⟩ := hatt ((X.shape ge).map (· - 1)) ⟨by simp; omega, by simp, fun d hd => by
      rw [List.length_map] at hd
      have := hpos d (by omega)
      rw [zeros_getD, List.getD_eq_getElem?_getD, List.getElem?_map, List.getElem?_eq_getElem hd]
      rw [List.getD_eq_getElem?_getD, List.getElem?_eq_getElem hd] at this ⊢
      simp only [Option.map_some, Option.getD_some] at this ⊢
      omega⟩
    refine ⟨outPiece ps X c, List.mem_map.2 ⟨c, hc, rfl⟩, ?_⟩
    have h5 := hi.2.2 d (by simp; omega)
    have h6 := hencl c hc d hd
    have h7 : ((X.shape ge).map (· - 1)).getD d 0 = (X.shape ge).getD d 0 - 1 := by
      rw [List.getD_eq_getElem?_getD, List.getElem?_map, List.getElem?_eq_getElem (by omega), List.getD_eq_getElem?_getD, List.getElem?_eq_getElem (by omega)]
      rfl
    rw [h7] at h5
    have := hpos d hd
    show c.1.stop.getD d 0 = _
    omega
  · obtain ⟨c, hc, hi⟩ := hatt i hi
    exact ⟨outPiece ps X c, List.mem_map.2 ⟨c, hc, rfl⟩, hi⟩

theorem verify_ok (hC : C.Ok) (h : CanRechunk C ps ge X) {cs₀ : List (Meta × Arr)} (hch : Chunky C cs₀) (hr : Rep C cs₀ ps) {cs : List (Meta × Arr)} {fs : FS} (hR : Result C ps ge X cs fs)
    (Z : SlabSize) : verifyShape C S X.out (X.shape ge) fs = .ok fs := by
  have hd0 := hC.dims
  obtain ⟨hh, hf⟩ := hR.hull h
  have hrep := hR.rep hC h hch hr
  have hps : cs.map (outPiece ps X) ≠ [] := by
    obtain ⟨p, hp, _⟩ := hh.loAtt 0 hd0
    intro e; rw [e] at hp; cases hp
  obtain ⟨lib, e1, e2, e3, e4⟩ := reopen_ok (S := S) (Z := Z) hC hR.saved (h.count hR.made hR.saved.chunky.disj) (List.replicate C.dims 1)
  obtain ⟨x, x1, x2, x3, x4, x5⟩ := ensure_ok hC e4
  obtain ⟨y, y1, y2, y3, y4, y5⟩ := ensure_ok hC x2
  have hvol : boxVolume (List.replicate C.dims 0) (X.shape ge) < 2 ^ 64 := by
    have h7 := h.vol.2
    have h1 := h.shapeLen; have h2 := h.geLen
    rw [← boxVolume_eq (by simp; omega)] at h7 ⊢
    have hs : elemLoop (List.replicate C.dims 0) (X.shape ge) ⊆ elemLoop (List.replicate C.dims 0) ge := by
      intro i hi
      rw [mem_elemLoop] at hi ⊢
      obtain ⟨i1, i2, i3⟩ := hi
      refine ⟨i1, by omega, fun d hd => ?_⟩
      have := i3 d hd
      rw [h.shapeD] at this
      omega
    have := (List.Nodup.subperm (elemLoop_nodup _ _) hs).length_le
    omega
  obtain ⟨_, f2⟩ := shape_facts hR.saved.chunky hrep (fun lo hi hh' => by
    obtain ⟨q1, q2⟩ := hh.unique hh'
    subst q1; subst q2; exact hvol) y5
  obtain ⟨hh', hsh, _⟩ := f2 hps
  obtain ⟨es, ee⟩ := hh.unique hh'
  rw [es, ee] at hsh
  have hshape : y.shape = X.shape ge := by
    rw [hsh hf]
    apply ext_getD
    · rw [length_subVec (by simp [h.shapeLen])]
    · intro d _
      rw [getD_subVec (by simp [h.shapeLen]), zeros_getD]; omega
  have y1 : x.ensure C = .ok y := y1
  have hdir : y.dir = X.out := y4.trans (x4.trans e2)
  have hcl := close_same hC y2 (open_clean e1).1 (by show fs (y.dir, .index) = _; rw [hdir]; exact hR.saved.index)
  unfold verifyShape
  simp only [e1, Res.ok_bind, Index.getShape, x1, y1, hshape]
  rw [hcl]
  simp [Res.assert, Res.ok_bind]

/-! ### After the barrier -/

theorem closing {cs : List (Meta × Arr)} {parts : List (List Nat × List Nat)} {shape : List Nat} (hC : C.Ok) : ∀ (τ : List Fin) (st : PState), (∀ e ∈ τ, ∃ j, e = .close j) → τ.Nodup →
    st.fs (X.indir, .index) = some (indexFile C (cs.map Prod.fst)) →
    (∀ j, Fin.close j ∈ τ → ∃ lib, st.proc j = some (lib, parts) ∧ Ready C S Z X cs st.fs lib) →
    ∃ st', runLoop (finStep C S X parts shape) τ st = .ok st' ∧ st'.fs = st.fs ∧ ∀ j, Fin.close j ∉ τ → st'.proc j = st.proc j
  | [], st, _, _, _, _ => ⟨st, rfl, rfl, fun _ _ => rfl⟩
  | e :: τ, st, hτ, hn, hi, hr => by
      obtain ⟨j, rfl⟩ := hτ e (by simp)
      obtain ⟨n1, n2⟩ := List.nodup_cons.1 hn
      obtain ⟨lib, l1, l2⟩ := hr j (by simp)
      have hcl := close_same hC l2.inv l2.clean (by rw [l2.dir]; exact hi)
      obtain ⟨st', e1, e2, e3⟩ := closing (cs := cs) (parts := parts) (shape := shape) hC τ { fs := st.fs, proc := upd st.proc j none } (fun e he => hτ e (by simp [he])) n2 hi fun k hk => by
        obtain ⟨lib', q1, q2⟩ := hr k (by simp [hk])
        have hkj : k ≠ j := fun e => n1 (by subst e; exact hk)
        refine ⟨lib', ?_, q2⟩
        show upd st.proc j none k = _
        unfold upd; rw [if_neg hkj]; exact q1
      refine ⟨st', ?_, e2, fun k hk => ?_⟩
      · simp only [runLoop, finStep, l1, hcl, Res.ok_bind]
        exact e1
      · rw [e3 k (fun h => hk (by simp [h]))]
        show upd st.proc j none k = _
        unfold upd; rw [if_neg (fun e => hk (by rw [e]; simp))]

theorem runLoop_append {α σ : Type} (f : α → σ → Res σ) : ∀ (a b : List α) (s : σ), runLoop f (a ++ b) s = (runLoop f a s).bind fun t => runLoop f b t
  | [], _, _ => rfl
  | x :: a, b, s => by
      show (f x s).bind (fun t => runLoop f (a ++ b) t) = ((f x s).bind fun t => runLoop f a t).bind _
      cases f x s with
      | ok t => exact runLoop_append f a b t
      | _ => rfl

theorem phase2 (hC : C.Ok) (hchunk : C.chunk = (outCfg C).chunk) (h : CanRechunk C ps ge X) {cs : List (Meta × Arr)} (hr : Rep C cs ps) {parts : List (List Nat × List Nat)} (hP : PartsOk C ge X parts)
    {fs₀ : FS} (hsv : Saved C fs₀ X.indir cs) {A D : Nat → Prop} {st : PState} (hi : PInv C S Z ps ge X cs parts fs₀ A D st) (hA : ∀ j < X.jobs, A j) (hD : ∀ n < parts.length, D n)
    {τ : List Fin} (hτ : Finish X.jobs τ) :
    ∃ st' cs', runLoop (finStep C S X parts (X.shape ge)) τ st = .ok st' ∧ Result C ps ge X cs' st'.fs ∧
      (∀ n < parts.length, ∀ m, st'.fs (X.dir n, m) = none) ∧ ∀ d, d ≠ X.out → (∀ n < parts.length, d ≠ X.dir n) → ∀ m, st'.fs (d, m) = fs₀ (d, m) := by
  obtain ⟨a, b, rfl, _⟩ := hτ.last
  have hn : (a ++ Fin.merge :: b).Nodup := hτ.perm.nodup_iff.2 (List.nodup_cons.2 ⟨by simp, by
    unfold List.Nodup
    rw [List.pairwise_map]
    exact List.nodup_range.imp fun h e => h (by cases e; rfl)⟩)
  obtain ⟨na, nb, nab⟩ := List.nodup_append.1 hn
  obtain ⟨nb1, nb2⟩ := List.nodup_cons.1 nb
  have hmem : ∀ e, e ∈ a ++ Fin.merge :: b → e = .merge ∨ ∃ j < X.jobs, e = .close j := by
    intro e he
    rcases List.mem_cons.1 (hτ.perm.mem_iff.1 he) with he | he
    · exact Or.inl he
    · obtain ⟨j, hj, rfl⟩ := List.mem_map.1 he
      exact Or.inr ⟨j, by simpa using hj, rfl⟩
  have ha : ∀ e ∈ a, ∃ j < X.jobs, e = .close j := fun e he => (hmem e (by simp [he])).resolve_left fun h => nab e he .merge (by simp) h
  have hb : ∀ e ∈ b, ∃ j < X.jobs, e = .close j := fun e he => (hmem e (by simp [he])).resolve_left fun h => nb1 (by rw [← h]; exact he)
  have hindir : ∀ m, st.fs (X.indir, m) = fs₀ (X.indir, m) := hi.other _ fun n _ => Ne.symm (h.dirs n).1
  have hready : ∀ j < X.jobs, ∃ lib, st.proc j = some (lib, parts) ∧ Ready C S Z X cs st.fs lib := fun j hj => by
    obtain ⟨lib, hl⟩ := hi.started j (hA j hj)
    exact ⟨lib, hl, (hi.ready j lib parts hl).2⟩
  obtain ⟨st1, c1, c2, c3⟩ := closing (cs := cs) (parts := parts) (shape := X.shape ge) hC a st (fun e he => by obtain ⟨j, _, q⟩ := ha e he; exact ⟨j, q⟩) na (by rw [hindir]; exact hsv.index)
    fun j hj => by
      obtain ⟨k, hk, e⟩ := ha _ hj
      cases e
      exact hready j hk
  obtain ⟨fs2, cs', m1, m2, m3, m4⟩ := mergeParts_ok (S := S) Z hC hchunk h hP (fs := st1.fs) fun n hn => by
    rw [c2]; exact hi.done n (hD n hn)
  have hv := verify_ok (S := S) hC h hsv.chunky hr m2 Z
  have hindir2 : ∀ m, fs2 (X.indir, m) = st.fs (X.indir, m) := fun m => by rw [m4 _ h.inout fun n _ => Ne.symm (h.dirs n).1, c2]
  obtain ⟨st3, d1, d2, d3⟩ := closing (cs := cs) (parts := parts) (shape := X.shape ge) hC b { st1 with fs := fs2 } (fun e he => by obtain ⟨j, _, q⟩ := hb e he; exact ⟨j, q⟩) nb2
    (by show fs2 _ = _; rw [hindir2, hindir]; exact hsv.index)
    fun j hj => by
      obtain ⟨k, hk, e⟩ := hb _ hj
      cases e
      obtain ⟨lib, q1, q2⟩ := hready j hk
      refine ⟨lib, ?_, q2.frame hindir2⟩
      show st1.proc j = _
      rw [c3 j (fun hja => nab _ hja _ (List.mem_cons_of_mem _ hj) rfl)]; exact q1
  refine ⟨st3, cs', ?_, by rw [d2]; exact m2, fun n hn m => by rw [d2]; exact m3 n hn m, fun d hd hd' m => ?_⟩
  · rw [runLoop_append, c1]
    simp only [Res.ok_bind, runLoop, finStep, m1, hv]
    exact d1
  · rw [d2]
    show fs2 (d, m) = _
    rw [m4 d hd hd', c2]; exact hi.other d hd' m

end Verif.Meep
