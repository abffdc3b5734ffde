import Verif.Meep.Props44b
import Verif.Meep.Pipeline
/-
C60 (a whole calculation of a Green's function, from the MEEP chunks to the finished array).
-/
namespace Verif.Meep
open Verif Verif.ND Verif.Dist Verif.Tree Verif.Ops Verif.Rebuild

variable {C : Cfg} {S : Sorter} {Z : SlabSize}

/-! ### Specification -/

/-- Conditions for the rechunking at the end of a calculation (line 741-800): the amounts of padding are those of the calculation; indices fit into `int`; chunks can be stored; names and directories
    are different; there are processes. -/
structure PipeOk (C : Cfg) (N : Nat) (cal : List Nat) (p : Padded) (X : Rech) : Prop where
  pre : X.pre = swapAt (0 :: p.pre) 0 cal.length
  post : X.post = swapAt (0 :: p.post) 0 cal.length
  int : (∀ d < cal.length, cal.getD d 0 + 2 * X.overlap < 2 ^ 31) ∧ N + 2 * X.overlap < 2 ^ 31
  reqLen : X.req.length = C.dims
  req : ∀ d < C.dims, 0 < X.req.getD d 0 ∧ X.req.getD d 0 < 2 ^ 30
  fit : ∀ sh : List Nat, sh.length = C.dims → (∀ d < C.dims, sh.getD d 0 ≤ X.req.getD d 0 + 2 * X.overlap) → Storable C sh
  names : ∀ n k, X.uuid n k ≠ [] ∧ (X.uuid n k).length < 2 ^ 64
  inj : ∀ n k n' k', X.uuid n k = X.uuid n' k' → n = n' ∧ k = k'
  dirs : ∀ n, X.dir n ≠ X.indir ∧ X.dir n ≠ X.out ∧ ∀ m, X.dir n = X.dir m → n = m
  inout : X.indir ≠ X.out
  jobs : 0 < X.jobs ∧ X.jobs ≤ 2 ^ 30
  rounds : Rounds X.q
  guess : 0 < X.guess ∧ X.guess ^ C.dims < 2 ^ 31

/-- Extent of the finished array: the downsampled extents of the storage domain, and the number of steps. -/
def finalShape (ds N : Nat) (shape : List Nat) : List Nat := swapAt (N :: shape.map fun x => (x + ds - 1) / ds) 0 shape.length

/-- The library in directory `dir` is a chunked array of shape `G` with chunk size `req` and overlap `o`; around each index the chunk that the interpolation gets has the requested padding, and its elements
    are `V` of their index (in the padding the index may be negative); or it is recorded as "all zero", and this is right. -/
def Holds (C : Cfg) (S : Sorter) (fs : FS) (dir : Nat) (G req : List Nat) (o : Nat) (V : List Int → List Nat → Prop) : Prop :=
  ∀ init, ∃ lib, Lib.open C S fs dir init = .ok lib ∧ ∀ i, InBox (List.replicate C.dims 0) G i →
    ∃ lib' fs' m a, chunkAt C lib fs i = .ok (lib', fs', m, a) ∧ InBox m.start m.stop i ∧ BoxOK (List.replicate C.dims 0) G req m.start m.stop ∧ m.overlap = o ∧
      ((m.ctype = .specified ∧ a.shape = (subVec m.stop m.start).map (· + 2 * o) ∧
        ∀ j, InBoxZ (padStart m.start o) (padEnd m.stop o) j → ∃ v, a.get C.vd (loc (padStart m.start o) j) = .ok v ∧ V j v) ∨
       (m.ctype = .all_null ∧ ∀ j, InBoxZ (padStart m.start o) (padEnd m.stop o) j → V j (List.replicate C.vd 0)))

/-! ### Proof -/

theorem _root_.Verif.Dist.WInv.size {n : Nat} {st : MState} {w : World} (h : WInv { C with size := n } S Z st w) (hc : w.cur = none) : WInv C S Z st w := by
  refine ⟨h.closed, fun l e => (by rw [hc] at e; cases e), fun d ps hd => ?_, h.index, h.names⟩
  obtain ⟨cs, c1, c2, c3⟩ := h.disk d ps hd
  exact ⟨cs, Rebuild.Saved.size c1, ⟨c2.1, fun k c p hk hp => ⟨(c2.2 k c p hk hp).id, (c2.2 k c p hk hp).file, (c2.2 k c p hk hp).start, (c2.2 k c p hk hp).stop, (c2.2 k c p hk hp).overlap,
    (c2.2 k c p hk hp).val⟩⟩, c3⟩

section pipe
variable {T L ds N : Nat} {cal start shape : List Nat} {p : Padded} {F : SimField} {fs : FS} {procs : List Proc} {X : Rech} {C' : Cfg} {out : Nat}

theorem CalcOk.pads (h : CalcOk C' T L ds N cal start shape p F out fs procs) {pad : Nat} (hp : padDomain cal start shape ds pad = .ok p) (hpos : 0 < start.length) :
    Pads start ds p ∧ p.post.length = start.length ∧ ∀ d < start.length, (p.shape.getD d 0 + ds - 1) / ds = (shape.getD d 0 + ds - 1) / ds + p.pre.getD d 0 + p.post.getD d 0 := by
  obtain ⟨r, e, l1, l2, l3, l4, h5, s, s', e1, e2, s1, s2, h6⟩ := C55_padding h.dom pad
  rw [hp] at e
  cases e
  refine ⟨⟨hpos, h.dom.pos, l1, l3, l4, fun d hd => (h5 d hd).2.2.1⟩, l2, fun d hd => ?_⟩
  obtain ⟨a, b, c⟩ := h6 d hd
  have uniq : ∀ {x y z : Nat}, IsCeil x ds y → IsCeil x ds z → y = z := fun h1 h2 => Nat.le_antisymm (h1.2 _ h2.1) (h2.2 _ h1.1)
  rw [uniq (ceil_isCeil h.dom.pos) b, uniq (ceil_isCeil h.dom.pos) a]
  exact c

theorem length_finalShape (ds N : Nat) (shape : List Nat) : (finalShape ds N shape).length = shape.length + 1 := by simp [finalShape, length_swapAt]

/-- The rechunked part of the merged array has the right shape, and the conditions of C44 hold. -/
theorem PipeOk.rechunk (h : CalcOk C' T L ds N cal start shape p F X.indir fs procs) (hp : padDomain cal start shape ds X.overlap = .ok p) (hpos : 0 < start.length) (hdims : C'.dims = C.dims)
    (hX : PipeOk C N cal p X) {ps : List Piece} (hN : 0 < N) (hh : IsHull C.dims ps (List.replicate C.dims 0) (mergedShape ds N p)) (hf : Filled ps (List.replicate C.dims 0) (mergedShape ds N p))
    (hlen : ps.length < 2 ^ 64) : CanRechunk C ps (mergedShape ds N p) X ∧ X.shape (mergedShape ds N p) = finalShape ds N shape := by
  obtain ⟨hP, hpost, hceil⟩ := h.pads hp hpos
  have hcal := h.dom.len.2.2
  have hshl := h.dom.len.2.1
  have hds := h.dom.pos
  have hd3 : C.dims = start.length + 1 := by rw [← hdims]; exact h.dims
  obtain ⟨a1, a2⟩ := getD_swapped (t := 0) (s := p.pre) (n := start.length) hpos hP.preLen
  obtain ⟨b1, b2⟩ := getD_swapped (t := 0) (s := p.post) (n := start.length) hpos hpost
  obtain ⟨c1, c2⟩ := getD_swapped (t := N) (s := p.shape.map fun x => (x + ds - 1) / ds) (n := start.length) hpos (by simp [hP.shapeLen])
  obtain ⟨d1, d2⟩ := getD_swapped (t := N) (s := shape.map fun x => (x + ds - 1) / ds) (n := start.length) hpos (by simp [hshl])
  have hge : mergedShape ds N p = swapAt (N :: p.shape.map fun x => (x + ds - 1) / ds) 0 start.length := by unfold mergedShape; rw [hP.shapeLen]
  have hfs : finalShape ds N shape = swapAt (N :: shape.map fun x => (x + ds - 1) / ds) 0 start.length := by unfold finalShape; rw [hshl]
  have hpre : X.pre = swapAt (0 :: p.pre) 0 start.length := by rw [hX.pre, hcal]
  have hpo : X.post = swapAt (0 :: p.post) 0 start.length := by rw [hX.post, hcal]
  rw [← hge] at c1 c2
  rw [← hfs] at d1 d2
  rw [← hpre] at a1 a2
  rw [← hpo] at b1 b2
  have lpre : X.pre.length = C.dims := by rw [hpre, length_swapAt]; simp [hP.preLen, hd3]
  have lpost : X.post.length = C.dims := by rw [hpo, length_swapAt]; simp [hpost, hd3]
  have lge : (mergedShape ds N p).length = C.dims := by rw [length_mergedShape, hP.shapeLen, hd3]
  -- along each axis
  have key : ∀ e < C.dims, (mergedShape ds N p).getD e 0 = (finalShape ds N shape).getD e 0 + X.pre.getD e 0 + X.post.getD e 0 ∧ 0 < (finalShape ds N shape).getD e 0 ∧
      (mergedShape ds N p).getD e 0 + 2 * X.overlap < 2 ^ 31 := by
    intro e he
    rcases axis_cases (n := start.length) (e := e) (by omega) with rfl | ⟨d, hd, rfl⟩
    · rw [a1, b1, c1, d1]
      have := hX.int.2
      omega
    · rw [a2 d hd, b2 d hd, c2 d hd, d2 d hd, getD_mapN (f := fun x => (x + ds - 1) / ds) (by rw [hP.shapeLen]; exact hd), getD_mapN (f := fun x => (x + ds - 1) / ds) (by omega), hceil d hd]
      have h1 := h.dom.ne d hd
      have h2 : 0 < (shape.getD d 0 + ds - 1) / ds := Nat.div_pos (by omega) hds
      have h3 : (p.shape.getD d 0 + ds - 1) / ds ≤ p.shape.getD d 0 := ceil_small hds
      have h4 := (h.padded hp).2.2 d hd
      have h5 := hX.int.1 d (by omega)
      have h6 := hceil d hd
      refine ⟨rfl, h2, ?_⟩
      omega
  have lfs : (finalShape ds N shape).length = C.dims := by rw [length_finalShape, hshl, hd3]
  have hshape : X.shape (mergedShape ds N p) = finalShape ds N shape := by
    unfold Rech.shape
    apply ext_getD
    · rw [length_subVec (by rw [length_subVec (by omega)]; omega), length_subVec (by omega)]; omega
    · intro e he
      rw [length_subVec (by rw [length_subVec (by omega)]; omega), length_subVec (by omega)] at he
      rw [getD_subVec (by rw [length_subVec (by omega)]; omega), getD_subVec (by omega)]
      have := key e (by omega)
      omega
  refine ⟨⟨hh, hf, fun d hd => (key d hd).2.2, lpre, lpost, fun d hd => ?_, hX.reqLen, hX.req, fun b e hbe => ?_, ⟨hlen, ?_⟩, hX.names, hX.inj, hX.dirs, hX.inout, hX.jobs, hX.rounds, hX.guess⟩, hshape⟩
  · have := key d hd
    omega
  · obtain ⟨l1, l2, l3⟩ := hbe
    have lb : b.length = C.dims := by omega
    have le : e.length = C.dims := by
      have : (X.stop (mergedShape ds N p)).length = C.dims := by
        unfold Rech.stop
        rw [hshape, addVec_length (by omega)]; exact lpre
      omega
    refine hX.fit _ (by simp [subVec, lb, le]) fun d hd => ?_
    rw [getD_mapN (f := (· + 2 * X.overlap)) (by rw [length_subVec (by omega)]; omega), getD_subVec (by omega)]
    have := l3 d (by omega)
    omega
  · have h2 := merged_volume h hp
    have h3 := h.total
    have h4 : boxVolume (List.replicate C.dims 0) (mergedShape ds N p) = prod (mergedShape ds N p) := by
      rw [← boxVolume_eq (by simp [lge])]
      have e : (mergedShape ds N p).map (fun _ => 0) = List.replicate C.dims 0 := by rw [List.map_const', lge]
      rw [← e, Stream.length_elemLoop]
    omega

/-- The core of C60, with both kinds of steps of the rechunking. -/
theorem pipeline_any (hC : C.Ok) (hchunk : C.chunk = (outCfg C).chunk) (hj : ∀ k, C.junk k < 2 ^ 32) (hp : padDomain cal start shape ds X.overlap = .ok p)
    (h : CalcOk (outCfg C) T L ds N cal start shape p F X.indir fs procs) (hN : 0 < N) (hpos : 0 < start.length) (hX : PipeOk C N cal p X) (init : List Nat) (proc chunk : Arr) (Z : SlabSize) :
    ∃ (st1 st2 : MState) (parts : List (List Nat × List Nat)) (K : Nat → Nat), runLoop (job (outCfg C) S T L (start.map fun _ => ds) N init proc chunk) (procs.map fun P => P.job p) ⟨none, fs⟩ = .ok st1 ∧
      mergeJobs (outCfg C) S init X.indir (procs.map fun P => P.out) st1 = .ok st2 ∧
      (∀ σ, Schedule X.jobs parts.length σ → ∃ s1, runLoop (procStep C S X) σ ⟨st2.fs, fun _ => none⟩ = .ok s1) ∧
      (∀ σ : List Nat, ∃ t, runLoop (fineStep C S X) σ ⟨st2.fs, fun _ => .fresh⟩ = .ok t ∧ ∀ j, K j ≤ σ.count j → (t.proc j).finished) ∧
      ∀ s1 τ, Reaches C S X parts.length st2.fs s1 → Finish X.jobs τ →
        ∃ s2, runLoop (finStep C S X parts (finalShape ds N shape)) τ s1 = .ok s2 ∧
          Holds C S s2.fs X.out (finalShape ds N shape) X.req X.overlap (PadFieldAt C.vd ds N start p F) ∧
          -- the chunks on disk
          ∃ cs' ps', Saved C s2.fs X.out cs' ∧ Rep C cs' ps' ∧ cs'.length < 2 ^ 64 ∧ IsHull C.dims ps' (List.replicate C.dims 0) (finalShape ds N shape) ∧ Filled ps' (List.replicate C.dims 0) (finalShape ds N shape) ∧
            boxVolume (List.replicate C.dims 0) (finalShape ds N shape) < 2 ^ 64 ∧ ∀ i, InBox (List.replicate C.dims 0) (finalShape ds N shape) i ↔ Covered ps' i := by
  obtain ⟨st1, st2, w, ps, a1, a2, a3, a4, a5, a6, a7, a8, a9⟩ := merged_calc (S := S) (Z := Z) (outCfg_ok hC) h hp init proc chunk
  have hdims : (outCfg C).dims = C.dims := rfl
  have hd3 : C.dims = start.length + 1 := h.dims
  obtain ⟨hh, hf⟩ := a9 hN
  have hW : WInv C S Z st2 w := by
    rw [outCfg_eq hchunk] at a3
    exact WInv.size a3 a4
  obtain ⟨hcan, hshape⟩ := PipeOk.rechunk h hp hpos hdims hX hN hh hf a7
  obtain ⟨parts, K, p1, p2, p4, p5, p3⟩ := rechunk_any C hC hchunk hj S Z st2 w hW a4 X ps a5 _ hcan
  rw [hshape] at p3
  refine ⟨st1, st2, parts, K, a1, a2, p4, p5, fun s1 τ hs hτ => ?_⟩
  obtain ⟨s2, w', ps', b2, d1, _, d3, _, _, d6, _, d8, d9, _, _, b3⟩ := p3 s1 τ hs hτ
  have hshl : (finalShape ds N shape).length = C.dims := by rw [length_finalShape, h.dom.len.2.1, hd3]
  have hvol : boxVolume (List.replicate C.dims 0) (finalShape ds N shape) < 2 ^ 64 := by
    have h7 := hcan.vol.2
    have hgl := hcan.geLen
    rw [← boxVolume_eq (by simp; omega)] at h7 ⊢
    refine lt_of_le_of_lt (List.Nodup.subperm (elemLoop_nodup _ _) ?_).length_le h7
    intro i hi
    rw [mem_elemLoop] at hi ⊢
    obtain ⟨i1, i2, i3⟩ := hi
    refine ⟨i1, by omega, fun d hd => ?_⟩
    have := i3 d hd
    rw [← hshape, hcan.shapeD] at this
    omega
  have hbox : ∀ q ∈ ps', BoxOK (List.replicate C.dims 0) (finalShape ds N shape) X.req q.start q.stop := fun q hq => (d6 q.start q.stop).2 ⟨q, hq, rfl, rfl⟩
  have hlenp : ps'.length < 2 ^ 64 := by
    have k1 := boxes_length (b := List.replicate C.dims 0) (e := finalShape ds N shape) (c := X.req) (boxes := ps'.map fun q => (q.start, q.stop)) (fun q hq => by
      obtain ⟨c, hc, rfl⟩ := List.mem_map.1 hq
      exact hbox c hc) (by simp; omega) (by rw [List.pairwise_map]; exact d9)
    rw [boxVolume_eq (by simp; omega), List.length_map] at k1
    omega
  obtain ⟨cs', f1, f2, _⟩ := d1.disk _ _ d3
  have hhull : IsHull C.dims ps' (List.replicate C.dims 0) (finalShape ds N shape) ∧ Filled ps' (List.replicate C.dims 0) (finalShape ds N shape) := by
    refine hull_of_cover hshl (fun d hd => ?_) (fun q hq => ?_) d8
    · have := hcan.inner d hd
      rw [← hshape, hcan.shapeD]
      omega
    · obtain ⟨l1, l2, l3⟩ := hbox q hq
      simp only [List.length_replicate] at l1 l2 l3
      exact ⟨l1, by omega, fun d hd => (l3 d hd).2.1⟩
  refine ⟨s2, b2, fun init' => ?_, cs', ps', f1, f2, by rw [f2.1]; exact hlenp, hhull.1, hhull.2, hvol, d8⟩
  obtain ⟨lib, c1, c2⟩ := b3 init'
  obtain ⟨cs, hsv, hr, _⟩ := hW.disk _ _ a5
  have huni : ∀ q ∈ ps, ∀ q' ∈ ps, ∀ i, InBox q.start q.stop i → InBox q'.start q'.stop i → q = q' := fun q hq q' hq' i hi hi' => Rebuild.Rep.unique hr hsv.chunky.disj hq hq' hi hi'
  have hpre : X.pre = swapAt (0 :: p.pre) 0 start.length := by rw [hX.pre, h.dom.len.2.2]
  have key : ∀ {b : List Nat} {e j : List Int} {v : List Nat}, b.length = C.dims → InBoxZ (padStart b X.overlap) e j → PadValue C.vd ps (mergedShape ds N p) (shiftZ X.pre j) v →
      PadFieldAt C.vd ds N start p F j v := by
    intro b e j v hb hjb hv
    rw [hpre] at hv
    refine (h.pads hp hpos).1.field a6 huni ?_ hv
    have := hjb.1
    simp [padStart] at this
    omega
  refine ⟨lib, c1, fun i hi => ?_⟩
  obtain ⟨lib', fs', m, a, d1, d2, d3, d4, d5⟩ := c2 i hi
  have hml : m.start.length = C.dims := by have := d3.1; simpa using this
  refine ⟨lib', fs', m, a, d1, d2, d3, d4, ?_⟩
  rcases d5 with ⟨e1, e2, e3⟩ | ⟨e1, e2⟩
  · refine Or.inl ⟨e1, e2, fun j hjb => ?_⟩
    obtain ⟨v, f1, f2⟩ := e3 j hjb
    exact ⟨v, f1, key hml hjb f2⟩
  · exact Or.inr ⟨e1, fun j hjb => key hml hjb (e2 j hjb)⟩

/-- The core of C60. -/
theorem pipeline_core (hC : C.Ok) (hchunk : C.chunk = (outCfg C).chunk) (hj : ∀ k, C.junk k < 2 ^ 32) (hp : padDomain cal start shape ds X.overlap = .ok p)
    (h : CalcOk (outCfg C) T L ds N cal start shape p F X.indir fs procs) (hN : 0 < N) (hpos : 0 < start.length) (hX : PipeOk C N cal p X) (init : List Nat) (proc chunk : Arr) (Z : SlabSize) :
    ∃ st1 st2 parts, runLoop (job (outCfg C) S T L (start.map fun _ => ds) N init proc chunk) (procs.map fun P => P.job p) ⟨none, fs⟩ = .ok st1 ∧
      mergeJobs (outCfg C) S init X.indir (procs.map fun P => P.out) st1 = .ok st2 ∧
      ∀ σ τ, Schedule X.jobs parts.length σ → Finish X.jobs τ →
        ∃ s1 s2, runLoop (procStep C S X) σ ⟨st2.fs, fun _ => none⟩ = .ok s1 ∧ runLoop (finStep C S X parts (finalShape ds N shape)) τ s1 = .ok s2 ∧
          Holds C S s2.fs X.out (finalShape ds N shape) X.req X.overlap (PadFieldAt C.vd ds N start p F) ∧
          -- the chunks on disk
          ∃ cs' ps', Saved C s2.fs X.out cs' ∧ Rep C cs' ps' ∧ cs'.length < 2 ^ 64 ∧ IsHull C.dims ps' (List.replicate C.dims 0) (finalShape ds N shape) ∧ Filled ps' (List.replicate C.dims 0) (finalShape ds N shape) ∧
            boxVolume (List.replicate C.dims 0) (finalShape ds N shape) < 2 ^ 64 ∧ ∀ i, InBox (List.replicate C.dims 0) (finalShape ds N shape) i ↔ Covered ps' i := by
  obtain ⟨st1, st2, parts, _, a1, a2, p4, _, p3⟩ := pipeline_any (S := S) hC hchunk hj hp h hN hpos hX init proc chunk Z
  refine ⟨st1, st2, parts, a1, a2, fun σ τ hσ hτ => ?_⟩
  obtain ⟨s1, b1⟩ := p4 σ hσ
  obtain ⟨s2, r⟩ := p3 s1 τ (Or.inl ⟨σ, hσ, b1⟩) hτ
  exact ⟨s1, s2, b1, r⟩

end pipe

theorem Holds.mono {fs : FS} {dir o : Nat} {G req : List Nat} {V V' : List Int → List Nat → Prop} (h : Holds C S fs dir G req o V)
    (hV : ∀ (j : List Int) v, (-(o : Int) ≤ j.getD 0 0) → V j v → V' j v) (hd : 0 < C.dims) : Holds C S fs dir G req o V' := by
  intro init
  obtain ⟨lib, h1, h2⟩ := h init
  refine ⟨lib, h1, fun i hi => ?_⟩
  obtain ⟨lib', fs', m, a, d1, d2, d3, d4, d5⟩ := h2 i hi
  have hml : m.start.length = C.dims := by have := d3.1; simpa using this
  have key : ∀ {e j : List Int}, InBoxZ (padStart m.start o) e j → -(o : Int) ≤ j.getD 0 0 := fun {e j} hj => by
    have hl := hj.1
    have := hj.2.2 0 (by simp [padStart] at hl; omega)
    rw [getD_padStart (by omega)] at this
    omega
  refine ⟨lib', fs', m, a, d1, d2, d3, d4, ?_⟩
  rcases d5 with ⟨e1, e2, e3⟩ | ⟨e1, e2⟩
  · refine Or.inl ⟨e1, e2, fun j hjb => ?_⟩
    obtain ⟨v, f1, f2⟩ := e3 j hjb
    exact ⟨v, f1, hV j v (key hjb) f2⟩
  · exact Or.inr ⟨e1, fun j hjb => hV j _ (key hjb) (e2 j hjb)⟩

/-- C60 together with the chunks on disk, with both kinds of steps of the rechunking. -/
theorem pipeline_field_any (C : Cfg) (hC : C.Ok) (hchunk : C.chunk = (outCfg C).chunk) (hj : ∀ k, C.junk k < 2 ^ 32) (S : Sorter) (Z : SlabSize) (fs : FS) (T L ds N : Nat)
    (cal start shape : List Nat) (p : Padded) (F : SimField) (procs : List Proc) (init : List Nat) (proc chunk : Arr) (X : Rech) (hp : padDomain cal start shape ds X.overlap = .ok p)
    (h : CalcOk (outCfg C) T L ds N cal start shape p F X.indir fs procs) (hN : 0 < N) (hpos : 0 < start.length) (hX : PipeOk C N cal p X)
    (hr : start.getD (start.length - 1) 0 % ds = 0 ∨ X.overlap * ds ≤ start.getD (start.length - 1) 0) :
    ∃ (st1 st2 : MState) (parts : List (List Nat × List Nat)) (K : Nat → Nat), runLoop (job (outCfg C) S T L (start.map fun _ => ds) N init proc chunk) (procs.map fun P => P.job p) ⟨none, fs⟩ = .ok st1 ∧
      mergeJobs (outCfg C) S init X.indir (procs.map fun P => P.out) st1 = .ok st2 ∧
      (∀ σ, Schedule X.jobs parts.length σ → ∃ s1, runLoop (procStep C S X) σ ⟨st2.fs, fun _ => none⟩ = .ok s1) ∧
      (∀ σ : List Nat, ∃ t, runLoop (fineStep C S X) σ ⟨st2.fs, fun _ => .fresh⟩ = .ok t ∧ ∀ j, K j ≤ σ.count j → (t.proc j).finished) ∧
      ∀ s1 τ, Reaches C S X parts.length st2.fs s1 → Finish X.jobs τ →
        ∃ s2, runLoop (finStep C S X parts (finalShape ds N shape)) τ s1 = .ok s2 ∧
          Holds C S s2.fs X.out (finalShape ds N shape) X.req X.overlap (PadField C.vd ds N start p F) ∧
          ∃ cs' ps', Saved C s2.fs X.out cs' ∧ Rep C cs' ps' ∧ cs'.length < 2 ^ 64 ∧ IsHull C.dims ps' (List.replicate C.dims 0) (finalShape ds N shape) ∧ Filled ps' (List.replicate C.dims 0) (finalShape ds N shape) ∧
            boxVolume (List.replicate C.dims 0) (finalShape ds N shape) < 2 ^ 64 ∧ ∀ i, InBox (List.replicate C.dims 0) (finalShape ds N shape) i ↔ Covered ps' i := by
  obtain ⟨st1, st2, parts, K, a1, a2, p4, p5, a3⟩ := pipeline_any (S := S) hC hchunk hj hp h hN hpos hX init proc chunk Z
  refine ⟨st1, st2, parts, K, a1, a2, p4, p5, fun s1 τ hs hτ => ?_⟩
  obtain ⟨s2, b2, b3, b4⟩ := a3 s1 τ hs hτ
  refine ⟨s2, b2, b3.mono (fun j v hj0 hv => ?_) hC.dims, b4⟩
  obtain ⟨r, e, l1, l2, l3, l4, h5, _⟩ := C55_padding h.dom X.overlap
  rw [hp] at e
  cases e
  obtain ⟨⟨g1, g2, g3⟩, _, g4, _⟩ := h5 (start.length - 1) (by omega)
  have hds := h.dom.pos
  by_cases hlt : p.pre.getD (start.length - 1) 0 < X.overlap
  · -- the domain starts at the axis
    have h6 : start.getD (start.length - 1) 0 % ds = 0 := by
      rcases hr with h0 | h0
      · exact h0
      · have := g3 X.overlap (Nat.le_refl _) h0
        omega
    refine hv.axis ?_
    obtain ⟨k, hk⟩ := Nat.dvd_of_mod_eq_zero h6
    have h7 : p.pre.getD (start.length - 1) 0 = k := by
      have h8 : p.pre.getD (start.length - 1) 0 * ds ≤ k * ds := by rw [Nat.mul_comm k]; omega
      have h9 := Nat.le_of_mul_le_mul_right h8 hds
      by_contra hne
      have := g3 (p.pre.getD (start.length - 1) 0 + 1) (by omega) (by rw [hk, Nat.mul_comm ds]; exact Nat.mul_le_mul_right _ (by omega))
      omega
    rw [h7, hk, Nat.mul_comm k] at g4
    omega
  · -- there is no padding at negative radius
    refine hv.inner fun n x hx => ?_
    have a := hx.space (start.length - 1) (by omega)
    have hax : axis start.length (start.length - 1) = 0 := by unfold axis; rw [if_pos (by omega)]
    rw [hax, ← g4] at a
    have h8 : (0 : Int) ≤ ds * (j.getD 0 0 + p.pre.getD (start.length - 1) 0) := Int.mul_nonneg (by omega) (by omega)
    rw [a]
    push_cast
    rw [Int.mul_add, Int.mul_comm (ds : Int) (p.pre.getD (start.length - 1) 0 : Int)] at h8
    omega

/-- C60 together with the chunks on disk. -/
theorem pipeline_field (C : Cfg) (hC : C.Ok) (hchunk : C.chunk = (outCfg C).chunk) (hj : ∀ k, C.junk k < 2 ^ 32) (S : Sorter) (Z : SlabSize) (fs : FS) (T L ds N : Nat)
    (cal start shape : List Nat) (p : Padded) (F : SimField) (procs : List Proc) (init : List Nat) (proc chunk : Arr) (X : Rech) (hp : padDomain cal start shape ds X.overlap = .ok p)
    (h : CalcOk (outCfg C) T L ds N cal start shape p F X.indir fs procs) (hN : 0 < N) (hpos : 0 < start.length) (hX : PipeOk C N cal p X)
    (hr : start.getD (start.length - 1) 0 % ds = 0 ∨ X.overlap * ds ≤ start.getD (start.length - 1) 0) :
    ∃ st1 st2 parts, runLoop (job (outCfg C) S T L (start.map fun _ => ds) N init proc chunk) (procs.map fun P => P.job p) ⟨none, fs⟩ = .ok st1 ∧
      mergeJobs (outCfg C) S init X.indir (procs.map fun P => P.out) st1 = .ok st2 ∧
      ∀ σ τ, Schedule X.jobs parts.length σ → Finish X.jobs τ →
        ∃ s1 s2, runLoop (procStep C S X) σ ⟨st2.fs, fun _ => none⟩ = .ok s1 ∧ runLoop (finStep C S X parts (finalShape ds N shape)) τ s1 = .ok s2 ∧
          Holds C S s2.fs X.out (finalShape ds N shape) X.req X.overlap (PadField C.vd ds N start p F) ∧
          ∃ cs' ps', Saved C s2.fs X.out cs' ∧ Rep C cs' ps' ∧ cs'.length < 2 ^ 64 ∧ IsHull C.dims ps' (List.replicate C.dims 0) (finalShape ds N shape) ∧ Filled ps' (List.replicate C.dims 0) (finalShape ds N shape) ∧
            boxVolume (List.replicate C.dims 0) (finalShape ds N shape) < 2 ^ 64 ∧ ∀ i, InBox (List.replicate C.dims 0) (finalShape ds N shape) i ↔ Covered ps' i := by
  obtain ⟨st1, st2, parts, _, a1, a2, p4, _, p3⟩ := pipeline_field_any C hC hchunk hj S Z fs T L ds N cal start shape p F procs init proc chunk X hp h hN hpos hX hr
  refine ⟨st1, st2, parts, a1, a2, fun σ τ hσ hτ => ?_⟩
  obtain ⟨s1, b1⟩ := p4 σ hσ
  obtain ⟨s2, r⟩ := p3 s1 τ (Or.inl ⟨σ, hσ, b1⟩) hτ
  exact ⟨s1, s2, b1, r⟩

/-- **C60** (partial: see the hypothesis `hr`). A whole calculation of a Green's function gives the field, for every division of the calculation domain into simulation chunks and processes and every
    schedule of the processes. Let the simulation chunks of all processes divide the calculation domain, let the buffers hold the field `F`, let `p` be the storage domain with the padding that is chosen
    for the overlap of the chunks, and let `hr` hold: along the radial axis (the last one), the first row of the storage domain is a multiple of the downsampling factor, or there is room for the whole
    padding before it. Then all jobs, the merging and the rechunking with any schedules succeed, and the finished array
    * has as its shape the extents of the storage domain, downsampled, and the number of steps (time last), and consists of the boxes of the regular grid of the requested chunk size;
    * has, at index `j`, the field at step `j_t` and place `start + ds * j`; and around each index, the chunk for the interpolation holds the field also in its padding as far as the field is stored, zeros
      outside of this, and at negative radius the mirror image at the axis `r = 0` (`PadField`).
    Missing: without `hr` this is false (`C60_axis_fails`). -/
theorem C60_pipeline_partial (C : Cfg) (hC : C.Ok) (hchunk : C.chunk = (outCfg C).chunk) (hj : ∀ k, C.junk k < 2 ^ 32) (S : Sorter) (Z : SlabSize) (fs : FS) (T L ds N : Nat)
    (cal start shape : List Nat) (p : Padded) (F : SimField) (procs : List Proc) (init : List Nat) (proc chunk : Arr) (X : Rech) (hp : padDomain cal start shape ds X.overlap = .ok p)
    (h : CalcOk (outCfg C) T L ds N cal start shape p F X.indir fs procs) (hN : 0 < N) (hpos : 0 < start.length) (hX : PipeOk C N cal p X)
    (hr : start.getD (start.length - 1) 0 % ds = 0 ∨ X.overlap * ds ≤ start.getD (start.length - 1) 0) :
    ∃ st1 st2 parts, runLoop (job (outCfg C) S T L (start.map fun _ => ds) N init proc chunk) (procs.map fun P => P.job p) ⟨none, fs⟩ = .ok st1 ∧
      mergeJobs (outCfg C) S init X.indir (procs.map fun P => P.out) st1 = .ok st2 ∧
      ∀ σ τ, Schedule X.jobs parts.length σ → Finish X.jobs τ →
        ∃ s1 s2, runLoop (procStep C S X) σ ⟨st2.fs, fun _ => none⟩ = .ok s1 ∧ runLoop (finStep C S X parts (finalShape ds N shape)) τ s1 = .ok s2 ∧
          Holds C S s2.fs X.out (finalShape ds N shape) X.req X.overlap (PadField C.vd ds N start p F) := by
  obtain ⟨st1, st2, parts, a1, a2, a3⟩ := pipeline_field C hC hchunk hj S Z fs T L ds N cal start shape p F procs init proc chunk X hp h hN hpos hX hr
  refine ⟨st1, st2, parts, a1, a2, fun σ τ hσ hτ => ?_⟩
  obtain ⟨s1, s2, b1, b2, b3, _⟩ := a3 σ τ hσ hτ
  exact ⟨s1, s2, b1, b2, b3⟩

/-- **C60** with the finer steps of the rechunking (partial: see the hypothesis `hr` of `C60_pipeline_partial`). The processes make single chunks of their partitions in an arbitrary order `σ` (C44_any_interleaving): no step
    fails, each process reaches the barrier after a number of steps that does not depend on the others, and when all have reached it the rest succeeds and the finished array holds the same field. -/
theorem C60_any_interleaving_partial (C : Cfg) (hC : C.Ok) (hchunk : C.chunk = (outCfg C).chunk) (hj : ∀ k, C.junk k < 2 ^ 32) (S : Sorter) (Z : SlabSize) (fs : FS) (T L ds N : Nat)
    (cal start shape : List Nat) (p : Padded) (F : SimField) (procs : List Proc) (init : List Nat) (proc chunk : Arr) (X : Rech) (hp : padDomain cal start shape ds X.overlap = .ok p)
    (h : CalcOk (outCfg C) T L ds N cal start shape p F X.indir fs procs) (hN : 0 < N) (hpos : 0 < start.length) (hX : PipeOk C N cal p X)
    (hr : start.getD (start.length - 1) 0 % ds = 0 ∨ X.overlap * ds ≤ start.getD (start.length - 1) 0) :
    ∃ (st1 st2 : MState) (parts : List (List Nat × List Nat)) (K : Nat → Nat), runLoop (job (outCfg C) S T L (start.map fun _ => ds) N init proc chunk) (procs.map fun P => P.job p) ⟨none, fs⟩ = .ok st1 ∧
      mergeJobs (outCfg C) S init X.indir (procs.map fun P => P.out) st1 = .ok st2 ∧
      ∀ σ : List Nat, ∃ t, runLoop (fineStep C S X) σ ⟨st2.fs, fun _ => .fresh⟩ = .ok t ∧ (∀ j, K j ≤ σ.count j → (t.proc j).finished) ∧
        ((∀ j < X.jobs, (t.proc j).finished) → ∀ τ, Finish X.jobs τ → ∃ s2, runLoop (finStep C S X parts (finalShape ds N shape)) τ t.atBarrier = .ok s2 ∧
          Holds C S s2.fs X.out (finalShape ds N shape) X.req X.overlap (PadField C.vd ds N start p F)) := by
  obtain ⟨st1, st2, parts, K, a1, a2, _, p5, p3⟩ := pipeline_field_any C hC hchunk hj S Z fs T L ds N cal start shape p F procs init proc chunk X hp h hN hpos hX hr
  refine ⟨st1, st2, parts, K, a1, a2, fun σ => ?_⟩
  obtain ⟨t, b1, b2⟩ := p5 σ
  refine ⟨t, b1, b2, fun hf τ hτ => ?_⟩
  obtain ⟨s2, r1, r2, _⟩ := p3 _ τ (Or.inr ⟨σ, t, b1, hf, rfl⟩) hτ
  exact ⟨s2, r1, r2⟩

/-! ### The hypotheses are met -/

namespace Ex60

def cfg : Cfg := { Ex45.cfg with size := 1 }

theorem cfg_ok : cfg.Ok := ⟨by decide, by decide, rfl, by unfold Small; decide, by decide, by decide⟩

/-- Rechunking by two processes into chunks of 1 x 2 x 2 elements with overlap 1. -/
def X (pre post : List Nat) : Rech := ⟨0, 9, fun n => n + 10, 2, [1, 2, 2], 1, pre, post, fun n k => [n, k], fun a b => (a + b - 1) / b, 1⟩

theorem lt3 {P : Nat → Prop} (h0 : P 0) (h1 : P 1) (h2 : P 2) : ∀ d < 3, P d := fun d hd => by
  rcases d with _ | _ | _ | d
  · exact h0
  · exact h1
  · exact h2
  · omega

theorem pipe (pre post start shape : List Nat) : PipeOk cfg 2 [6, 7] ⟨pre, post, start, shape⟩ (X (swapAt (0 :: pre) 0 2) (swapAt (0 :: post) 0 2)) := by
  refine ⟨rfl, rfl, ⟨fun d hd => ?_, by simp [X]⟩, rfl, lt3 (by simp [X]) (by simp [X]) (by simp [X]), fun sh hl hle => ?_, fun n k => ⟨by simp [X], by simp [X]⟩, fun n k n' k' e => ?_,
    fun n => ⟨by simp [X], ?_, fun m e => ?_⟩, by simp [X], by simp [X], ceilDiv_rounds, by simp [X]⟩
  · rcases d with _ | _ | d
    · simp [X]
    · simp [X]
    · exact absurd hd (by show ¬ d + 2 < 2; omega)
  · replace hl : sh.length = 3 := hl
    replace hle : ∀ d < 3, sh.getD d 0 ≤ [1, 2, 2].getD d 0 + 2 := hle
    match sh, hl with
    | [a, b, c], _ =>
      have h0 : a ≤ 3 := hle 0 (by decide)
      have h1 : b ≤ 4 := hle 1 (by decide)
      have h2 : c ≤ 4 := hle 2 (by decide)
      have h3 : b * c ≤ 4 * 4 := Nat.mul_le_mul h1 h2
      have h4 : a * (b * c * 2) ≤ 3 * (4 * 4 * 2) := Nat.mul_le_mul h0 (Nat.mul_le_mul_right 2 h3)
      refine ⟨rfl, ?_, ?_, ?_⟩
      · intro x hx
        simp only [List.mem_cons, List.not_mem_nil, or_false] at hx
        omega
      · show volume 2 [a, b, c] < 2 ^ 62
        rw [volume_cons]
        simp only [prod, Nat.mul_one]; omega
      · show numElems [b, c] < 2 ^ 32
        simp only [numElems_eq, prod, Nat.mul_one]; omega
  · have e : [n, k] = [n', k'] := e
    injection e with e1 e2
    injection e2 with e2 _
    exact ⟨e1, e2⟩
  · show n + 10 ≠ 9
    omega
  · have e : n + 10 = m + 10 := e
    omega

/-- The calculation of the example for C57 meets the hypotheses: two processes, three simulation chunks; the radial axis begins at 2, and the padding at 0. -/
example : ∃ st1 st2 parts, runLoop (job (outCfg cfg) Tree.Ex.S 2 2 [2, 2] 2 [1, 1, 1] ⟨[], []⟩ ⟨[], []⟩) (Ex57.procs.map fun P => P.job Ex57.pd) ⟨none, fun _ => none⟩ = .ok st1 ∧
      mergeJobs (outCfg cfg) Tree.Ex.S [1, 1, 1] 0 [2, 4] st1 = .ok st2 ∧
      ∀ σ τ, Schedule 2 parts.length σ → Finish 2 τ →
        ∃ s1 s2, runLoop (procStep cfg Tree.Ex.S (X [1, 0, 0] [0, 1, 0])) σ ⟨st2.fs, fun _ => none⟩ = .ok s1 ∧
          runLoop (finStep cfg Tree.Ex.S (X [1, 0, 0] [0, 1, 0]) parts [2, 2, 2]) τ s1 = .ok s2 ∧
          Holds cfg Tree.Ex.S s2.fs 9 [2, 2, 2] [1, 2, 2] 1 (PadField 2 2 2 [1, 2] Ex57.pd Ex57.F) :=
  C60_pipeline_partial cfg cfg_ok rfl (fun _ => (by show 77 < 2 ^ 32; decide)) Tree.Ex.S Tree.Ex.Z (fun _ => none) 2 2 2 2 [6, 7] [1, 2] [3, 4] Ex57.pd Ex57.F Ex57.procs [1, 1, 1] ⟨[], []⟩ ⟨[], []⟩
    (X [1, 0, 0] [0, 1, 0]) Ex57.padded Ex57.ok (by decide) (by decide) (pipe [0, 1] [1, 0] [1, 0] [5, 6]) (Or.inl (by decide))

/-- The same with single chunks as steps. -/
example : ∃ (st1 st2 : MState) (parts : List (List Nat × List Nat)) (K : Nat → Nat), runLoop (job (outCfg cfg) Tree.Ex.S 2 2 [2, 2] 2 [1, 1, 1] ⟨[], []⟩ ⟨[], []⟩) (Ex57.procs.map fun P => P.job Ex57.pd) ⟨none, fun _ => none⟩ = .ok st1 ∧
      mergeJobs (outCfg cfg) Tree.Ex.S [1, 1, 1] 0 [2, 4] st1 = .ok st2 ∧
      ∀ σ : List Nat, ∃ t, runLoop (fineStep cfg Tree.Ex.S (X [1, 0, 0] [0, 1, 0])) σ ⟨st2.fs, fun _ => .fresh⟩ = .ok t ∧ (∀ j, K j ≤ σ.count j → (t.proc j).finished) ∧
        ((∀ j < 2, (t.proc j).finished) → ∀ τ, Finish 2 τ → ∃ s2, runLoop (finStep cfg Tree.Ex.S (X [1, 0, 0] [0, 1, 0]) parts [2, 2, 2]) τ t.atBarrier = .ok s2 ∧
          Holds cfg Tree.Ex.S s2.fs 9 [2, 2, 2] [1, 2, 2] 1 (PadField 2 2 2 [1, 2] Ex57.pd Ex57.F)) :=
  C60_any_interleaving_partial cfg cfg_ok rfl (fun _ => (by show 77 < 2 ^ 32; decide)) Tree.Ex.S Tree.Ex.Z (fun _ => none) 2 2 2 2 [6, 7] [1, 2] [3, 4] Ex57.pd Ex57.F Ex57.procs [1, 1, 1] ⟨[], []⟩ ⟨[], []⟩
    (X [1, 0, 0] [0, 1, 0]) Ex57.padded Ex57.ok (by decide) (by decide) (pipe [0, 1] [1, 0] [1, 0] [5, 6]) (Or.inl (by decide))

/-! ### A calculation for which the mirror image is wrong -/

/-- The storage domain begins at radius 1; with a downsampling factor of 2 there is no room for padding before it. -/
def pd : Padded := ⟨[0, 0], [1, 1], [1, 1], [5, 6]⟩

theorem padded : padDomain [6, 7] [1, 1] [3, 4] 2 1 = .ok pd := by
  have h : (match padDomain [6, 7] [1, 1] [3, 4] 2 1 with
    | .ok r => decide (r.pre = [0, 0] ∧ r.post = [1, 1] ∧ r.start = [1, 1] ∧ r.shape = [5, 6])
    | _ => false) = true := by decide +kernel
  revert h
  cases padDomain [6, 7] [1, 1] [3, 4] 2 1 with
  | ok r =>
    obtain ⟨a, b, c, d⟩ := r
    intro h
    have h := of_decide_eq_true h
    simp only at h
    obtain ⟨rfl, rfl, rfl, rfl⟩ := h
    rfl
  | _ => intro h; cases h

/-- A single simulation chunk. -/
def raw : List SimChunk := [⟨[0, 0], [6, 7]⟩]
def part : SimChunk := ⟨[0, 0], [5, 6]⟩
def buffer (n : Nat) : List Nat := (elemLoop [0, 0] [5, 6]).flatMap fun k => Ex57.F n (addVec [1, 1] (addVec [0, 0] k))
def P : Proc := ⟨1, 2, fun n r b => [n, r, b], raw, fun n _ => buffer n⟩

theorem part_eq : (P.job pd).cs = [part] := by
  have h : ((P.job pd).cs.map fun c => (c.start, c.shape)) = [part].map fun c => (c.start, c.shape) := by decide +kernel
  exact List.map_injective_iff.2 (fun a b e => by cases a; cases b; simp at e; simp [e]) h

theorem data_ok : ∀ n < 2, (buffer n).length = volume 2 (1 :: part.shape) ∧ (∀ w ∈ buffer n, w < 2 ^ 32) ∧
    ∀ k, ValidInd part.shape k → read 2 (mkHdr 2 (1 :: part.shape)) (buffer n) (0 :: k) = .ok (Ex57.F n (addVec pd.start (addVec part.start k))) := by
  have h : ∀ n < 2, (buffer n).length = volume 2 (1 :: part.shape) ∧ (∀ w ∈ buffer n, w < 2 ^ 32) ∧
      ∀ k ∈ elemLoop (part.shape.map fun _ => 0) part.shape, (match read 2 (mkHdr 2 (1 :: part.shape)) (buffer n) (0 :: k) with
        | .ok v => decide (v = Ex57.F n (addVec pd.start (addVec part.start k)))
        | _ => false) = true := by decide +kernel
  intro n hn
  obtain ⟨h1, h2, h3⟩ := h n hn
  refine ⟨h1, h2, fun k hk => ?_⟩
  have h4 := h3 k (mem_elemLoop.2 (inBox_zero_iff.2 hk))
  revert h4
  cases read 2 (mkHdr 2 (1 :: part.shape)) (buffer n) (0 :: k) with
  | ok v => intro h4; rw [of_decide_eq_true h4]
  | _ => intro h4; cases h4

theorem ok : CalcOk (outCfg cfg) 2 2 2 2 [6, 7] [1, 1] [3, 4] pd Ex57.F 0 (fun _ => none) [P] := by
  have one : ∀ {Q : Proc → Prop}, Q P → ∀ P' ∈ [P], Q P' := fun h P' hP => by rw [List.mem_singleton] at hP; rw [hP]; exact h
  refine ⟨rfl, rfl, by decide, by decide, ⟨⟨rfl, rfl, rfl⟩, by decide, by decide, by decide, by decide⟩, by decide, List.pairwise_singleton _ _, ?_, ?_, by decide, ?_, ?_, List.pairwise_singleton _ _,
    List.pairwise_singleton _ _, by decide, fun _ _ _ => ⟨rfl, rfl⟩, fun _ => rfl, by decide, by decide⟩
  · intro i hi
    exact ⟨P, List.mem_singleton_self _, ⟨[0, 0], [6, 7]⟩, List.mem_singleton_self _, inBox_zero_iff (s := [6, 7]).2 hi⟩
  · refine one fun n hn r c hr => ?_
    rw [part_eq] at hr
    rcases r with _ | r
    · simp at hr
      subst hr
      exact data_ok n hn
    · simp at hr
  · exact one fun n r b => ⟨by simp [P], by simp [P]⟩
  · exact one fun n r b n' r' b' e => by simpa [P] using e

end Ex60

/-- **C60**, the case that is excluded in `C60_pipeline_partial`: there is a calculation, which meets all other conditions, that gives a wrong result for every schedule: the storage domain begins at radius
    1 and the downsampling factor is 2; the padding at index -1, that is at radius -1, has the field at radius 3 and not the one at radius 1. -/
theorem C60_axis_fails : ∃ (C : Cfg) (S : Sorter) (fs : FS) (p : Padded) (F : SimField) (procs : List Proc) (X : Rech), C.Ok ∧ C.chunk = (outCfg C).chunk ∧ (∀ k, C.junk k < 2 ^ 32) ∧
    padDomain [6, 7] [1, 1] [3, 4] 2 X.overlap = .ok p ∧ CalcOk (outCfg C) 2 2 2 2 [6, 7] [1, 1] [3, 4] p F X.indir fs procs ∧ PipeOk C 2 [6, 7] p X ∧
    ∃ st1 st2 parts, runLoop (job (outCfg C) S 2 2 [2, 2] 2 [1, 1, 1] ⟨[], []⟩ ⟨[], []⟩) (procs.map fun P => P.job p) ⟨none, fs⟩ = .ok st1 ∧
      mergeJobs (outCfg C) S [1, 1, 1] X.indir (procs.map fun P => P.out) st1 = .ok st2 ∧
      ∀ σ τ, Schedule X.jobs parts.length σ → Finish X.jobs τ →
        ∃ s1 s2, runLoop (procStep C S X) σ ⟨st2.fs, fun _ => none⟩ = .ok s1 ∧ runLoop (finStep C S X parts (finalShape 2 2 [3, 4])) τ s1 = .ok s2 ∧
          ¬ Holds C S s2.fs X.out (finalShape 2 2 [3, 4]) X.req X.overlap (PadField C.vd 2 2 [1, 1] p F) := by
  refine ⟨Ex60.cfg, Tree.Ex.S, fun _ => none, Ex60.pd, Ex57.F, [Ex60.P], Ex60.X [0, 0, 0] [1, 1, 0], Ex60.cfg_ok, rfl, fun _ => (by show 77 < 2 ^ 32; decide), Ex60.padded, Ex60.ok,
    Ex60.pipe [0, 0] [1, 1] [1, 1] [5, 6], ?_⟩
  obtain ⟨st1, st2, parts, a1, a2, a3⟩ := pipeline_core (S := Tree.Ex.S) Ex60.cfg_ok rfl (fun _ => (by show 77 < 2 ^ 32; decide)) Ex60.padded Ex60.ok (by decide) (by decide)
    (Ex60.pipe [0, 0] [1, 1] [1, 1] [5, 6]) [1, 1, 1] ⟨[], []⟩ ⟨[], []⟩ Tree.Ex.Z
  have hXe : Ex60.X (swapAt [0, 0, 0] 0 2) (swapAt [0, 1, 1] 0 2) = Ex60.X [0, 0, 0] [1, 1, 0] := rfl
  rw [hXe] at a2 a3
  refine ⟨st1, st2, parts, a1, a2, fun σ τ hσ hτ => ?_⟩
  obtain ⟨s1, s2, b1, b2, b3, _⟩ := a3 σ τ hσ hτ
  refine ⟨s1, s2, b1, b2, fun hbad => ?_⟩
  obtain ⟨lib, c1, c2⟩ := b3 [1, 1, 1]
  obtain ⟨lib', c1', c2'⟩ := hbad [1, 1, 1]
  rw [c1] at c1'
  cases c1'
  have hin : InBox (List.replicate Ex60.cfg.dims 0) (finalShape 2 2 [3, 4]) [0, 0, 0] := by
    rw [← mem_elemLoop]; decide +kernel
  obtain ⟨l1, f1, m, a, d1, d2, d3, d4, d5⟩ := c2 _ hin
  obtain ⟨l1', f1', m', a', d1', d2', d3', d4', d5'⟩ := c2' _ hin
  rw [d1] at d1'
  cases d1'
  -- the index (-1, 0, 0)
  have hjb : InBoxZ (padStart m.start (Ex60.X [0, 0, 0] [1, 1, 0]).overlap) (padEnd m.stop (Ex60.X [0, 0, 0] [1, 1, 0]).overlap) [-1, 0, 0] := by
    have hl1 : m.start.length = 3 := by have := d3.1; rw [List.length_replicate] at this; exact this
    have hl2 : m.stop.length = 3 := by have := d2.2.1; simp at this; omega
    have q0 := d2.2.2 0 (by decide)
    have q1 := d2.2.2 1 (by decide)
    have q2 := d2.2.2 2 (by decide)
    simp at q0 q1 q2
    refine ⟨by simp [padStart, hl1], by simp [padEnd, hl2], Ex60.lt3 ?_ ?_ ?_⟩ <;> rw [getD_padStart (by omega), getD_padEnd (by omega)] <;> simp [Ex60.X] <;> omega
  have hx : IsPlace [1, 1] 2 [-1, 0, 0] ((0 : Nat) : Int) [1, -1] := ⟨rfl, rfl, by decide⟩
  have key : ∀ v, PadFieldAt 2 2 2 [1, 1] Ex60.pd Ex57.F [-1, 0, 0] v → PadField 2 2 2 [1, 1] Ex60.pd Ex57.F [-1, 0, 0] v → False := by
    intro v h1 h2
    have hst : ∀ x, x ∈ elemLoop [1, 1] [6, 7] → InStored 2 Ex60.pd 0 x := fun x h => ⟨by decide, mem_elemLoop.1 h⟩
    have e1 := h1.mirrored _ _ hx (by decide) 0 [1, 3] (hst _ (by decide +kernel)) rfl (by decide)
    have e2 := h2.mirrored _ _ hx (by decide) 0 [1, 1] (hst _ (by decide +kernel)) rfl (by decide)
    have n1 : ¬ NullSup.FloatIsZero 13 := by unfold NullSup.FloatIsZero; decide
    have n2 : ¬ NullSup.FloatIsZero 11 := by unfold NullSup.FloatIsZero; decide
    rcases e1 with e1 | ⟨_, e1, _⟩
    · rcases e2 with e2 | ⟨_, e2, _⟩
      · rw [← e1] at e2
        exact absurd e2 (by decide)
      · exact n2 (e2 11 (by decide))
    · exact n1 (e1 13 (by decide))
  rcases d5 with ⟨e1, e2, e3⟩ | ⟨e1, e2⟩
  · rcases d5' with ⟨g1, g2, g3⟩ | ⟨g1, g2⟩
    · obtain ⟨v, k1, k2⟩ := e3 _ hjb
      obtain ⟨v', k1', k2'⟩ := g3 _ hjb
      rw [k1] at k1'
      cases k1'
      exact key v k2 k2'
    · rw [e1] at g1; cases g1
  · rcases d5' with ⟨g1, g2, g3⟩ | ⟨g1, g2⟩
    · rw [e1] at g1; cases g1
    · exact key _ (e2 _ hjb) (g2 _ hjb)

end Verif.Meep
