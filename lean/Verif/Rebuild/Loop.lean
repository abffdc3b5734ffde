import Verif.Rebuild.Chunk
/-
The loop over the chunks of the grid: the library that `RebuildChunksPartial` writes.
-/
namespace Verif.Rebuild
open Verif Verif.ND Verif.Dist Verif.Tree Verif.NullSup

/-! ### The configuration of the output library -/

theorem outCfg_getD (C : Cfg) (hd : 0 < C.dims) (d : Nat) : (outCfg C).chunk.getD d 0 = if d = 0 then 1 else if d < C.dims then U64 - 1 else 0 := by
  show ((List.replicate C.dims (U64 - 1)).set 0 1).getD d 0 = _
  rw [getD_set0 (by simpa using hd)]
  split
  · rfl
  · rw [List.getD_eq_getElem?_getD, List.getElem?_replicate]; split <;> rfl

theorem outCfg_ok {C : Cfg} (h : C.Ok) : (outCfg C).Ok := by
  have hU : U64 = 2 ^ 64 := rfl
  have hmem : ∀ c ∈ (outCfg C).chunk, c = 1 ∨ c = U64 - 1 := by
    intro c hc
    rcases List.mem_or_eq_of_mem_set hc with hc | hc
    · exact Or.inr (List.eq_of_mem_replicate hc)
    · exact Or.inl hc
  refine ⟨h.vd, h.dims, ?_, fun c hc => ?_, fun c hc => ?_, ?_⟩
  · show ((List.replicate C.dims (U64 - 1)).set 0 1).length = C.dims
    simp
  · rcases hmem c hc with rfl | rfl <;> omega
  · rcases hmem c hc with rfl | rfl <;> omega
  · rw [outCfg_getD C h.dims, if_pos rfl]; omega

/-- A shape that the output library can store. -/
structure Storable (C : Cfg) (sh : List Nat) : Prop where
  len : sh.length = C.dims
  lt : ∀ x ∈ sh, x < 2 ^ 62
  vol : volume C.vd sh < 2 ^ 62
  below : numElems sh.tail < 2 ^ 32

theorem Storable.fit {C : Cfg} (hC : C.Ok) {sh : List Nat} (h : Storable C sh) : Fit (outCfg C) sh := by
  have hU : U64 = 2 ^ 64 := rfl
  refine ⟨h.len, h.lt, h.vol, ?_, fun d h0 hd => .inl ?_, ?_⟩
  · rw [outCfg_getD C hC.dims, if_pos rfl]; exact Nat.one_dvd _
  · have hd : d < C.dims := hd
    rw [outCfg_getD C hC.dims, if_neg (by omega), if_pos hd]
    have hl : d < sh.length := by rw [h.len]; exact hd
    have := h.lt (sh[d]) (List.getElem_mem hl)
    rw [List.getD_eq_getElem?_getD, List.getElem?_eq_getElem hl, Option.getD_some]; omega
  · rw [outCfg_getD C hC.dims, if_pos rfl, Nat.one_mul]; exact h.below

theorem prod_pad (k : Nat) : ∀ sh : List Nat, prod sh ≤ prod (sh.map (· + k))
  | [] => Nat.le_refl _
  | a :: as => by
      simp only [List.map_cons, prod]
      exact Nat.mul_le_mul (by omega) (prod_pad k as)

theorem Storable.unpad {C : Cfg} {sh : List Nat} {k : Nat} (h : Storable C (sh.map (· + k))) : Storable C sh := by
  refine ⟨by simpa using h.len, fun x hx => ?_, ?_, ?_⟩
  · have := h.lt (x + k) (List.mem_map.2 ⟨x, hx, rfl⟩); omega
  · have h1 := h.vol
    rw [volume_eq] at h1 ⊢
    exact Nat.lt_of_le_of_lt (Nat.mul_le_mul_right _ (prod_pad k sh)) h1
  · have h1 := h.below
    rw [numElems_eq, ← List.map_tail] at h1
    rw [numElems_eq]
    exact Nat.lt_of_le_of_lt (prod_pad k sh.tail) h1

/-! ### Where the chunks go -/

/-- The index of the output that belongs to the index `i` of the array. -/
def outInd (start outStart i : List Nat) : List Nat := addVec (subVec i start) outStart

theorem wadd_wsub {i s o : Nat} (h : s ≤ i) (hi : i < 2 ^ 62) (ho : o < 2 ^ 62) : wadd i (wsub o s) = i - s + o := by
  unfold wadd wsub
  rw [show U64 = 18446744073709551616 from rfl]
  omega

theorem getD_outInd {start outStart i : List Nat} (h1 : start.length = i.length) (h2 : outStart.length = i.length) (d : Nat) :
    (outInd start outStart i).getD d 0 = i.getD d 0 - start.getD d 0 + outStart.getD d 0 := by
  unfold outInd
  rw [getD_addVec (by rw [length_subVec (by omega)]; omega), getD_subVec (by omega)]

theorem length_outInd {start outStart i : List Nat} (h1 : start.length = i.length) (h2 : outStart.length = i.length) : (outInd start outStart i).length = i.length := by
  unfold outInd addVec
  rw [List.length_zipWith, length_subVec (by omega)]
  omega

theorem shift_eq {start outStart i : List Nat} (h1 : start.length = i.length) (h2 : outStart.length = i.length)
    (h : ∀ d < i.length, start.getD d 0 ≤ i.getD d 0 ∧ i.getD d 0 < 2 ^ 62 ∧ outStart.getD d 0 < 2 ^ 62) : vadd i (vsub outStart start) = outInd start outStart i := by
  have hl : (vsub outStart start).length = i.length := by unfold vsub; rw [List.length_zipWith]; omega
  apply ext_getD
  · rw [length_outInd h1 h2]; unfold vadd; rw [List.length_zipWith]; omega
  · intro d hd
    have hd : d < i.length := by unfold vadd at hd; rw [List.length_zipWith] at hd; omega
    have := h d hd
    have e1 : (vadd i (vsub outStart start)).getD d 0 = wadd (i.getD d 0) ((vsub outStart start).getD d 0) := getD_zipWith (by omega) (by omega)
    have e2 : (vsub outStart start).getD d 0 = wsub (outStart.getD d 0) (start.getD d 0) := getD_zipWith (by omega) (by omega)
    rw [e1, e2, getD_outInd h1 h2, wadd_wsub (by omega) (by omega) (by omega)]

/-! ### The chunks that are made -/

/-- The contents of the padded chunk `[b, e)`. -/
structure Content (R : RCfg) (cs : List (Meta × Arr)) (b e : List Nat) (a : Arr) : Prop where
  shape : a.shape = (subVec e b).map (· + 2 * R.overlap)
  inside : Inside R.C.vd R.gs R.ge (padStart b R.overlap) (padEnd e R.overlap) (srcVal R.C.vd cs) a.buf
  outside : ∀ i t, InBoxZ (padStart b R.overlap) (padEnd e R.overlap) i → ¬ InBoxZ (signed R.gs) (signed R.ge) i →
    Fixed R.C.vd R.bev R.gs R.ge (padStart b R.overlap) (padEnd e R.overlap) (srcVal R.C.vd cs) i t → Holds R.C.vd (padStart b R.overlap) (padEnd e R.overlap) a.buf i t

/-- The array `a` is what the chunk `c` stands for: it is stored as it is, or it holds only zeros. -/
structure Kept (R : RCfg) (c : Meta × Arr) (a : Arr) : Prop where
  ok : a.Ok R.C'
  ctype : c.1.ctype = if R.opt && a.null then .all_null else .specified
  same : c.1.ctype = .specified ∨ R.overlap = 0 → c.2 = a
  null : c.1.ctype = .all_null → a.null = true
  zero : c.1.ctype = .all_null → c.2.null = true

/-- The chunk number `k`, made from the box `[b, e)`. -/
structure MadeOne (R : RCfg) (cs : List (Meta × Arr)) (start outStart : List Nat) (p : List Nat × List Nat) (k : Nat) (c : Meta × Arr) : Prop where
  mstart : c.1.start = outInd start outStart p.1
  mstop : c.1.stop = outInd start outStart p.2
  ovl : c.1.overlap = R.overlap
  id : c.1.id = k
  path : c.1.path = [] ∨ c.1.path = R.uuid k
  content : ∃ a, Content R cs p.1 p.2 a ∧ Kept R c a

/-- Everything that the loop needs to know about the boxes and the parameters. -/
structure LoopOk (R : RCfg) (cs : List (Meta × Arr)) (start outStart : List Nat) (boxes : List (List Nat × List Nat)) : Prop where
  startLen : start.length = R.C.dims
  outLen : outStart.length = R.C.dims
  shift : R.shift = vsub outStart start
  ctx : ∀ p ∈ boxes, Ctx R cs p.1 p.2
  ge : ∀ p ∈ boxes, ∀ d < R.C.dims, start.getD d 0 ≤ p.1.getD d 0
  outLt : ∀ p ∈ boxes, ∀ d < R.C.dims, p.2.getD d 0 + outStart.getD d 0 < 2 ^ 62
  disj : boxes.Pairwise fun p q => DisjointBox p.1 p.2 q.1 q.2
  fit : ∀ p ∈ boxes, Fit R.C' ((subVec p.2 p.1).map (· + 2 * R.overlap))
  total : ∀ p ∈ boxes, Total R.C.vd R.bev R.gs R.ge (padStart p.1 R.overlap) (padEnd p.2 R.overlap)
  num : boxes.length < 2 ^ 64
  uuid : ∀ k < boxes.length, R.uuid k ≠ [] ∧ (R.uuid k).length < 2 ^ 64 ∧ ∀ j < k, R.uuid j ≠ R.uuid k
  fit0 : ∀ p ∈ boxes, Fit R.C' (subVec p.2 p.1)
  size : R.C'.size = 0
  vd : R.C'.vd = R.C.vd
  dims : R.C'.dims = R.C.dims

/-- The state after the first `n` boxes. -/
structure LoopInv (R : RCfg) (Z : SlabSize) (cs : List (Meta × Arr)) (start outStart : List Nat) (boxes : List (List Nat × List Nat)) (dir outdir : Nat) (idx : Index)
    (fs₀ : FS) (cl : Prop) (n : Nat) (st : RState) (cs' : List (Meta × Arr)) : Prop where
  src : LInv R.C R.S Z st.src st.fs cs
  idx : st.src.idx = idx
  out : LInv R.C' R.S Z st.out st.fs cs'
  outDir : st.out.idx.dir = outdir
  next : st.out.idx.nextId = n
  len : cs'.length = n
  made : ∀ (k : Nat) (c : Meta × Arr) (p : List Nat × List Nat), cs'[k]? = some c → boxes[k]? = some p → MadeOne R cs start outStart p k c
  bits : ∀ w ∈ st.buf.buf, w < 2 ^ 32
  other : ∀ d, d ≠ dir → d ≠ outdir → ∀ m, st.fs (d, m) = fs₀ (d, m)
  srcFiles : ∀ m, (∀ k m' a', chunksOf cs k = some (m', a') → m'.path ≠ [] → (dir, m) ≠ absPath dir m') → st.fs (dir, m) = fs₀ (dir, m)
  outIndex : st.fs (outdir, .index) = fs₀ (outdir, .index)
  outFiles : ∀ m, st.fs (outdir, .chunk m) ≠ none → fs₀ (outdir, .chunk m) ≠ none ∨ ∃ c ∈ cs', c.1.path ≠ [] ∧ c.1.path = m
  clean : cl → st.src.cc.Clean ∧ ∀ m, st.fs (dir, m) = fs₀ (dir, m)

section loop
variable {R : RCfg} {Z : SlabSize} {cs : List (Meta × Arr)} {start outStart : List Nat} {boxes : List (List Nat × List Nat)} {dir outdir : Nat} {idx : Index} {fs₀ : FS} {cl : Prop}

theorem outInd_inBox {b e i : List Nat} {n : Nat} (hs : start.length = n) (ho : outStart.length = n) (hb : b.length = n) (he : e.length = n)
    (hge : ∀ d < n, start.getD d 0 ≤ b.getD d 0) (h : InBox (outInd start outStart b) (outInd start outStart e) i) :
    ∃ j, InBox b e j ∧ i = outInd start outStart j := by
  have hl : i.length = n := by rw [h.1, length_outInd (by omega) (by omega)]; exact hb
  let j := addVec (subVec i outStart) start
  have hjl : j.length = n := by show (addVec _ _).length = n; unfold addVec; rw [List.length_zipWith, length_subVec (by omega)]; omega
  have hjd : ∀ d, j.getD d 0 = i.getD d 0 - outStart.getD d 0 + start.getD d 0 := fun d => by
    show (addVec _ _).getD d 0 = _
    rw [getD_addVec (by rw [length_subVec (by omega)]; omega), getD_subVec (by omega)]
  have key : ∀ d < n, b.getD d 0 - start.getD d 0 + outStart.getD d 0 ≤ i.getD d 0 ∧ i.getD d 0 < e.getD d 0 - start.getD d 0 + outStart.getD d 0 := fun d hd => by
    have := h.2.2 d (by omega)
    rw [getD_outInd (by omega) (by omega), getD_outInd (by omega) (by omega)] at this
    exact this
  refine ⟨j, ⟨by omega, by omega, fun d hd => ?_⟩, ext_getD ?_ fun d hd => ?_⟩
  · have := key d (by omega)
    have := hge d (by omega)
    rw [hjd]; omega
  · rw [length_outInd (by omega) (by omega)]; omega
  · have := key d (by omega)
    have := hge d (by omega)
    rw [getD_outInd (by omega) (by omega), hjd]; omega

theorem outInd_inj {i j : List Nat} {n : Nat} (hs : start.length = n) (ho : outStart.length = n) (hi : i.length = n) (hj : j.length = n)
    (hi' : ∀ d < n, start.getD d 0 ≤ i.getD d 0) (hj' : ∀ d < n, start.getD d 0 ≤ j.getD d 0) (e : outInd start outStart i = outInd start outStart j) : i = j := by
  apply ext_getD (by omega)
  intro d hd
  have h1 := getD_outInd (start := start) (outStart := outStart) (i := i) (by omega) (by omega) d
  have h2 := getD_outInd (start := start) (outStart := outStart) (i := j) (by omega) (by omega) d
  rw [e, h2] at h1
  have := hi' d (by omega)
  have := hj' d (by omega)
  omega

theorem outInd_disjoint {n : Nat} (hs : start.length = n) (ho : outStart.length = n) {p q : List Nat × List Nat} (hp : p.1.length = n ∧ p.2.length = n)
    (hq : q.1.length = n ∧ q.2.length = n) (hp' : ∀ d < n, start.getD d 0 ≤ p.1.getD d 0) (hq' : ∀ d < n, start.getD d 0 ≤ q.1.getD d 0)
    (h : DisjointBox p.1 p.2 q.1 q.2) :
    DisjointBox (outInd start outStart p.1) (outInd start outStart p.2) (outInd start outStart q.1) (outInd start outStart q.2) := by
  rintro i ⟨h1, h2⟩
  obtain ⟨j, j1, j2⟩ := outInd_inBox hs ho hp.1 hp.2 hp' h1
  obtain ⟨k, k1, k2⟩ := outInd_inBox hs ho hq.1 hq.2 hq' h2
  have hjl : j.length = n := by rw [j1.1]; exact hp.1
  have hkl : k.length = n := by rw [k1.1]; exact hq.1
  have : j = k := outInd_inj hs ho hjl hkl (fun d hd => by have := hp' d hd; have := (j1.2.2 d (by omega)).1; omega)
    (fun d hd => by have := hq' d hd; have := (k1.2.2 d (by omega)).1; omega) (by rw [← j2, ← k2])
  subst this
  exact h j ⟨j1, k1⟩

/-- Filling a chunk only reads from the source. -/
theorem fillChunk_clean {R : RCfg} {b e : List Nat} {src src' : Lib} {fs fs' : FS} {buf a : Arr} (hc : src.cc.Clean) (h : fillChunk R b e src fs buf = .ok (src', fs', a)) :
    Untouched src.cc fs src'.cc fs' := by
  unfold fillChunk at h
  obtain ⟨_, _, h⟩ := Res.bind_eq_ok.1 h
  obtain ⟨_, _, h⟩ := Res.bind_eq_ok.1 h
  obtain ⟨_, _, h⟩ := Res.bind_eq_ok.1 h
  obtain ⟨_, _, h⟩ := Res.bind_eq_ok.1 h
  obtain ⟨q, h1, h⟩ := Res.bind_eq_ok.1 h
  obtain ⟨_, _, h⟩ := Res.bind_eq_ok.1 h
  cases h
  exact (fillArray_clean hc h1).1

/-- One step of the loop. -/
theorem rebuildOne_ok (hC : R.C.Ok) (hC' : R.C'.Ok) (hj : ∀ k, R.C.junk k < 2 ^ 32) (hL : LoopOk R cs start outStart boxes) (hdir : idx.dir = dir) (hne : dir ≠ outdir)
    {n : Nat} {st : RState} {cs' : List (Meta × Arr)} (h : LoopInv R Z cs start outStart boxes dir outdir idx fs₀ cl n st cs') {p : List Nat × List Nat}
    (hp : boxes[n]? = some p) :
    ∃ st' c, rebuildOne R (p, n) st = .ok st' ∧ LoopInv R Z cs start outStart boxes dir outdir idx fs₀ cl (n + 1) st' (cs' ++ [c]) := by
  have hU : U64 = 2 ^ 64 := rfl
  have hpm := List.mem_of_getElem? hp
  have hn : n < boxes.length := lt_of_get? hp
  have hctx := hL.ctx p hpm
  have h1 := hctx.bLen
  have h2 := hctx.eLen
  have hsl := hL.startLen
  have hol := hL.outLen
  have hov := hctx.ovl hC
  have hlen := h.len
  obtain ⟨src', fs1, a, e1, e2, e3, e4, e5, e6, e7, e8, e9⟩ := fillChunk_ok hC hctx hj h.src (hL.total p hpm) h.bits
  rw [h.idx, hdir] at e4
  have hge := hL.ge p hpm
  have hlt := hL.outLt p hpm
  have s1 : vadd p.1 R.shift = outInd start outStart p.1 := by
    rw [hL.shift]
    refine shift_eq (by omega) (by omega) fun d hd => ?_
    have := hge d (by omega)
    have := hlt d (by omega)
    have := hctx.sub d (by omega)
    omega
  have s2 : vadd p.2 R.shift = outInd start outStart p.2 := by
    rw [hL.shift]
    refine shift_eq (by omega) (by omega) fun d hd => ?_
    have := hge d (by omega)
    have := hlt d (by omega)
    have := hctx.sub d (by omega)
    omega
  have hsub : subVec (outInd start outStart p.2) (outInd start outStart p.1) = subVec p.2 p.1 := by
    have l1 := length_outInd (start := start) (outStart := outStart) (i := p.1) (by omega) (by omega)
    have l2 := length_outInd (start := start) (outStart := outStart) (i := p.2) (by omega) (by omega)
    apply ext_getD
    · rw [length_subVec (by omega), length_subVec (by omega)]; omega
    · intro d hd
      rw [length_subVec (by omega)] at hd
      rw [getD_subVec (by omega), getD_subVec (by omega), getD_outInd (by omega) (by omega), getD_outInd (by omega) (by omega)]
      have := hge d (by omega)
      have := hctx.sub d (by omega)
      omega
  -- the output library is not touched by reading the source
  have hout1 : LInv R.C' R.S Z st.out fs1 cs' := h.out.frameIndex fun m => by
    rw [h.outDir]; exact e4.other (Ne.symm hne) _
  have hboxes : ∀ c ∈ cs', ∃ (k : Nat) (q : List Nat × List Nat), k < n ∧ boxes[k]? = some q ∧ MadeOne R cs start outStart q k c := by
    intro c hc
    obtain ⟨k, hk⟩ := List.getElem?_of_mem hc
    have hkn : k < n := by have := lt_of_get? hk; omega
    exact ⟨k, boxes[k], hkn, List.getElem?_eq_getElem (by omega), h.made k c _ hk (List.getElem?_eq_getElem (by omega))⟩
  have hreg : RegOk R.C' cs' (R.uuid n) a (outInd start outStart p.1) (outInd start outStart p.2) R.overlap R.opt := by
    refine ⟨⟨by rw [e5]; exact hL.fit p hpm, by rw [hL.vd]; exact e6, e7⟩, ?_, ?_, ?_, by omega, by rw [hsub]; exact e5, ?_, ⟨(hL.uuid n hn).1, (hL.uuid n hn).2.1, ?_⟩,
      fun _ _ => Or.inr ⟨hL.size, by rw [hsub]; exact hL.fit0 p hpm⟩⟩
    · rw [length_outInd (by omega) (by omega), hL.dims]; exact h1
    · rw [length_outInd (by omega) (by omega), hL.dims]; exact h2
    · intro d hd
      rw [hL.dims] at hd
      rw [getD_outInd (by omega) (by omega), getD_outInd (by omega) (by omega)]
      have := hge d hd
      have := hlt d hd
      have := hctx.sub d hd
      omega
    · intro c hc
      obtain ⟨k, q, k1, k2, k3⟩ := hboxes c hc
      rw [k3.mstart, k3.mstop]
      have hq := List.mem_of_getElem? k2
      refine outInd_disjoint hsl hol ⟨(hL.ctx q hq).bLen, (hL.ctx q hq).eLen⟩ ⟨h1, h2⟩ (hL.ge q hq) hge ?_
      have := List.pairwise_iff_getElem.1 hL.disj k n (by omega) hn k1
      rw [List.getElem?_eq_getElem (by omega)] at k2 hp
      cases k2; cases hp; exact this
    · intro c hc
      obtain ⟨k, q, k1, k2, k3⟩ := hboxes c hc
      rcases k3.path with g | g
      · rw [g]; exact Ne.symm (hL.uuid n hn).1
      · rw [g]; exact (hL.uuid n hn).2.2 k k1
  have hid : st.out.idx.nextId ∉ cs'.map (·.1.id) := by
    intro hm
    obtain ⟨c, hc, hcid⟩ := List.mem_map.1 hm
    obtain ⟨k, q, k1, k2, k3⟩ := hboxes c hc
    rw [k3.id, h.next] at hcid
    omega
  have hnum := hL.num
  obtain ⟨out', fs2, m, g1, g2, g3, g4, g5, g6, g7, g8, g9, g10, g11⟩ := register_ok hC' hout1 hreg hid (by rw [h.next]; omega)
  rw [h.outDir] at g10 g11
  have hsrc2 : LInv R.C R.S Z src' fs2 cs := e2.frameIndex fun q => by
    rw [e3, h.idx, hdir]; exact g11.other hne _
  refine ⟨⟨src', fs2, out', a⟩, (m, stored R.C' a (outInd start outStart p.1) (outInd start outStart p.2) R.overlap R.opt), ?_, hsrc2, e3.trans h.idx, g2, g10, ?_, by simp [hlen], fun k c q hk hq => ?_, e7, fun d hd1 hd2 q => ?_, fun q hq => ?_, ?_, fun q hq => ?_, fun hcl => ?_⟩
  · unfold rebuildOne
    simp only [e1, Res.ok_bind, s1, s2, g1]
  · rw [g9, h.next, wadd_eq (by omega)]
  · rcases Nat.lt_or_ge k cs'.length with hk' | hk'
    · rw [List.getElem?_append_left hk'] at hk
      exact h.made k c q hk hq
    · have hkl := lt_of_get? hk
      rw [List.length_append, List.length_singleton] at hkl
      have hkn : k = n := by omega
      subst hkn
      rw [List.getElem?_append_right hk', hlen, Nat.sub_self] at hk
      cases hk
      rw [hp] at hq; cases hq
      refine ⟨g3, g4, g5, g8.trans h.next, ?_, a, ⟨e5, e8, e9⟩, hreg.arr, g6, fun ho => ?_, fun hn => ?_, fun hn => ?_⟩
      · rw [g7]
        split
        · exact Or.inl rfl
        · exact Or.inr rfl
      · rcases ho with ho | ho
        · apply stored_spec
          have ho : m.ctype = .specified := ho
          rw [g6] at ho
          cases hb : (R.opt && a.null) with
          | false => rfl
          | true => rw [hb] at ho; cases ho
        · show stored _ _ _ _ R.overlap _ = a
          rw [ho]; exact stored_zero
      · have hn : m.ctype = .all_null := hn
        rw [g6] at hn
        cases hb : (R.opt && a.null) with
        | false => rw [hb] at hn; cases hn
        | true => rw [Bool.and_eq_true] at hb; exact hb.2
      · have hn : m.ctype = .all_null := hn
        rw [g6] at hn
        cases hb : (R.opt && a.null) with
        | false => rw [hb] at hn; cases hn
        | true =>
          show (stored _ _ _ _ R.overlap _).null = true
          unfold stored
          split
          · simp [Arr.null, zeros, floatNull]
          · rw [Bool.and_eq_true] at hb; exact hb.2
  · show fs2 (d, q) = _
    rw [g11.other hd2, e4.other hd1]; exact h.other d hd1 hd2 q
  · show fs2 (dir, q) = _
    rw [g11.other hne, e4 _ hq]
    exact h.srcFiles q hq
  · show fs2 (outdir, .index) = _
    rw [sameBut_index g11, sameBut_index e4]; exact h.outIndex
  · rcases g11.new hq with g | ⟨_, c, hc, c1, c2⟩
    · rw [e4.other (Ne.symm hne)] at g
      rcases h.outFiles q g with g | ⟨c, hc, c1⟩
      · exact Or.inl g
      · exact Or.inr ⟨c, List.mem_append_left _ hc, c1⟩
    · exact Or.inr ⟨c, hc, c1, c2⟩
  · obtain ⟨k1, k2⟩ := h.clean hcl
    have u := fillChunk_clean k1 e1
    exact ⟨u.clean, fun q => by show fs2 (dir, q) = _; rw [g11.other hne, u.fs]; exact k2 q⟩

/-- The loop. -/
theorem rebuild_loop (hC : R.C.Ok) (hC' : R.C'.Ok) (hj : ∀ k, R.C.junk k < 2 ^ 32) (hL : LoopOk R cs start outStart boxes) (hdir : idx.dir = dir) (hne : dir ≠ outdir) :
    ∀ (m n : Nat) {st : RState} {cs' : List (Meta × Arr)}, n + m = boxes.length → LoopInv R Z cs start outStart boxes dir outdir idx fs₀ cl n st cs' →
    ∃ st' cs'', runLoop (rebuildOne R) (boxes.zipIdx.drop n) st = .ok st' ∧ LoopInv R Z cs start outStart boxes dir outdir idx fs₀ cl boxes.length st' cs''
  | 0, n, st, cs', hn, h => by
      have : n = boxes.length := by omega
      subst this
      exact ⟨st, cs', by rw [List.drop_eq_nil_of_le (by simp)]; rfl, h⟩
  | m + 1, n, st, cs', hn, h => by
      obtain ⟨st1, c, e1, e2⟩ := rebuildOne_ok hC hC' hj hL hdir hne h (List.getElem?_eq_getElem (by omega))
      obtain ⟨st2, cs2, e3, e4⟩ := rebuild_loop hC hC' hj hL hdir hne m (n + 1) (by omega) e2
      refine ⟨st2, cs2, ?_, e4⟩
      rw [List.drop_eq_getElem_cons (by simp; omega)]
      simp only [runLoop, List.getElem_zipIdx, Nat.zero_add, e1, Res.ok_bind]
      exact e3

end loop
end Verif.Rebuild
