import Verif.Rebuild.Partial
/-
`RebuildChunks`.
-/
namespace Verif.Rebuild
open Verif Verif.ND Verif.Dist Verif.Tree Verif.NullSup

variable {C : Cfg} {S : Sorter} {Z : SlabSize}

/-! ### The cache size does not matter for the files -/

theorem Fit.size {n : Nat} {sh : List Nat} (h : Fit { C with size := n } sh) : Fit C sh := ⟨h.len, h.lt, h.vol, h.div0, h.fit, h.below⟩

theorem Arr.Ok.size {n : Nat} {a : Arr} (h : a.Ok { C with size := n }) : a.Ok C := ⟨Fit.size h.fit, h.len, h.bits⟩

theorem Chunky.size {n : Nat} {cs : List (Meta × Arr)} (h : Chunky { C with size := n } cs) : Chunky C cs := by
  refine ⟨fun c hc => ?_, h.disj, h.ids, h.ok.id, fun k m a hk => Arr.Ok.size (h.ok.arr k m a hk), h.ok.spec, h.ok.null, h.ok.inj⟩
  have p := h.placed c hc
  exact ⟨p.startLen, p.shapeLen, p.pos, p.stop, p.lt, p.ovl, p.offset, p.arr, p.id, p.path⟩

theorem Saved.size {n : Nat} {fs : FS} {d : Nat} {cs : List (Meta × Arr)} (h : Saved { C with size := n } fs d cs) : Saved C fs d cs := by
  refine ⟨Chunky.size h.chunky, h.index, fun k m a hk hs => ?_⟩
  obtain ⟨f, h1, R, l, h2, h3, h4, h5⟩ := h.disk k m a hk hs
  exact ⟨f, h1, R, l, h2, h3, fun s hs => ⟨(h4 s hs).1, Fit.size (h4 s hs).2⟩, h5⟩

theorem outCfg_eq (h : C.chunk = (outCfg C).chunk) : outCfg C = { C with size := 0 } := by
  cases C
  unfold outCfg at h ⊢
  simp only at h
  subst h
  rfl

/-! ### Values -/

/-- `v` is the value at `i` of the array with chunks `ps`. -/
def ValueAt (ps : List Piece) (i v : List Nat) : Prop := ∃ p ∈ ps, InBox p.start p.stop i ∧ VEq (p.val i) v

/-- The value at `i`, if there is one. -/
noncomputable def valOf (ps : List Piece) (i : List Nat) : List Nat :=
  open Classical in if h : ∃ p, p ∈ ps ∧ InBox p.start p.stop i then h.choose.val i else []

theorem Rep.unique {cs : List (Meta × Arr)} {ps : List Piece} (hr : Rep C cs ps) (h : Disj cs) {p q : Piece} (hp : p ∈ ps) (hq : q ∈ ps) {i : List Nat}
    (hi : InBox p.start p.stop i) (hi' : InBox q.start q.stop i) : p = q := by
  obtain ⟨k, hk⟩ := List.getElem?_of_mem hp
  obtain ⟨k', hk'⟩ := List.getElem?_of_mem hq
  obtain ⟨c, hc, r⟩ := hr.right hk
  obtain ⟨c', hc', r'⟩ := hr.right hk'
  by_cases e : k = k'
  · subst e; rw [hk] at hk'; cases hk'; rfl
  · refine absurd ⟨?_, ?_⟩ (h.of_ne hc hc' e i)
    · rw [r.start, r.stop]; exact hi
    · rw [r'.start, r'.stop]; exact hi'

theorem valOf_eq {cs : List (Meta × Arr)} {ps : List Piece} (hr : Rep C cs ps) (h : Disj cs) {p : Piece} (hp : p ∈ ps) {i : List Nat}
    (hi : InBox p.start p.stop i) : valOf ps i = p.val i := by
  unfold valOf
  have hex : ∃ p, p ∈ ps ∧ InBox p.start p.stop i := ⟨p, hp, hi⟩
  rw [dif_pos hex, Rep.unique hr h hex.choose_spec.1 hp hex.choose_spec.2 hi]

theorem srcVal_piece {cs : List (Meta × Arr)} {ps : List Piece} (hr : Rep C cs ps) (h : Chunky C cs) {p : Piece} (hp : p ∈ ps) {i : List Int}
    (hi : InBox p.start p.stop (unsigned i)) : VEq (p.val (unsigned i)) (srcVal C.vd cs i) := by
  obtain ⟨c, hc, r⟩ := hr.rightMem hp
  rw [srcVal_eq h hc (by rw [r.start, r.stop]; exact hi)]
  obtain ⟨v, v1, v2⟩ := r.val _ hi
  rw [v1]; exact v2

/-! ### RebuildChunks -/

/-- Conditions for `RebuildChunks`: the chunks fill the box `[0, ge)`, the indices (with padding on both sides) fit into `int`, the padded chunks can be
    stored, there is no library in the temporary directory, and file names are different. -/
structure CanRebuild (C : Cfg) (w : World) (l : LibSpec) (ge req : List Nat) (tmp overlap : Nat) (uuid : Nat → List Nat) : Prop where
  hull : IsHull C.dims l.pieces (List.replicate C.dims 0) ge
  filled : Filled l.pieces (List.replicate C.dims 0) ge
  int : ∀ d < C.dims, ge.getD d 0 + 2 * overlap < 2 ^ 31
  reqLen : req.length = C.dims
  reqPos : ∀ d < C.dims, 0 < req.getD d 0 ∧ req.getD d 0 < 2 ^ 63
  fit : ∀ b e, BoxOK (List.replicate C.dims 0) ge req b e → Storable C ((subVec e b).map (· + 2 * overlap))
  num : l.next + boxVolume (List.replicate C.dims 0) ge < 2 ^ 64
  names : ∀ k, uuid k ≠ [] ∧ (uuid k).length < 2 ^ 64 ∧ ∀ j, j ≠ k → uuid j ≠ uuid k
  ne : tmp ≠ l.dir
  new : w.disk tmp = none

/-- The padded chunk `a` for the box `[b, e)` holds at `j` what the boundary condition asks for: inside of the array the value of the array; outside at radius
    `r ≥ 0` zero; at radius `r < 0` the value at `|r|` if this is inside of the array. -/
structure PadValue (vd : Nat) (ps : List Piece) (ge : List Nat) (j : List Int) (v : List Nat) : Prop where
  inside : InBoxZ (signed (ge.map fun _ => 0)) (signed ge) j → ValueAt ps (unsigned j) v
  outside : ¬ InBoxZ (signed (ge.map fun _ => 0)) (signed ge) j → 0 ≤ j.getD 0 0 → VEq (List.replicate vd 0) v
  mirrored : j.getD 0 0 < 0 → InBoxZ (signed (ge.map fun _ => 0)) (signed ge) (mirror j) → ValueAt ps (unsigned (mirror j)) v

theorem outInd_zero {n : Nat} {i : List Nat} (h : i.length = n) : outInd (List.replicate n 0) (List.replicate n 0) i = i := by
  apply ext_getD
  · rw [length_outInd (by simp [h]) (by simp [h])]
  · intro d _
    rw [getD_outInd (by simp [h]) (by simp [h])]
    have : (List.replicate n 0).getD d 0 = 0 := by
      rw [List.getD_eq_getElem?_getD, List.getElem?_replicate]; split <;> rfl
    omega

theorem zeros_map {n : Nat} {v : List Nat} (h : v.length = n) : v.map (fun _ => 0) = List.replicate n 0 := by
  rw [List.map_const', h]

theorem loc_signed {m : Meta} {b : List Nat} {o : Nat} (hb : m.start = b) (ho : padOf m = o) {i : List Nat} (hl : i.length = b.length) (hge : ∀ d < b.length, b.getD d 0 ≤ i.getD d 0) :
    loc (padStart b o) (signed i) = localInd m i := by
  have h1 : (signed i).length = (padStart b o).length := by simp [signed, padStart, hl]
  apply ext_getD
  · rw [length_loc h1, length_localInd (by rw [hb]; exact hl)]; simp [padStart, hl]
  · intro d hd
    have hd : d < b.length := by rw [length_loc h1] at hd; simpa [padStart] using hd
    rw [getD_loc h1, getD_signed, getD_padStart hd, getD_localInd (by rw [hb]; exact hl) (by omega), hb, ho]
    have := hge d hd
    omega

theorem rebuild_ok (hC : C.Ok) (hchunk : C.chunk = (outCfg C).chunk) (hj : ∀ k, C.junk k < 2 ^ 32) {st : MState} {w : World} (h : WInv C S Z st w) {l : LibSpec}
    (hl : w.cur = some l) {ge req : List Nat} {tmp overlap : Nat} {opt : Bool} {uuid : Nat → List Nat} (hr : CanRebuild C w l ge req tmp overlap uuid) :
    ∃ lib lib' fs' cs' w' ps, st.lib = some lib ∧ rebuild C S (cylindrical C.vd) uuid lib st.fs req tmp overlap opt = .ok (lib', fs') ∧
      LInv C S Z lib' fs' cs' ∧ WInv C S Z ⟨some lib', fs'⟩ w' ∧ w'.cur = some ⟨l.dir, l.next + ps.length, ps⟩ ∧ w'.disk = w.disk ∧ Rep C cs' ps ∧
      (∀ p ∈ ps, BoxOK (List.replicate C.dims 0) ge req p.start p.stop ∧ p.overlap = overlap) ∧ (∀ i, InBox (List.replicate C.dims 0) ge i ↔ Covered ps i) ∧
      ps.Pairwise (fun p q => DisjointBox p.start p.stop q.start q.stop) ∧
      (∀ p' ∈ ps, ∀ p ∈ l.pieces, ∀ i, InBox p.start p.stop i → InBox p'.start p'.stop i → p'.val i = p.val i) ∧
      (∀ c ∈ cs', c.1.overlap = overlap ∧ BoxOK (List.replicate C.dims 0) ge req c.1.start c.1.stop ∧
        ∃ a, a.shape = (subVec c.1.stop c.1.start).map (· + 2 * overlap) ∧ (c.1.ctype = .specified → c.2 = a) ∧ (c.1.ctype = .all_null → opt = true ∧ a.null = true) ∧
          ∀ j, InBoxZ (padStart c.1.start overlap) (padEnd c.1.stop overlap) j →
            ∃ v, v.length = C.vd ∧ a.get C.vd (loc (padStart c.1.start overlap) j) = .ok v ∧ PadValue C.vd l.pieces ge j v) := by
  have hU : U64 = 2 ^ 64 := rfl
  have hd0 := hC.dims
  have hgl := hr.hull.hiLen
  have hz : ∀ d, (List.replicate C.dims 0).getD d 0 = 0 := fun d => by
    rw [List.getD_eq_getElem?_getD, List.getElem?_replicate]; split <;> rfl
  obtain ⟨lib, cs, a1, a2, a3, a4, a5, a6, a7, a8⟩ := h.opened l hl
  have hps : l.pieces ≠ [] := by
    obtain ⟨p, hp, _⟩ := hr.hull.loAtt 0 hd0
    intro e; rw [e] at hp; cases hp
  have hcs : cs ≠ [] := by
    intro e; apply hps; have := a3.1; rw [e] at this
    exact List.length_eq_zero_iff.1 this.symm
  have hnum := hr.num
  -- the shape
  obtain ⟨x, x1, x2, x3, x4, x5⟩ := ensure_ok hC a2
  have x2' : LInv C S Z ⟨lib.cc, x⟩ st.fs cs := x2
  obtain ⟨_, f2⟩ := shape_facts a2.chunky a3 (fun lo hi hh => by
    obtain ⟨e1, e2⟩ := hr.hull.unique hh
    subst e1; subst e2; omega) x5
  obtain ⟨hh, hsh, _⟩ := f2 hps
  obtain ⟨es, ee⟩ := hr.hull.unique hh
  rw [es, ee] at hsh
  have hshape : x.shape = ge := by
    rw [hsh hr.filled]
    apply ext_getD
    · rw [length_subVec (by simp [hgl])]
    · intro d _
      rw [getD_subVec (by simp [hgl]), hz]; omega
  have hpos : ∀ d < C.dims, 0 < ge.getD d 0 := by
    intro d hd
    obtain ⟨p, hp, e1⟩ := hr.hull.hiAtt d hd
    obtain ⟨c, hc, r⟩ := a3.rightMem hp
    have pl := a2.chunky.placed c hc
    have := pl.getD_stop d
    have := pl.pos d hd
    rw [← e1, ← r.stop]; omega
  have hpart : PartOk C cs (List.replicate C.dims 0) ge (List.replicate C.dims 0) ge (List.replicate C.dims 0) req overlap uuid := by
    refine ⟨by simp, hgl, by simp, hr.reqLen, fun d hd => ?_, hr.reqPos, fun i hi => ?_, hr.fit, by omega, hr.names⟩
    · rw [hz]; have := hr.int d hd; have := hpos d hd; omega
    · exact (covered_iff a3 i).1 (hr.filled i hi)
  have hnew : st.fs (tmp, .index) = none := h.index tmp hr.new fun l' e => by rw [hl] at e; cases e; exact Ne.symm hr.ne
  obtain ⟨lib1, fs1, cs1, boxes, R, e1, e2, e3, e4, hR, _, D⟩ := rebuildPartial_ok (bev := cylindrical C.vd) hC hj x2' hcs (fun lo hi hh' => by
      obtain ⟨e1, e2⟩ := hr.hull.unique (hull_pieces a2.chunky a3 hcs hh')
      exact ⟨e1, e2⟩) hpart (outdir := tmp) (by show _ ≠ x.dir; rw [x4, a5]; exact hr.ne) hnew (fun b e R r1 r2 r3 r4 r5 hctx => by
      have := cyl_total (R := R) (by rw [r1]; exact hC) hctx
      rw [r1, r3, r4, r5] at this
      exact this)
  have hnx : lib1.idx.nextId = l.next := e3.trans (x3.trans a4)
  have hdx : lib1.idx.dir = l.dir := e4.trans (x4.trans a5)
  -- ClearLibrary
  obtain ⟨lib2, fs2, f1, f2, f3, f4, f5, f6⟩ := clearLib_ok hC e2
  rw [hdx] at f4 f5 f6
  have hne := hr.ne
  -- ImportLibrary
  have hsv1 : Saved C fs1 tmp cs1 := by have := D.saved; rw [outCfg_eq hchunk] at this; exact Saved.size this
  have hsv2 : Saved C fs2 tmp cs1 := hsv1.frame fun n => f6 _ hne
  have hble : boxes.length ≤ boxVolume (List.replicate C.dims 0) ge := by
    rw [← boxVolume_eq (by simp [hgl])]
    exact boxes_length D.boxOK (by simp [hgl]) D.disj
  have himp : ImpOk C fs2 lib2.idx.dir tmp lib2.idx.nextId [] cs1 :=
    ⟨by rw [f4]; exact hne, fun c hc => (by cases hc), by rw [f3, hnx, D.len]; omega, fun c hc => (by cases hc), fun c hc => (by cases hc)⟩
  obtain ⟨lib3, fs3, g1, g2, g3, g4, g5, _, g7, g8, g9⟩ := importLib_ok hC f2 hsv2 himp false
  rw [List.nil_append, f3, hnx] at g2
  rw [f3, hnx, D.len] at g3
  rw [f4] at g4 g7 g9
  -- FlushLibrary
  obtain ⟨lib4, fs4, k1, k2, k3, k4, k5⟩ := flushLib_ok hC g2
  rw [g4] at k4 k5
  -- the temporary directory
  let fs5 : FS := fun p => if p.1 = tmp then none else fs4 p
  have hfs5 : ∀ d n, d ≠ tmp → fs5 (d, n) = fs4 (d, n) := fun d n hd => by show (if d = tmp then none else _) = _; rw [if_neg hd]
  have hinv : LInv C S Z lib4 fs5 (numbered l.next cs1) := k2.frameIndex fun n => by rw [k3, g4]; exact hfs5 _ _ (Ne.symm hne)
  -- the chunks
  have hmk : ∀ {k : Nat} {c : Meta × Arr}, cs1[k]? = some c → ∃ p : List Nat × List Nat, boxes[k]? = some p ∧ c.1.start = p.1 ∧ c.1.stop = p.2 ∧ c.1.overlap = overlap ∧
      BoxOK (List.replicate C.dims 0) ge req p.1 p.2 ∧ Ctx R cs p.1 p.2 ∧
      ∃ a, Content R cs p.1 p.2 a ∧ a.shape = (subVec p.2 p.1).map (· + 2 * overlap) ∧ Kept R c a := by
    intro k c hk
    have hkb : k < boxes.length := by have := lt_of_get? hk; rw [D.len] at this; exact this
    have hb := List.getElem?_eq_getElem hkb
    have m := D.made k c _ hk hb
    have ok := D.boxOK _ (List.getElem_mem hkb)
    have hl1 : boxes[k].1.length = C.dims := by rw [ok.1]; simp
    have hl2 : boxes[k].2.length = C.dims := by rw [ok.2.1]; simp
    obtain ⟨a, ca, ka⟩ := m.content
    refine ⟨boxes[k], hb, ?_, ?_, ?_, ok, D.ctx _ (List.getElem_mem hkb), a, ca, ?_, ka⟩
    · rw [m.mstart]; exact outInd_zero hl1
    · rw [m.mstop]; exact outInd_zero hl2
    · have := m.ovl; rw [hR] at this; exact this
    · have := ca.shape; rw [hR] at this; exact this
  have hmem : ∀ {c : Meta × Arr}, c ∈ numbered l.next cs1 → ∃ p : List Nat × List Nat, c.1.start = p.1 ∧ c.1.stop = p.2 ∧ c.1.overlap = overlap ∧
      BoxOK (List.replicate C.dims 0) ge req p.1 p.2 ∧ Ctx R cs p.1 p.2 ∧
      ∃ a, Content R cs p.1 p.2 a ∧ a.shape = (subVec p.2 p.1).map (· + 2 * overlap) ∧ Kept R c a := by
    intro c hc
    obtain ⟨k, hk⟩ := List.getElem?_of_mem hc
    rw [numbered_get] at hk
    cases hk' : cs1[k]? with
    | none => rw [hk'] at hk; cases hk
    | some c0 =>
      rw [hk'] at hk
      cases hk
      obtain ⟨p, _, q1, q2, q3, q4, q5, a, q6, q7, k⟩ := hmk hk'
      exact ⟨p, q1, q2, q3, q4, q5, a, q6, q7, k.ok, k.ctype, k.same, k.null, k.zero⟩
  have hRC : R.C = C := by rw [hR]
  have hRgs : R.gs = List.replicate C.dims 0 := by rw [hR]
  have hRge : R.ge = ge := by rw [hR]
  have hRo : R.overlap = overlap := by rw [hR]
  have hRb : R.bev = cylindrical C.vd := by rw [hR]
  have hRopt : R.opt = opt := by rw [hR]
  have hext : ∀ {a : Arr} {p : List Nat × List Nat}, Ctx R cs p.1 p.2 → a.shape = (subVec p.2 p.1).map (· + 2 * overlap) →
      extents (padStart p.1 overlap) (padEnd p.2 overlap) = a.shape := fun {a p} hx hs => by
    rw [hs]; have := hx.extents; rw [hRo] at this; exact this
  have hvalue : ∀ j : List Int, InBoxZ (signed (List.replicate C.dims 0)) (signed ge) j → ∀ v, VEq (srcVal C.vd cs j) v → ValueAt l.pieces (unsigned j) v := by
    intro j hjb v hv
    obtain ⟨p, hp, hpi⟩ := hr.filled _ (inBox_unsigned hjb)
    exact ⟨p, hp, hpi, (srcVal_piece a3 a2.chunky hp hpi).trans hv⟩
  have hval : ∀ c ∈ numbered l.next cs1, ∃ a : Arr, a.shape = (subVec c.1.stop c.1.start).map (· + 2 * overlap) ∧ Kept R c a ∧
      ∀ j, InBoxZ (padStart c.1.start overlap) (padEnd c.1.stop overlap) j →
      ∃ v, a.get C.vd (loc (padStart c.1.start overlap) j) = .ok v ∧ PadValue C.vd l.pieces ge j v ∧
        (InBoxZ (signed (List.replicate C.dims 0)) (signed ge) j → VEq (srcVal C.vd cs j) v) ∧ v.length = C.vd := by
    intro c hc
    obtain ⟨p, q1, q2, q3, q4, q5, a, q6, q7, qk⟩ := hmem hc
    refine ⟨a, by rw [q1, q2]; exact q7, qk, fun j hj => ?_⟩
    rw [q1, q2] at hj
    have hok : a.Ok C := by
      have := qk.ok
      rw [hR] at this
      replace this : a.Ok (outCfg C) := this
      rw [outCfg_eq hchunk] at this
      exact Arr.Ok.size this
    have hex := hext (a := a) q5 q7
    obtain ⟨v, v1, vlen, _⟩ := hok.get hC (i := loc (padStart p.1 overlap) j) (by rw [← hex]; exact valid_loc hj)
    have hH : ∀ t, Holds C.vd (padStart p.1 overlap) (padEnd p.2 overlap) a.buf j t → VEq t v := by
      rintro t ⟨u, u1, u2⟩
      rw [hex] at u1
      have : a.get C.vd (loc (padStart p.1 overlap) j) = .ok u := u1
      rw [v1] at this; cases this; exact u2
    have hin := q6.inside
    have hout := q6.outside
    have hcm : ∀ {i : List Int}, InBoxZ (padStart p.1 overlap) (padEnd p.2 overlap) i → i.getD 0 0 < 0 → InBoxZ (signed (List.replicate C.dims 0)) (signed ge) (mirror i) →
        Fixed C.vd (cylindrical C.vd) (List.replicate C.dims 0) ge (padStart p.1 overlap) (padEnd p.2 overlap) (srcVal C.vd cs) i (srcVal C.vd cs (mirror i)) := by
      intro i h1 h2 h3
      have := cyl_mirror (R := R) (by rw [hRC]; exact hC) q5 (i := i) (by rw [hRo]; exact h1) h2 (by rw [hRgs, hRge]; exact h3) (srcVal C.vd cs)
      rw [hRC, hRgs, hRge, hRo] at this
      exact this
    have hcz : ∀ {i : List Int}, 0 ≤ i.getD 0 0 →
        Fixed C.vd (cylindrical C.vd) (List.replicate C.dims 0) ge (padStart p.1 overlap) (padEnd p.2 overlap) (srcVal C.vd cs) i (List.replicate C.vd 0) := by
      intro i h1
      have := cyl_zero (R := R) (b := p.1) (e := p.2) h1 (srcVal C.vd cs)
      rw [hRC, hRgs, hRge, hRo] at this
      exact this
    rw [hRC, hRgs, hRge, hRo] at hin
    rw [hRC, hRgs, hRge, hRo, hRb] at hout
    rw [q1]
    refine ⟨v, v1, ⟨fun hb => ?_, fun hb h0 => ?_, fun hneg hb => ?_⟩, fun hb => hH _ (hin j hj hb), vlen⟩
    · rw [zeros_map hgl] at hb
      exact hvalue j hb v (hH _ (hin j hj hb))
    · rw [zeros_map hgl] at hb
      exact hH _ (hout j _ hj hb (hcz h0))
    · rw [zeros_map hgl] at hb
      refine hvalue _ hb v (hH _ (hout j _ hj ?_ (hcm hj hneg hb)))
      intro hc'
      have h3 := hc'.2.2 0 (by rw [hc'.1]; simp [signed]; exact hd0)
      rw [getD_signed, hz] at h3
      omega
  -- the pieces
  let mk : Meta × Arr → Piece := fun c => ⟨c.1.id, c.1.path, c.1.start, c.1.stop, c.1.overlap, valOf l.pieces⟩
  let ps := (numbered l.next cs1).map mk
  have hrep : Rep C (numbered l.next cs1) ps := by
    refine ⟨by simp [ps], fun k c p hc hp => ?_⟩
    rw [List.getElem?_map, hc] at hp
    cases hp
    have hcm := List.mem_of_getElem? hc
    refine ⟨rfl, rfl, rfl, rfl, rfl, fun i hi => ?_⟩
    have hi : InBox c.1.start c.1.stop i := hi
    obtain ⟨p, q1, q2, q3, q4, q5, _⟩ := hmem hcm
    have hpl := hinv.chunky.placed c hcm
    have hsl := hpl.startLen
    have hel := hpl.stopLen
    have hsub := q5.sub
    rw [hRC, hRgs, hRge] at hsub
    have hil : i.length = C.dims := by rw [hi.1]; exact hsl
    have hjb : InBoxZ (padStart c.1.start overlap) (padEnd c.1.stop overlap) (signed i) := by
      refine ⟨by simp [signed, padStart, hi.1], by simp [signed, padEnd, hi.2.1], fun d hd => ?_⟩
      have hd : d < C.dims := by simpa [signed, hil] using hd
      have := hi.2.2 d (by omega)
      rw [getD_signed, getD_padStart (by omega), getD_padEnd (by omega)]
      omega
    obtain ⟨a, _, qk, hv⟩ := hval c hcm
    obtain ⟨v, v1, v2, v3, vlen⟩ := hv _ hjb
    obtain ⟨v', hv', hvl', _⟩ := (hinv.chunky.ok.arr _ _ _ (chunksOf_of_mem hinv.chunky.ids hcm)).get hC (valid_local hpl hi)
    have hvv : VEq v v' := by
      cases hct : c.1.ctype with
      | specified =>
        rw [loc_signed rfl (by rw [padOf_spec hct]; exact q3) (by omega) (fun d hd => by have := hi.2.2 d (by omega); omega)] at v1
        rw [qk.same (Or.inl hct), v1] at hv'
        cases hv'
        exact .refl _
      | all_null =>
        have z1 := qk.null hct
        have z2 := qk.zero hct
        unfold Arr.null at z1 z2
        rw [List.all_eq_true] at z1 z2
        exact Or.inr ⟨by omega, fun x hx => floatNull_iff.1 (z1 x (get_subset v1 x hx)), fun x hx => floatNull_iff.1 (z2 x (get_subset hv' x hx))⟩
    have hgin : InBox (List.replicate C.dims 0) ge i := by
      refine ⟨by simp [hil], by omega, fun d hd => ?_⟩
      have h7 := hi.2.2 d hd
      rw [q1, q2] at h7
      have h8 := hsub d (by omega)
      omega
    have hsg : InBoxZ (signed (List.replicate C.dims 0)) (signed ge) (signed i) := inBoxZ_signed.2 hgin
    refine ⟨v', hv', ?_⟩
    show VEq (valOf l.pieces i) v'
    obtain ⟨p0, hp0, hpi0⟩ := hr.filled i hgin
    rw [valOf_eq a3 a2.chunky.disj hp0 hpi0]
    have h5 := srcVal_piece a3 a2.chunky hp0 (i := signed i) (by rw [unsigned_signed]; exact hpi0)
    rw [unsigned_signed] at h5
    exact (h5.trans (v3 hsg)).trans hvv
  have hpsl : ps.length = boxes.length := by simp [ps, numbered, D.len]
  have hfiles : ∀ p ∈ ps, p.file ≠ [] → ∃ p' ∈ ps, p'.file = p.file := fun p hp _ => ⟨p, hp, rfl⟩
  let w' : World := { cur := some ⟨l.dir, l.next + ps.length, ps⟩, disk := w.disk, names := upd (upd w.names tmp fun _ => False) l.dir fun n => w.names tmp n ∨ ∃ p ∈ ps, p.file = n }
  have hother : ∀ d n, d ≠ l.dir → d ≠ tmp → fs5 (d, n) = st.fs (d, n) := by
    intro d n h1 h2
    rw [hfs5 _ _ h2, k5.other h1]
    unfold FS.set
    rw [if_neg (fun e => h1 (Prod.ext_iff.1 e).1), g7 (d, n) h1 h2, f6 (d, n) h1, D.other d (by show d ≠ x.dir; rw [x4, a5]; exact h1) h2]
  have hW : WInv C S Z ⟨some lib4, fs5⟩ w' := by
    refine ⟨fun e => (by cases e), fun l' e => ?_, fun d ps' hps' => ?_, fun d hdd ho => ?_, fun d n hn => ?_⟩
    · cases e
      refine ⟨lib4, numbered l.next cs1, rfl, hinv, hrep, ?_, by rw [k3, g4], by show l.next + ps.length < _; omega, a7, fun p hp hf => ?_⟩
      · rw [k3, g3, hpsl]
      · show upd (α := List Nat → Prop) _ _ _ l.dir p.file
        unfold upd; rw [if_pos rfl]
        exact Or.inr ⟨p, hp, rfl⟩
    · obtain ⟨cs₀, c1, c2, c3⟩ := h.disk d ps' hps'
      have h1 : d ≠ l.dir := fun e => by subst e; have hps' : w.disk l.dir = some ps' := hps'; rw [a7] at hps'; cases hps'
      have h2 : d ≠ tmp := fun e => by subst e; have hps' : w.disk d = some ps' := hps'; rw [hr.new] at hps'; cases hps'
      refine ⟨cs₀, c1.frame fun n => hother d n h1 h2, c2, fun p hp hf => ?_⟩
      show upd (α := List Nat → Prop) _ _ _ d p.file
      unfold upd; rw [if_neg h1, if_neg h2]
      exact c3 p hp hf
    · show fs5 (d, .index) = none
      have h1 : d ≠ l.dir := fun e => ho _ rfl e.symm
      by_cases h2 : d = tmp
      · show (if d = tmp then none else _) = none
        rw [if_pos h2]
      · rw [hother d _ h1 h2]
        exact h.index d hdd fun l' e => by rw [hl] at e; cases e; exact fun e => h1 e.symm
    · show upd (α := List Nat → Prop) _ _ _ d n
      have hn : fs5 (d, .chunk n) ≠ none := hn
      unfold upd
      by_cases h1 : d = l.dir
      · subst h1
        rw [if_pos rfl]
        rw [hfs5 _ _ (Ne.symm hne)] at hn
        rcases k5.new hn with q | ⟨_, c, hc, _, c2⟩
        · rw [set_index_chunk] at q
          rcases g9 n q with q | q
          · rw [f6 (tmp, _) hne] at q
            rcases D.outFiles n q with q | ⟨c, hc, _, c2⟩
            · exact Or.inl (h.names _ _ q)
            · right
              obtain ⟨k, hk⟩ := List.getElem?_of_mem hc
              refine ⟨mk ({ c.1 with id := l.next + k }, c.2), List.mem_map.2 ⟨_, List.mem_of_getElem? (i := k) ?_, rfl⟩, c2⟩
              rw [numbered_get, hk]; rfl
          · exact absurd (f5 _) q
        · exact Or.inr ⟨mk c, List.mem_map.2 ⟨c, hc, rfl⟩, c2⟩
      · rw [if_neg h1]
        by_cases h2 : d = tmp
        · have : fs5 (d, .chunk n) = none := by show (if d = tmp then none else _) = none; rw [if_pos h2]
          exact absurd this hn
        · rw [if_neg h2]
          rw [hother d _ h1 h2] at hn
          exact h.names _ _ hn
  refine ⟨lib, lib4, fs5, numbered l.next cs1, w', ps, a1, ?_, hinv, hW, rfl, rfl, hrep, fun p hp => ?_, fun i => ?_, ?_, fun p' hp' p hp i hi hi' => ?_, fun c hc => ?_⟩
  · unfold rebuild
    simp only [Index.getShape, x1, Res.ok_bind, hshape, e1, f1, g1, k1]
    rfl
  · obtain ⟨c, hc, rfl⟩ := List.mem_map.1 hp
    obtain ⟨q, q1, q2, q3, q4, _⟩ := hmem hc
    refine ⟨?_, q3⟩
    show BoxOK _ _ _ c.1.start c.1.stop
    rw [q1, q2]; exact q4
  · rw [D.cover]
    constructor
    · rintro ⟨p, hp, hi⟩
      obtain ⟨k, hk⟩ := List.getElem?_of_mem hp
      have hkl : k < cs1.length := by have := lt_of_get? hk; rw [D.len]; exact this
      obtain ⟨p', q0, q1, q2, _⟩ := hmk (List.getElem?_eq_getElem hkl)
      rw [hk] at q0; cases q0
      refine ⟨mk ({ cs1[k].1 with id := l.next + k }, cs1[k].2), List.mem_map.2 ⟨_, List.mem_of_getElem? (i := k) ?_, rfl⟩, ?_⟩
      · rw [numbered_get, List.getElem?_eq_getElem hkl]; rfl
      · show InBox cs1[k].1.start cs1[k].1.stop i
        rw [q1, q2]; exact hi
    · rintro ⟨p, hp, hi⟩
      obtain ⟨c, hc, rfl⟩ := List.mem_map.1 hp
      obtain ⟨k, hk⟩ := List.getElem?_of_mem hc
      rw [numbered_get] at hk
      cases hk' : cs1[k]? with
      | none => rw [hk'] at hk; cases hk
      | some c0 =>
        rw [hk'] at hk
        cases hk
        obtain ⟨p, p0, q1, q2, _⟩ := hmk hk'
        have hi : InBox c0.1.start c0.1.stop i := hi
        rw [q1, q2] at hi
        exact ⟨p, List.mem_of_getElem? p0, hi⟩
  · show ((numbered l.next cs1).map mk).Pairwise _
    rw [List.pairwise_map]
    exact hinv.chunky.disj
  · obtain ⟨c, hc, rfl⟩ := List.mem_map.1 hp'
    exact valOf_eq a3 a2.chunky.disj hp hi
  · obtain ⟨q, q1, q2, q3, q4, q5, _⟩ := hmem hc
    obtain ⟨a, k1, k2, k3⟩ := hval c hc
    refine ⟨q3, by rw [q1, q2]; exact q4, a, k1, fun h => k2.same (Or.inl h), fun h => ⟨?_, k2.null h⟩, fun j hj => ?_⟩
    · have h9 := k2.ctype
      rw [h, hRopt] at h9
      cases ho : opt with
      | true => rfl
      | false => rw [ho] at h9; cases h9
    · obtain ⟨v, v1, v2, _, v4⟩ := k3 j hj
      exact ⟨v, v4, v1, v2⟩

end Verif.Rebuild
