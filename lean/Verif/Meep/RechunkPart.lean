import Verif.Meep.Partition
import Verif.Rebuild.Props32
/-
Rechunking one partition.
-/
namespace Verif.Meep
open Verif Verif.ND Verif.Dist Verif.Tree Verif.Rebuild Verif.Ops

variable {C : Cfg} {S : Sorter} {Z : SlabSize}

/-- The shape of the array without the padding. -/
def Rech.shape (X : Rech) (ge : List Nat) : List Nat := subVec (subVec ge X.pre) X.post

/-- The end of the array without the padding at its end. -/
def Rech.stop (X : Rech) (ge : List Nat) : List Nat := addVec X.pre (X.shape ge)

/-- The index `j` of the result as an index of the input. -/
def shiftZ (pre : List Nat) (j : List Int) : List Int := List.zipWith (fun x (p : Nat) => x + (p : Int)) j pre

/-- Conditions for rechunking: the chunks in the input directory fill a box `[0, ge)`; indices (with padding on both sides) fit into `int`; there is something left without the
    padding; chunks can be stored; names and directories are different; there are processes. -/
structure CanRechunk (C : Cfg) (ps : List Piece) (ge : List Nat) (X : Rech) : Prop where
  hull : IsHull C.dims ps (List.replicate C.dims 0) ge
  filled : Filled ps (List.replicate C.dims 0) ge
  int : ∀ d < C.dims, ge.getD d 0 + 2 * X.overlap < 2 ^ 31
  preLen : X.pre.length = C.dims
  postLen : X.post.length = C.dims
  inner : ∀ d < C.dims, X.pre.getD d 0 + X.post.getD d 0 < ge.getD d 0
  reqLen : X.req.length = C.dims
  req : ∀ d < C.dims, 0 < X.req.getD d 0 ∧ X.req.getD d 0 < 2 ^ 30
  fit : ∀ b e, BoxOK X.pre (X.stop ge) X.req b e → Storable C ((subVec e b).map (· + 2 * X.overlap))
  vol : ps.length < 2 ^ 64 ∧ boxVolume (List.replicate C.dims 0) ge < 2 ^ 64
  names : ∀ n k, X.uuid n k ≠ [] ∧ (X.uuid n k).length < 2 ^ 64
  inj : ∀ n k n' k', X.uuid n k = X.uuid n' k' → n = n' ∧ k = k'
  dirs : ∀ n, X.dir n ≠ X.indir ∧ X.dir n ≠ X.out ∧ ∀ m, X.dir n = X.dir m → n = m
  inout : X.indir ≠ X.out
  jobs : 0 < X.jobs ∧ X.jobs ≤ 2 ^ 30
  rounds : Rounds X.q
  guess : 0 < X.guess ∧ X.guess ^ C.dims < 2 ^ 31

/-- What a chunk of the result is: it lies on the grid, has the requested overlap, and with its padding it holds the elements of the padded chunk, or it is "all zero" and
    these elements are zero. The elements are those of the *whole* input array. -/
structure OutChunk (C : Cfg) (ps : List Piece) (ge : List Nat) (X : Rech) (c : Meta × Arr) : Prop where
  box : BoxOK (List.replicate C.dims 0) (X.shape ge) X.req c.1.start c.1.stop
  ovl : c.1.overlap = X.overlap
  content : ∃ a : Arr, a.shape = (subVec c.1.stop c.1.start).map (· + 2 * X.overlap) ∧ (c.1.ctype = .specified → c.2 = a) ∧
    (c.1.ctype = .all_null → a.null = true ∧ c.2.null = true) ∧
    ∀ j, InBoxZ (padStart c.1.start X.overlap) (padEnd c.1.stop X.overlap) j →
      ∃ v, v.length = C.vd ∧ a.get C.vd (loc (padStart c.1.start X.overlap) j) = .ok v ∧ PadValue C.vd ps ge (shiftZ X.pre j) v

section facts
variable {ps : List Piece} {ge : List Nat} {X : Rech}

theorem zeros_getD (n d : Nat) : (List.replicate n 0).getD d 0 = 0 := by
  rw [List.getD_eq_getElem?_getD, List.getElem?_replicate]; split <;> rfl

theorem vsub_eq' {a b : List Nat} (hl : a.length = b.length) (h : ∀ d < a.length, b.getD d 0 ≤ a.getD d 0 ∧ a.getD d 0 < 2 ^ 64) : vsub a b = subVec a b :=
  vsub_eq (fun d hd => (h d hd).1) hl fun x hx => by
    obtain ⟨d, hd, rfl⟩ := List.getElem_of_mem hx
    have := (h d hd).2
    rwa [List.getD_eq_getElem?_getD, List.getElem?_eq_getElem hd] at this

theorem CanRechunk.geLen (h : CanRechunk C ps ge X) : ge.length = C.dims := h.hull.hiLen

theorem CanRechunk.shapeLen (h : CanRechunk C ps ge X) : (X.shape ge).length = C.dims := by
  have h1 := h.preLen; have h2 := h.postLen; have h3 := h.geLen
  unfold Rech.shape
  rw [length_subVec (by rw [length_subVec (by omega)]; omega), length_subVec (by omega)]; exact h3

theorem CanRechunk.shapeD (h : CanRechunk C ps ge X) (d : Nat) : (X.shape ge).getD d 0 = ge.getD d 0 - X.pre.getD d 0 - X.post.getD d 0 := by
  have h1 := h.preLen; have h2 := h.postLen; have h3 := h.geLen
  unfold Rech.shape
  rw [getD_subVec (by rw [length_subVec (by omega)]; omega), getD_subVec (by omega)]

theorem CanRechunk.stopLen (h : CanRechunk C ps ge X) : (X.stop ge).length = C.dims := by
  have h1 := h.preLen; have h2 := h.shapeLen
  unfold Rech.stop addVec
  rw [List.length_zipWith]; omega

theorem CanRechunk.stopD (h : CanRechunk C ps ge X) (d : Nat) : (X.stop ge).getD d 0 = X.pre.getD d 0 + (ge.getD d 0 - X.pre.getD d 0 - X.post.getD d 0) := by
  have h1 := h.preLen; have h2 := h.shapeLen
  unfold Rech.stop
  rw [getD_addVec (by omega), h.shapeD]

/-- A box of the input, in the coordinates of the result. -/
theorem CanRechunk.boxShift (h : CanRechunk C ps ge X) {b e : List Nat} (hb : BoxOK X.pre (X.stop ge) X.req b e) :
    BoxOK (List.replicate C.dims 0) (X.shape ge) X.req (subVec b X.pre) (subVec e X.pre) := by
  obtain ⟨l1, l2, l3⟩ := hb
  have h1 := h.preLen
  refine ⟨by rw [length_subVec (by omega)]; simp; omega, by rw [length_subVec (by omega)]; simp; omega, fun d hd => ?_⟩
  rw [List.length_replicate] at hd
  obtain ⟨a1, a2, a3, a4, ⟨k, a5⟩, a6⟩ := l3 d (by omega)
  have hi := h.inner d hd
  rw [getD_subVec (by omega), getD_subVec (by omega), zeros_getD, h.shapeD]
  rw [h.stopD] at a3 a6
  exact ⟨by omega, by omega, by omega, by omega, ⟨k, by omega⟩, by omega⟩

/-- Boxes of a partition are boxes of the grid. -/
theorem box_compose {pre stop size req b e b' e' : List Nat} (hs : ∀ d < pre.length, ∃ k, size.getD d 0 = k * req.getD d 0)
    (h : BoxOK pre stop size b e) (h' : BoxOK b e req b' e') : BoxOK pre stop req b' e' := by
  obtain ⟨l1, l2, l3⟩ := h
  obtain ⟨m1, m2, m3⟩ := h'
  refine ⟨by omega, by omega, fun d hd => ?_⟩
  obtain ⟨a1, a2, a3, a4, ⟨k, a5⟩, a6⟩ := l3 d hd
  obtain ⟨b1, b2, b3, b4, ⟨k', b5⟩, b6⟩ := m3 d (by omega)
  obtain ⟨K, hK⟩ := hs d hd
  generalize req.getD d 0 = r at *
  rw [hK] at a4 a5 a6
  have hlt : k' * r < K * r := by omega
  have hkK : k' < K := Nat.lt_of_mul_lt_mul_right hlt
  have h1 : (k' + 1) * r ≤ K * r := Nat.mul_le_mul_right _ hkK
  rw [Nat.add_mul, Nat.one_mul] at h1
  refine ⟨by omega, b2, by omega, b4, ⟨k * K + k', ?_⟩, by omega⟩
  rw [Nat.add_mul, Nat.mul_assoc]; omega

/-- The partitions that all processes find. -/
structure PartsOk (C : Cfg) (ge : List Nat) (X : Rech) (parts : List (List Nat × List Nat)) : Prop where
  box : ∃ size : List Nat, (∀ d < C.dims, ∃ k, 0 < k ∧ size.getD d 0 = k * X.req.getD d 0) ∧ ∀ p ∈ parts, BoxOK X.pre (X.stop ge) size p.1 p.2
  cover : ∀ i, InBox X.pre (X.stop ge) i ↔ ∃ p ∈ parts, InBox p.1 p.2 i
  disj : parts.Pairwise fun p q => DisjointBox p.1 p.2 q.1 q.2

/-- A process that is ready to rechunk. -/
structure Ready (C : Cfg) (S : Sorter) (Z : SlabSize) (X : Rech) (cs : List (Meta × Arr)) (fs : FS) (lib : Lib) : Prop where
  inv : LInv C S Z lib fs cs
  clean : lib.cc.Clean
  dir : lib.idx.dir = X.indir

theorem Ready.frame {cs : List (Meta × Arr)} {fs fs' : FS} {lib : Lib} (h : Ready C S Z X cs fs lib) (hf : ∀ m, fs' (X.indir, m) = fs (X.indir, m)) : Ready C S Z X cs fs' lib :=
  ⟨h.inv.frameIndex fun m => by rw [h.dir]; exact hf _, h.clean, h.dir⟩

theorem startProc_ok (hC : C.Ok) (h : CanRechunk C ps ge X) {cs : List (Meta × Arr)} (hr : Rep C cs ps) : ∃ parts, PartsOk C ge X parts ∧
    ∀ fs, Saved C fs X.indir cs → ∃ lib, startProc C S X fs = .ok (lib, parts) ∧ Ready C S Z X cs fs lib := by
  have hU : U64 = 2 ^ 64 := rfl
  have h1 := h.preLen; have h2 := h.postLen; have h3 := h.geLen; have h4 := h.shapeLen; have h5 := h.stopLen; have h6 := h.reqLen
  have hd0 := hC.dims
  obtain ⟨size, s1, s2, s3, _⟩ := partitionSize_ok h.rounds (guess := X.guess) (n := X.jobs) (shape := X.shape ge) (chunk := X.req) (by omega) (by omega) h.guess.1 (by rw [h4]; exact h.guess.2) h.jobs.2
    (fun d hd => by
      rw [h4] at hd
      have := h.inner d hd
      have := h.int d hd
      have := h.req d hd
      rw [h.shapeD]; omega)
  rw [h4] at s2 s3
  have hsafe : Safe X.pre (X.stop ge) size := Rebuild.safe_of (by omega) (by omega) fun d hd => by
    have hd : d < C.dims := by omega
    have := h.inner d hd
    have := h.int d hd
    obtain ⟨k1, k, k2, k3⟩ := s3 d hd
    have hpos : 0 < k * X.req.getD d 0 := Nat.mul_pos k2 (h.req d hd).1
    rw [h.stopD]; omega
  obtain ⟨parts, b1, b2, b3, b4⟩ := C02_chunk_loop_partitions X.pre (X.stop ge) size hsafe
  refine ⟨parts, ⟨⟨size, fun d hd => (s3 d hd).2, b2⟩, b3, b4⟩, fun fs hsv => ?_⟩
  obtain ⟨lib, e1, e2, e3, e4⟩ := reopen_ok (S := S) (Z := Z) hC hsv (by rw [hr.1]; exact h.vol.1) (List.replicate C.dims 1)
  obtain ⟨x, x1, x2, x3, x4, x5⟩ := ensure_ok hC e4
  have hps : ps ≠ [] := by
    obtain ⟨p, hp, _⟩ := h.hull.loAtt 0 hd0
    intro e; rw [e] at hp; cases hp
  obtain ⟨_, f2⟩ := shape_facts hsv.chunky hr (fun lo hi hh => by
    obtain ⟨q1, q2⟩ := h.hull.unique hh
    subst q1; subst q2; exact h.vol.2) x5
  obtain ⟨hh, hsh, _⟩ := f2 hps
  obtain ⟨es, ee⟩ := h.hull.unique hh
  rw [es, ee] at hsh
  have hshape : x.shape = ge := by
    rw [hsh h.filled]
    apply ext_getD
    · rw [length_subVec (by simp [h3])]
    · intro d _
      rw [getD_subVec (by simp [h3]), zeros_getD]; omega
  have v1 : vsub ge X.pre = subVec ge X.pre := vsub_eq' (by omega) fun d hd => by
    have := h.inner d (by omega)
    have := h.int d (by omega)
    omega
  have v2 : vsub (subVec ge X.pre) X.post = X.shape ge := vsub_eq' (by rw [length_subVec (by omega)]; omega) fun d hd => by
    rw [length_subVec (by omega)] at hd
    have := h.inner d (by omega)
    have := h.int d (by omega)
    rw [getD_subVec (by omega)]; omega
  have v3 : vadd X.pre (X.shape ge) = X.stop ge := vadd_eq (by omega) fun d hd => by
    have := h.inner d (by omega)
    have := h.int d (by omega)
    rw [h.shapeD]; omega
  refine ⟨⟨lib.cc, x⟩, ?_, x2, (open_clean e1).1, x4.trans e2⟩
  unfold startProc
  have b1 := b1 (fuelFor (X.stop ge)) lt_fuelFor
  simp only [e1, Res.ok_bind, Index.getShape, x1, hshape, v1, v2, v3, s1, b1]

end facts

/-! ### The contents of a padded chunk -/

theorem content_value (hC : C.Ok) {cs : List (Meta × Arr)} {ps : List Piece} {ge : List Nat} (hgl : ge.length = C.dims) (hch : Chunky C cs) (hr : Rep C cs ps)
    (hf : Filled ps (List.replicate C.dims 0) ge) {R : RCfg} (hRC : R.C = C) (hRgs : R.gs = List.replicate C.dims 0) (hRge : R.ge = ge) (hRb : R.bev = cylindrical C.vd)
    {b e : List Nat} (hx : Ctx R cs b e) {a : Arr} (hc : Content R cs b e a) (hok : a.Ok C) {j : List Int} (hj : InBoxZ (padStart b R.overlap) (padEnd e R.overlap) j) :
    ∃ v, v.length = C.vd ∧ a.get C.vd (loc (padStart b R.overlap) j) = .ok v ∧ PadValue C.vd ps ge j v := by
  have hd0 := hC.dims
  have hvalue : ∀ j : List Int, InBoxZ (signed (List.replicate C.dims 0)) (signed ge) j → ∀ v, VEq (srcVal C.vd cs j) v → ValueAt ps (unsigned j) v := by
    intro j hjb v hv
    obtain ⟨p, hp, hpi⟩ := hf _ (inBox_unsigned hjb)
    exact ⟨p, hp, hpi, (srcVal_piece hr hch hp hpi).trans hv⟩
  have hex : extents (padStart b R.overlap) (padEnd e R.overlap) = a.shape := by rw [hc.shape]; exact hx.extents
  obtain ⟨v, v1, vlen, _⟩ := hok.get hC (i := loc (padStart b R.overlap) j) (by rw [← hex]; exact valid_loc hj)
  have hH : ∀ t, Holds C.vd (padStart b R.overlap) (padEnd e R.overlap) a.buf j t → VEq t v := by
    rintro t ⟨u, u1, u2⟩
    rw [hex] at u1
    have : a.get C.vd (loc (padStart b R.overlap) j) = .ok u := u1
    rw [v1] at this; cases this; exact u2
  have hin := hc.inside
  have hout := hc.outside
  have hcm : j.getD 0 0 < 0 → InBoxZ (signed (List.replicate C.dims 0)) (signed ge) (mirror j) →
      Fixed C.vd (cylindrical C.vd) (List.replicate C.dims 0) ge (padStart b R.overlap) (padEnd e R.overlap) (srcVal C.vd cs) j (srcVal C.vd cs (mirror j)) := by
    intro h2 h3
    have := cyl_mirror (R := R) (by rw [hRC]; exact hC) hx (i := j) hj h2 (by rw [hRgs, hRge]; exact h3) (srcVal C.vd cs)
    rw [hRC, hRgs, hRge] at this
    exact this
  have hcz : 0 ≤ j.getD 0 0 →
      Fixed C.vd (cylindrical C.vd) (List.replicate C.dims 0) ge (padStart b R.overlap) (padEnd e R.overlap) (srcVal C.vd cs) j (List.replicate C.vd 0) := by
    intro h1
    have := cyl_zero (R := R) (b := b) (e := e) h1 (srcVal C.vd cs)
    rw [hRC, hRgs, hRge] at this
    exact this
  rw [hRC, hRgs, hRge] at hin
  rw [hRC, hRgs, hRge, hRb] at hout
  refine ⟨v, vlen, v1, ⟨fun hb => ?_, fun hb h0 => ?_, fun hneg hb => ?_⟩⟩
  · rw [zeros_map hgl] at hb
    exact hvalue j hb v (hH _ (hin j hj hb))
  · rw [zeros_map hgl] at hb
    exact hH _ (hout j _ hj hb (hcz h0))
  · rw [zeros_map hgl] at hb
    refine hvalue _ hb v (hH _ (hout j _ hj ?_ (hcm hneg hb)))
    intro hc'
    have h3 := hc'.2.2 0 (by rw [hc'.1]; simp [signed]; exact hd0)
    rw [getD_signed, zeros_getD] at h3
    omega

end Verif.Meep
