import Verif.Meep.Props58
import Verif.Green.Loaded
/-
The last stage of a calculation with MEEP (MEEPCylindricalGreensFunctionCalculator.hxx 803-824): the finished array becomes a Green's function.
-/
set_option linter.unusedSectionVars false
namespace Verif.Meep
open Verif Verif.ND Verif.Dist Verif.Tree Verif.Analytic Verif.Green Verif.Rebuild Verif.Bytes

variable {K : Type} [Field K] [LinearOrder K] [IsStrictOrderedRing K] [FloorRing K]

/-! ### The program -/

/-- `std::filesystem::remove_all`: the directories for which `gone` holds are removed. -/
def removeAll (gone : Nat → Bool) (d : Disk) : Disk := ⟨fun f => if gone f.1 then none else d.fs f, fun n => if gone n then none else d.green n⟩

/-- Lines 803-824, in the master process, for the region `reg` and the end `tEnd` in time. `enc` rounds to the stored format (the program also rounds in between). `darr_t darr(outdir)` is opened with the default
    parameters (DistributedNDVecArray.hh 399). -/
def finishGreen (C : Cfg) (S : Sorter) (enc : K → Nat) (gone : Nat → Bool) (out : Nat) (reg : CylRegion K) (tEnd : K) (d : Disk) : Res Disk :=
  (Lib.open (readerCfg C 1) S (removeAll gone d).fs out (List.replicate C.dims 100)).bind fun lib =>
  (lib.idx.getShape (readerCfg C 1)).bind fun x =>
  (coordsOf reg tEnd x.2).bind fun co =>
  create (readerCfg C 1) S ⟨co.1.map enc, co.2.1.map enc, co.2.2.map enc⟩ ⟨lib.cc, x.1⟩ (removeAll gone d)

/-! ### Proof -/

variable {C : Cfg} {S : Sorter} {Z : SlabSize}

/-- `create` for a library that was only read: the files of the array do not change. -/
theorem create_clean (hC : C.Ok) {fs : FS} {dir : Nat} {cs : List (Meta × Arr)} (hs : Saved C fs dir cs) (hn : cs.length < 2 ^ 64) {n : Nat} {lib : Lib} (hd : lib.idx.dir = dir) (hc : lib.cc.Clean)
    (hl : LInv { C with size := n } S Z lib fs cs) (gm : GFMeta) (green : Nat → Option (List Nat)) :
    create (readerCfg C n) S gm lib ⟨fs, green⟩ = .ok ⟨fs, upd green dir (some ((gfMeta C.hst).ser gm))⟩ := by
  obtain ⟨lib', fs', e1, e2, e3, e4, _⟩ := flushLib_ok (withSize_ok hC n) hl
  have e1' : lib.flush (readerCfg C n) fs = .ok (lib', fs') := by rw [← e1]; exact flushLib_chunk (C := { C with size := n }) hc
  -- nothing is written
  have hfs : fs' = fs ∧ lib'.cc.Clean := by
    unfold Lib.flush at e1
    rw [index_flush_ok hl.idx] at e1
    simp only [Res.ok_bind] at e1
    obtain ⟨q, q1, q2⟩ := Res.bind_eq_ok.1 e1
    have hu := flush_clean hc q1
    have h1 : q.1 = lib'.cc := congrArg (fun z : Lib × FS => z.1.cc) (Res.ok.inj q2)
    have h2 : q.2 = fs' := congrArg Prod.snd (Res.ok.inj q2)
    refine ⟨?_, by rw [← h1]; exact hu.clean⟩
    rw [← h2, hu.fs]
    funext p
    unfold FS.set
    by_cases hp : p = (lib.idx.dir, .index)
    · rw [if_pos hp, hp, hd, hs.index]; rfl
    · rw [if_neg hp]
  obtain ⟨hfs, hcl⟩ := hfs
  subst hfs
  obtain ⟨g, g1, g2, g3, g4⟩ := open_reader (S := S) (Z := Z) hC hs hn 1 (readerShape C)
  unfold create
  rw [e1']
  simp only [Res.ok_bind]
  rw [e3, hd]
  have g1' : Lib.open (readerCfg (readerCfg C n) 1) S fs' dir (readerShape (readerCfg C n)) = .ok g := g1
  rw [g1']
  simp only [Res.ok_bind]
  have g5 : g.destroy (readerCfg (readerCfg C n) 1) fs' = .ok fs' := destroy_reader hC hs.index g2 g3 g4
  rw [g5]
  simp only [Res.ok_bind]
  rw [destroy_reader hC hs.index (by rw [e3]; exact hd) hcl e2]
  rfl

/-- The last stage, for the chunks of a finished array. -/
theorem finish_core (hC : C.Ok) {d : Disk} {out : Nat} {gone : Nat → Bool} (hg : gone out = false) {cs : List (Meta × Arr)} {ps : List Piece} {G : List Nat} (hs : Saved C d.fs out cs) (hr : Rep C cs ps)
    (hn : cs.length < 2 ^ 64) (hh : IsHull C.dims ps (List.replicate C.dims 0) G) (hv : boxVolume (List.replicate C.dims 0) G < 2 ^ 64) (hf : Filled ps (List.replicate C.dims 0) G)
    (hG : G.length = C.dims) (enc : K → Nat) {reg : CylRegion K} {tEnd : K} {a b st : List K} (hco : coordsOf reg tEnd G = .ok (a, b, st)) (Z : SlabSize) :
    Saved C (removeAll gone d).fs out cs ∧ finishGreen C S enc gone out reg tEnd d =
      .ok ⟨(removeAll gone d).fs, upd (removeAll gone d).green out (some ((gfMeta C.hst).ser ⟨a.map enc, b.map enc, st.map enc⟩))⟩ := by
  have hs' : Saved C (removeAll gone d).fs out cs := hs.frame fun n => by
    show (if gone out then none else d.fs (out, n)) = _
    rw [hg]; rfl
  refine ⟨hs', ?_⟩
  obtain ⟨lib, l1, l2, l3, l4⟩ := open_reader (S := S) (Z := Z) hC hs' hn 1 (List.replicate C.dims 100)
  have hC' := withSize_ok hC 1
  obtain ⟨x, x1, x2, _, x4, x5⟩ := ensure_ok hC' l4
  have hr' : Rep { C with size := 1 } cs ps := ⟨hr.1, fun k c p hk hp => ⟨(hr.2 k c p hk hp).id, (hr.2 k c p hk hp).file, (hr.2 k c p hk hp).start, (hr.2 k c p hk hp).stop, (hr.2 k c p hk hp).overlap,
    (hr.2 k c p hk hp).val⟩⟩
  have hne : ps ≠ [] := fun e => by
    obtain ⟨p, p1, _⟩ := hh.loAtt 0 hC.dims
    rw [e] at p1; cases p1
  obtain ⟨_, f2⟩ := shape_facts l4.chunky hr' (fun lo hi' h' => by
    obtain ⟨e1, e2⟩ := hh.unique h'
    subst e1; subst e2; exact hv) x5
  obtain ⟨k1, k2, _⟩ := f2 hne
  obtain ⟨e1, e2⟩ := hh.unique k1
  have hx : x.shape = G := by
    rw [k2 (by rw [e1, e2]; exact hf), e1, e2]
    apply ext_getD
    · rw [length_subVec (by simp [hG])]
    · intro i hi
      rw [length_subVec (by simp [hG])] at hi
      rw [getD_subVec (by simp [hG]), zeros_getD, Nat.sub_zero]
  have x1' : lib.idx.ensure (readerCfg C 1) = .ok x := x1
  unfold finishGreen
  rw [l1]
  simp only [Res.ok_bind, Index.getShape, x1', hx, hco]
  rw [show removeAll gone d = ⟨(removeAll gone d).fs, (removeAll gone d).green⟩ from rfl]
  exact create_clean hC hs' hn (lib := ⟨lib.cc, x⟩) (x4.trans l2) l3 x2 _ _

end Verif.Meep
