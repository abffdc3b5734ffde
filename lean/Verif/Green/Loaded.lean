import Verif.Green.Props66
import Verif.Green.Bridge
/-
Loading a Green's function whose chunks are known, and reading from it.
-/
set_option linter.unusedSectionVars false
namespace Verif.Green
open Verif Verif.ND Verif.Dist Verif.Tree Verif.Bytes Verif.Ops Verif.Rebuild Verif.NullSup

section
variable {C : Cfg} {S : Sorter} {Z : SlabSize}

/-- Opening a Green's function whose chunks are known. -/
theorem load_lib (hC : C.Ok) {fs : FS} {green : Nat → Option (List Nat)} {dir : Nat} {cs : List (Meta × Arr)} {ps : List Piece} (hs : Saved C fs dir cs) (hr : Rep C cs ps) (hn : cs.length < 2 ^ 64)
    {hi : List Nat} (hh : IsHull C.dims ps (List.replicate C.dims 0) hi) (hv : boxVolume (List.replicate C.dims 0) hi < 2 ^ 64) {gm : GFMeta} (hg : ValidMeta gm)
    (hgr : green dir = some ((gfMeta C.hst).ser gm)) (n : Nat) :
    ∃ g, load C S dir n ⟨fs, green⟩ = .ok (g, gm) ∧ g.cc.Clean ∧ LInv { C with size := n } S Z g fs cs := by
  obtain ⟨g, a1, a2, a3, a4⟩ := open_reader (S := S) (Z := Z) hC hs hn n (readerShape C)
  have hC' := withSize_ok hC n
  obtain ⟨x, x1, x2, x3, x4, x5⟩ := ensure_ok hC' a4
  obtain ⟨y, y1, y2, y3, y4, y5⟩ := ensure_ok hC' x2
  have hr' : Rep { C with size := n } cs ps := ⟨hr.1, fun k c p hk hp => ⟨(hr.2 k c p hk hp).id, (hr.2 k c p hk hp).file, (hr.2 k c p hk hp).start, (hr.2 k c p hk hp).stop, (hr.2 k c p hk hp).overlap,
    (hr.2 k c p hk hp).val⟩⟩
  have hne : ps ≠ [] := fun e => by
    obtain ⟨p, p1, _⟩ := hh.loAtt 0 hC.dims
    rw [e] at p1; cases p1
  obtain ⟨_, f2⟩ := shape_facts a4.chunky hr' (fun lo hi' h' => by
    obtain ⟨e1, e2⟩ := hh.unique h'
    subst e1; subst e2; exact hv) x5
  have hx : x.start = List.replicate C.dims 0 := hull_unique (f2 hne).1 hh
  have hde : (gfMeta C.hst).deser ((gfMeta C.hst).ser gm) = .ok (gm, []) := by
    have := C11_greens_function_metadata C.hst gm hg.1 hg.2.1 hg.2.2 []
    rwa [List.append_nil] at this
  refine ⟨⟨g.cc, y⟩, ?_, a3, y2⟩
  have x1' : g.idx.ensure (readerCfg C n) = .ok x := x1
  have y1' : x.ensure (readerCfg C n) = .ok y := y1
  unfold load
  simp only [a1, hgr, hde, Res.ok_bind, Index.getStart, Index.getVolume, Index.getShape, x1', hx, y1']
  rfl

theorem _root_.Verif.Dist.Placed.first_in {m : Meta} {a : Arr} (h : Placed C m a) : InBox m.start m.stop m.start := by
  refine ⟨rfl, by rw [h.startLen, h.stopLen], fun d hd => ⟨Nat.le_refl _, ?_⟩⟩
  have := h.pos d (by rw [h.startLen] at hd; exact hd)
  have := h.getD_stop d
  omega

/-- Different chunks start at different indices. -/
theorem chunk_uniq {cs : List (Meta × Arr)} (h : Chunky C cs) {q q' : Meta × Arr} (hq : q ∈ cs) (hq' : q' ∈ cs) (he : q.1.start = q'.1.start) : q = q' := by
  obtain ⟨k, hk⟩ := List.getElem?_of_mem hq
  obtain ⟨k', hk'⟩ := List.getElem?_of_mem hq'
  have := (h.onlyAt hk (h.placed q hq).first_in).2 k' q'.1 (by rw [List.getElem?_map, hk']; rfl) (by rw [he]; exact (h.placed q' hq').first_in)
  subst this
  rw [hk] at hk'; cases hk'; rfl

end

variable {K : Type} [Field K] [LinearOrder K] [IsStrictOrderedRing K] [FloorRing K]

/-- The metadata of the loaded Green's function as numbers. -/
def gmetaOf (val : Nat → K) (gm : GFMeta) : GMeta K :=
  ⟨val (gm.start_pos.getD 0 0), val (gm.start_pos.getD 1 0), val (gm.start_pos.getD 2 0), val (gm.sample_interval.getD 0 0), val (gm.sample_interval.getD 1 0), val (gm.sample_interval.getD 2 0)⟩

theorem val_eq {val : Nat → K} (hval : ∀ x, FloatIsZero x → val x = 0) {v w : List Nat} (h : VEq v w) {c : Nat} (hc : c < v.length) : val (v.getD c 0) = val (w.getD c 0) := by
  rcases h with rfl | ⟨h1, h2, h3⟩
  · rfl
  · have gm : ∀ (l : List Nat), c < l.length → l.getD c 0 ∈ l := by
      intro l hl
      rw [List.getD_eq_getElem?_getD, List.getElem?_eq_getElem hl]; exact List.getElem_mem hl
    rw [hval _ (h2 _ (gm v hc)), hval _ (h3 _ (gm w (by omega)))]

/-- A loaded Green's function, of which no chunk in the cache is new or changed, can be read with other parameters for writing. -/
theorem serves_clean {C : Cfg} {S : Sorter} {Z : SlabSize} {val : Nat → K} {cs : List (Meta × Arr)} {ms : List Meta} {A : Nat → Int → Int → Int → K} {Q : Int → Int → Int → Prop}
    (hL : Serves (libOf C val) (fun s => LInv C S Z s.1 s.2 cs) ms A Q) (X : List Nat) :
    Serves (libOf { C with chunk := X } val) (fun s => LInv C S Z s.1 s.2 cs ∧ s.1.cc.Clean) ms A Q where
  ok := hL.ok
  found s p m h hm hin := by
    obtain ⟨s', e, i⟩ := hL.found s p m h.1 hm hin
    refine ⟨s', e, i, ?_⟩
    obtain ⟨r, _, r2⟩ := Res.bind_eq_ok.1 e
    rw [← congrArg (fun z : (Lib × FS) × Option Meta => z.1.1.cc) (Res.ok.inj r2)]
    exact h.2
  missing s p h h1 h2 h3 := by
    obtain ⟨s', e, i⟩ := hL.missing s p h.1 h1 h2 h3
    refine ⟨s', e, i, ?_⟩
    obtain ⟨r, _, r2⟩ := Res.bind_eq_ok.1 e
    rw [← congrArg (fun z : (Lib × FS) × Option Meta => z.1.1.cc) (Res.ok.inj r2)]
    exact h.2
  load s m h hm hsp := by
    obtain ⟨s', buf, e, i, e2, e3⟩ := hL.load s m h.1 hm hsp
    refine ⟨s', buf, ?_, ⟨i, ?_⟩, e2, e3⟩
    · rw [← e]
      show (retrieve { C with chunk := X } s.1.cc s.2 m).bind _ = (retrieve C s.1.cc s.2 m).bind _
      rw [retrieve_chunk h.2]
    · obtain ⟨r, r1, r2⟩ := Res.bind_eq_ok.1 e
      rw [← congrArg (fun z : (Lib × FS) × List Nat × List K => z.1.1.cc) (Res.ok.inj r2)]
      exact (retrieve_clean h.2 r1).clean
  null := hL.null

end Verif.Green
