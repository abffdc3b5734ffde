import Verif.Green.Create
/-
Proofs about `create` and `load`.
-/
namespace Verif.Green
open Verif Verif.ND Verif.Dist Verif.Tree Verif.Bytes

variable {C : Cfg} {S : Sorter} {Z : SlabSize}

theorem withSize_ok (hC : C.Ok) (n : Nat) : Cfg.Ok { C with size := n } := ⟨hC.vd, hC.dims, hC.len, hC.small, hC.pos, hC.first⟩

theorem _root_.Verif.Dist.Saved.withSize {n : Nat} {fs : FS} {d : Nat} {cs : List (Meta × Arr)} (h : Saved C fs d cs) : Saved { C with size := n } fs d cs := by
  have h' : Saved { ({ C with size := n } : Cfg) with size := C.size } fs d cs := h
  exact Rebuild.Saved.size h'

/-- Opening a saved library with the short constructor. -/
theorem open_reader (hC : C.Ok) {fs : FS} {dir : Nat} {cs : List (Meta × Arr)} (h : Saved C fs dir cs) (hn : cs.length < 2 ^ 64) (n : Nat) (init : List Nat) :
    ∃ g, Lib.open (readerCfg C n) S fs dir init = .ok g ∧ g.idx.dir = dir ∧ g.cc.Clean ∧ LInv { C with size := n } S Z g fs cs := by
  have hs := h.withSize (n := n)
  obtain ⟨g, e1, e2, _, e4⟩ := open_ok (S := S) (Z := Z) (withSize_ok hC n) hs.chunky hn hs.index hs.disk init
  exact ⟨g, e1, e2, (open_clean e1).1, e4⟩

theorem destroy_reader (hC : C.Ok) {fs : FS} {dir : Nat} {cs : List (Meta × Arr)} (h : fs (dir, .index) = some (indexFile C (cs.map Prod.fst))) {n : Nat} {g : Lib} (hd : g.idx.dir = dir) (hc : g.cc.Clean)
    (hg : LInv { C with size := n } S Z g fs cs) : g.destroy (readerCfg C n) fs = .ok fs := by
  obtain ⟨fs', e1, e2, _⟩ := destroy_ok (withSize_ok hC n) hg
  have e : g.destroy (readerCfg C n) fs = g.destroy { C with size := n } fs := destroy_chunk (C := { C with size := n }) hc
  rw [e, e1]
  congr 1
  unfold Lib.destroy at e1
  obtain ⟨q, q1, q2⟩ := Res.bind_eq_ok.1 e1
  unfold Index.flush at q2
  obtain ⟨ms, _, q3⟩ := Res.bind_eq_ok.1 q2
  cases q3
  funext p
  by_cases hp : p = (dir, .index)
  · subst hp
    have h1 := e2.index
    show FS.set _ _ _ _ = _
    rw [hd] at h1 ⊢
    refine Eq.trans h1 ?_
    rw [h]; rfl
  · show FS.set _ _ _ _ = _
    unfold FS.set
    rw [if_neg (by rw [hd]; exact hp), (flush_clean hc q1).fs]

/-- `create`, for a library in any state. -/
theorem create_lib (hC : C.Ok) {lib : Lib} {fs : FS} {cs : List (Meta × Arr)} (h : LInv C S Z lib fs cs) (hn : cs.length < 2 ^ 64) (gm : GFMeta) (green : Nat → Option (List Nat)) :
    ∃ q fs2, lib.flush C fs = .ok q ∧ q.1.idx.dir = lib.idx.dir ∧ LInv C S Z q.1 q.2 cs ∧ q.1.destroy C q.2 = .ok fs2 ∧ Saved C fs2 lib.idx.dir cs ∧
      create C S gm lib ⟨fs, green⟩ = .ok ⟨fs2, upd green lib.idx.dir (some ((gfMeta C.hst).ser gm))⟩ := by
  obtain ⟨lib', fs', e1, e2, e3, e4, _⟩ := flushLib_ok hC h
  obtain ⟨fs2, f1, f2, _⟩ := destroy_ok hC e2
  rw [e3] at f2
  obtain ⟨g, g1, g2, g3, g4⟩ := open_reader (S := S) (Z := Z) hC e4 hn 1 (readerShape C)
  refine ⟨(lib', fs'), fs2, e1, by rw [e3], e2, f1, f2, ?_⟩
  unfold create
  rw [e1]
  simp only [Res.ok_bind]
  rw [e3, g1]
  simp only [Res.ok_bind]
  rw [destroy_reader hC e4.index g2 g3 g4]
  simp only [Res.ok_bind]
  rw [f1]
  rfl

end Verif.Green
