import Verif.Dist.LibRead
/-
Appending to a chunk of the library, flushing, closing and reopening it.
-/
namespace Verif.Dist
open Verif Verif.ND Verif.Tree Verif.Bytes Verif.Stream Verif.NullSup

variable {C : Cfg} {S : Sorter} {Z : SlabSize}

/-! ### AppendSlice along the first axis -/

/-- Conditions for appending `v` to chunk number `k`. -/
structure AppOk (C : Cfg) (cs : List (Meta × Arr)) (k : Nat) (m : Meta) (a : Arr) (start : List Nat) (v : Arr) : Prop where
  at_ : cs[k]? = some (m, a)
  ctype : m.ctype = .specified
  overlap : m.overlap = 0
  start : start = m.start.set 0 (m.stop.getD 0 0)
  arr : v.Ok C
  ext : Extends C a v
  lt : m.stop.getD 0 0 + v.shape.getD 0 0 < 2 ^ 62
  disj : ∀ j c, cs[j]? = some c → j ≠ k → DisjointBox c.1.start c.1.stop m.start (m.stop.set 0 (m.stop.getD 0 0 + v.shape.getD 0 0))

theorem getD_set0 {l : List Nat} {x : Nat} (h : 0 < l.length) (d : Nat) : (l.set 0 x).getD d 0 = if d = 0 then x else l.getD d 0 := by
  rw [List.getD_eq_getElem?_getD, List.getD_eq_getElem?_getD, List.getElem?_set]
  by_cases hd : d = 0
  · subst hd; simp [h]
  · rw [if_neg hd, if_neg (fun e => hd e.symm)]

theorem grow_placed (hC : C.Ok) {m : Meta} {a v : Arr} (hp : Placed C m a) (h0 : m.overlap = 0) (hv : v.Ok C)
    (hlt : m.stop.getD 0 0 + v.shape.getD 0 0 < 2 ^ 62) : Placed C (m.grow 0 (v.shape.getD 0 0)) (a.cat v) := by
  have hU : U64 = 2 ^ 64 := rfl
  have kd := hC.dims
  have h1 := hp.startLen
  have h2 := hp.shapeLen
  have h3 := hp.stopLen
  have h4 := hp.getD_stop 0
  have e1 : (m.grow 0 (v.shape.getD 0 0)).stop = m.stop.set 0 (m.stop.getD 0 0 + v.shape.getD 0 0) := by
    show bump m.stop 0 _ = _
    unfold bump; rw [wadd_eq (by omega)]
  have e2 : (m.grow 0 (v.shape.getD 0 0)).shape = m.shape.set 0 (m.shape.getD 0 0 + v.shape.getD 0 0) := by
    show bump m.shape 0 _ = _
    unfold bump; rw [wadd_eq (by omega)]
  refine ⟨h1, by rw [e2, List.length_set]; exact h2, fun d hd => ?_, ?_, fun d hd => ?_, hp.ovl, hp.offset, ?_, hp.id, hp.path⟩
  · rw [e2, getD_set0 (by omega)]
    split
    · have := hp.pos 0 kd; omega
    · exact hp.pos d hd
  · rw [e1, e2]
    show _ = addVec m.start _
    apply ext_getD
    · simp [addVec, h1, h2, h3]
    · intro d _
      rw [getD_set0 (by omega), getD_addVec (by rw [List.length_set]; omega), getD_set0 (by omega)]
      have := hp.getD_stop d
      split
      · rename_i h; subst h; omega
      · exact this
  · rw [e1, getD_set0 (by omega)]
    split
    · omega
    · exact hp.lt d hd
  · have : a.shape = m.shape := by rw [hp.arr, padOf_zero h0]; simp
    rw [e2]
    show a.shape.set 0 _ = (m.shape.set 0 _).map (· + 2 * padOf m)
    rw [this, padOf_zero h0]; simp

theorem append_ok (hC : C.Ok) {lib : Lib} {fs : FS} {cs : List (Meta × Arr)} (h : LInv C S Z lib fs cs) {k : Nat} {m : Meta} {a v : Arr} {start : List Nat}
    (ha : AppOk C cs k m a start v) :
    ∃ lib' fs', lib.append C 0 fs start v = .ok (lib', fs') ∧ LInv C S Z lib' fs' (cs.set k (m.grow 0 (v.shape.getD 0 0), a.cat v)) ∧
      lib'.idx.nextId = lib.idx.nextId ∧ lib'.idx.dir = lib.idx.dir ∧ SameBut lib.idx.dir (chunksOf cs) fs fs' := by
  have hU : U64 = 2 ^ 64 := rfl
  have kd := hC.dims
  have hmem : (m, a) ∈ cs := List.mem_of_getElem? ha.at_
  have hp : Placed C m a := h.chunky.placed _ hmem
  have h1 := hp.startLen
  have h3 := hp.stopLen
  have hpos := hp.pos 0 kd
  have hst := hp.getD_stop 0
  have hlt := hp.lt 0 kd
  let p := m.start.set 0 (m.stop.getD 0 0 - 1)
  have hpe : start.set 0 (wsub (start.getD 0 0) 1) = p := by
    rw [ha.start, getD_set0 (by omega), if_pos rfl, wsub_eq (by omega) (by omega), List.set_set]
  have hin : InBox m.start m.stop p := by
    refine ⟨by simp [p], by simp [p, h1, h3], fun d hd => ?_⟩
    have hd : d < C.dims := by simpa [p, h1] using hd
    rw [show p.getD d 0 = _ from getD_set0 (by omega) d]
    have := hp.pos d hd
    have := hp.getD_stop d
    split
    · rename_i e; subst e; omega
    · omega
  have ho := h.chunky.onlyAt ha.at_ hin
  have hmk : (cs.map Prod.fst)[k]? = some m := by rw [List.getElem?_map, ha.at_]; rfl
  obtain ⟨t, e1, e2⟩ := h.idx.getChunk_ok hC (hp.point hin) hmk ho
  obtain ⟨s, hs⟩ := h.cache
  have hsh : m.shape = a.shape := by rw [hp.arr, padOf_zero ha.overlap]; simp
  obtain ⟨cc', fs', s', f1, f2, f3, f4, f5⟩ := appendChunk_ok hC h.chunky.ok hs (m := m) (a := a) (v := v) (h.lookup hmem) ha.ctype hsh ha.arr ha.ext
  have hp' := grow_placed hC hp ha.overlap ha.arr ha.lt
  have hstop' : (m.grow 0 (v.shape.getD 0 0)).stop = m.stop.set 0 (m.stop.getD 0 0 + v.shape.getD 0 0) := by
    show bump m.stop 0 _ = _
    have := ha.lt
    unfold bump; rw [wadd_eq (by omega)]
  obtain ⟨t', g1, g2⟩ := e2.grow_ok hC (hp.point hin) hmk ho (m' := m.grow 0 (v.shape.getD 0 0)) hp'.isBox (by
    intro d hd
    refine ⟨Nat.le_refl _, ?_⟩
    rw [hstop', getD_set0 (by omega)]
    split
    · rename_i e; subst e; omega
    · exact Nat.le_refl _)
  have hset : chunksOf (cs.set k (m.grow 0 (v.shape.getD 0 0), a.cat v)) = (chunksOf cs).put m.id (some (m.grow 0 (v.shape.getD 0 0), a.cat v)) :=
    chunksOf_set h.chunky.ids ha.at_ rfl
  have hmap : (cs.set k (m.grow 0 (v.shape.getD 0 0), a.cat v)).map Prod.fst = (cs.map Prod.fst).set k (m.grow 0 (v.shape.getD 0 0)) := by
    rw [List.map_set]
  have hkl : k < cs.length := by
    rcases Nat.lt_or_ge k cs.length with h | h
    · exact h
    · have := ha.at_; rw [List.getElem?_eq_none h] at this; cases this
  refine ⟨⟨cc', { lib.idx with tree := t', heap := (cs.map Prod.fst).set k (m.grow 0 (v.shape.getD 0 0)), valid := false }⟩, fs', ?_,
    ⟨⟨?_, ?_, ?_, ?_⟩, ?_, f2.trans h.dir, ⟨s', ?_⟩, metaValid_false rfl⟩, rfl, rfl, ?_⟩
  · unfold Lib.append
    simp only
    rw [hpe, e1]
    simp only [Res.ok_bind]
    rw [if_neg (by rw [ha.ctype]; exact fun h => h rfl), f1]
    simp only [Res.ok_bind]
    rw [g1]; rfl
  · intro c hc
    rcases List.mem_or_eq_of_mem_set hc with hc | rfl
    · exact h.chunky.placed c hc
    · exact hp'
  · unfold Disj
    rw [List.pairwise_iff_getElem]
    intro i j hi hj hij
    rw [List.length_set] at hi hj
    have key : ∀ j' (hj' : j' < cs.length), j' ≠ k → DisjointBox cs[j'].1.start cs[j'].1.stop m.start (m.grow 0 (v.shape.getD 0 0)).stop := by
      intro j' hj' hne
      rw [hstop']
      exact ha.disj j' _ (List.getElem?_eq_getElem hj') hne
    rw [List.getElem_set, List.getElem_set]
    by_cases hik : k = i
    · rw [if_pos hik, if_neg (by omega)]
      exact DisjointBox.symm (key j hj (by omega))
    · rw [if_neg hik]
      by_cases hjk : k = j
      · rw [if_pos hjk]; exact key i hi (by omega)
      · rw [if_neg hjk]
        exact (List.pairwise_iff_getElem.1 h.chunky.disj) i j hi hj hij
  · rw [map_id_set (c' := (m.grow 0 (v.shape.getD 0 0), a.cat v)) ha.at_ rfl]; exact h.chunky.ids
  · rw [hset]; exact f4
  · rw [hmap]; exact g2
  · rw [hset]; exact f3
  · rw [← h.dir]; exact f5

/-! ### Flushing, closing and reopening -/

theorem LInv.frameIndex {lib : Lib} {fs fs' : FS} {cs : List (Meta × Arr)} (h : LInv C S Z lib fs cs)
    (hf : ∀ n, fs' (lib.idx.dir, .chunk n) = fs (lib.idx.dir, .chunk n)) : LInv C S Z lib fs' cs := by
  obtain ⟨s, hs⟩ := h.cache
  refine ⟨h.chunky, h.idx, h.dir, ⟨s, hs.rel, fun k e he => ?_, fun k m a hk hn => ?_⟩, h.valid⟩
  · obtain ⟨m, a, h1, h2⟩ := hs.cached k e he
    exact ⟨m, a, h1, h2.frame fun _ => by unfold absPath; rw [h.dir]; exact hf _⟩
  · exact (hs.disk k m a hk hn).frame fun _ => by unfold absPath; rw [h.dir]; exact hf _

theorem set_index_chunk (fs : FS) (dir dir' : Nat) (c) (n : List Nat) : fs.set (dir, .index) c (dir', .chunk n) = fs (dir', .chunk n) := by
  unfold FS.set; rw [if_neg (by intro e; cases e)]

theorem set_index_self (fs : FS) (p : FileId) (c) : fs.set p c p = c := by unfold FS.set; rw [if_pos rfl]

theorem sameBut_index {dir : Nat} {M : Chunks} {fs fs' : FS} (h : SameBut dir M fs fs') (d : Nat) : fs' (d, .index) = fs (d, .index) :=
  h _ fun k m a _ _ e => by unfold absPath at e; cases e

theorem index_flush_ok {x : Index} {ms : List Meta} (h : IdxInv C S Z x ms) (fs : FS) :
    x.flush C fs = .ok (fs.set (x.dir, .index) (some (indexFile C ms))) := by
  unfold Index.flush; rw [h.all_ok]; rfl

/-- The files on disk hold the library. -/
structure Saved (C : Cfg) (fs : FS) (dir : Nat) (cs : List (Meta × Arr)) : Prop where
  chunky : Chunky C cs
  index : fs (dir, .index) = some (indexFile C (cs.map Prod.fst))
  disk : ∀ k m a, chunksOf cs k = some (m, a) → OnDisk C dir fs m a

theorem flushLib_ok (hC : C.Ok) {lib : Lib} {fs : FS} {cs : List (Meta × Arr)} (h : LInv C S Z lib fs cs) :
    ∃ lib' fs', lib.flush C fs = .ok (lib', fs') ∧ LInv C S Z lib' fs' cs ∧ lib'.idx = lib.idx ∧ Saved C fs' lib.idx.dir cs ∧
      SameBut lib.idx.dir (chunksOf cs) (fs.set (lib.idx.dir, .index) (some (indexFile C (cs.map Prod.fst)))) fs' := by
  have h' := h.frameIndex (fs' := fs.set (lib.idx.dir, .index) (some (indexFile C (cs.map Prod.fst)))) (fun n => set_index_chunk _ _ _ _ _)
  obtain ⟨s, hs⟩ := h'.cache
  obtain ⟨cc', fs', e1, e2, e3, e4⟩ := flush_ok hC h.chunky.ok hs
  refine ⟨⟨cc', lib.idx⟩, fs', ?_, ⟨h.chunky, h.idx, e2.trans h.dir, ⟨[], e3⟩, h.valid⟩, rfl, ⟨h.chunky, ?_, fun k m a hk => ?_⟩, by rw [← h.dir] at e4 ⊢; exact e4⟩
  · unfold Lib.flush
    rw [index_flush_ok h.idx]
    simp only [Res.ok_bind]
    rw [e1]; rfl
  · rw [sameBut_index e4, set_index_self]
  · have := e3.disk k m a hk (by simp)
    rw [e2, h.dir] at this; exact this

theorem destroy_ok (hC : C.Ok) {lib : Lib} {fs : FS} {cs : List (Meta × Arr)} (h : LInv C S Z lib fs cs) :
    ∃ fs', lib.destroy C fs = .ok fs' ∧ Saved C fs' lib.idx.dir cs ∧
      ∀ p, p ≠ (lib.idx.dir, .index) → (∀ k m a, chunksOf cs k = some (m, a) → m.path ≠ [] → p ≠ absPath lib.idx.dir m) → fs' p = fs p := by
  obtain ⟨s, hs⟩ := h.cache
  obtain ⟨cc', fs', e1, e2, e3, e4⟩ := flush_ok hC h.chunky.ok hs
  refine ⟨fs'.set (lib.idx.dir, .index) (some (indexFile C (cs.map Prod.fst))), ?_, ⟨h.chunky, set_index_self _ _ _, fun k m a hk => ?_⟩, ?_⟩
  · unfold Lib.destroy
    rw [e1]
    simp only [Res.ok_bind]
    exact index_flush_ok h.idx _
  · have := e3.disk k m a hk (by simp)
    rw [e2, h.dir] at this
    exact this.frame fun _ => set_index_chunk _ _ _ _ _
  · intro p hp hne
    unfold FS.set
    rw [if_neg hp]
    exact e4 p (by rw [h.dir]; exact hne)

theorem reopen_ok (hC : C.Ok) {fs : FS} {dir : Nat} {cs : List (Meta × Arr)} (h : Saved C fs dir cs) (hn : cs.length < 2 ^ 64) (init : List Nat) :
    ∃ lib, Lib.open C S fs dir init = .ok lib ∧ lib.idx.dir = dir ∧ lib.idx.nextId = 0 ∧ LInv C S Z lib fs cs :=
  open_ok hC h.chunky hn h.index h.disk init

end Verif.Dist
