import Verif.Rebuild.Whole
import Verif.Dist.Props29
/-
C32: `RebuildChunks` with the cylindrical boundary condition.
-/
namespace Verif.Rebuild
open Verif Verif.ND Verif.Dist Verif.Tree Verif.NullSup

variable {C : Cfg} {S : Sorter} {Z : SlabSize}

theorem chunkAt_ok (hC : C.Ok) {lib : Lib} {fs : FS} {cs : List (Meta × Arr)} (h : LInv C S Z lib fs cs) {c : Meta × Arr} (hc : c ∈ cs) {i : List Nat}
    (hi : InBox c.1.start c.1.stop i) : ∃ lib' fs' a, chunkAt C lib fs i = .ok (lib', fs', c.1, a) ∧ AEq C.vd c.2 a := by
  obtain ⟨k, hk⟩ := List.getElem?_of_mem hc
  have hpl := h.chunky.placed c hc
  have ho := h.chunky.onlyAt hk hi
  obtain ⟨t, e1, e2⟩ := h.idx.getChunk_ok hC (hpl.point hi) (i := k) (m := c.1) (by rw [List.getElem?_map, hk]; rfl) ho
  obtain ⟨s, hs⟩ := h.cache
  obtain ⟨cc', fs', s', b, f1, f2, f3, f4, f5, f6⟩ := retrieve_ok hC h.chunky.ok hs (m := c.1) (a := c.2) (h.lookup hc)
  refine ⟨⟨cc', { lib.idx with tree := t, valid := false }⟩, fs', b, ?_, f5⟩
  unfold chunkAt
  rw [e1]
  simp only [Res.ok_bind]
  rw [f1]
  rfl

theorem VEq.replace {ps : List Piece} {i v w : List Nat} (h : ValueAt ps i v) (e : VEq v w) : ValueAt ps i w := by
  obtain ⟨p, h1, h2, h3⟩ := h
  exact ⟨p, h1, h2, h3.trans e⟩

/-- **C32** (part).  After any sequence of allowed calls that leaves a library whose chunks fill a box `[0, ge)`, `RebuildChunks` with the cylindrical boundary
    condition succeeds. Afterwards:
    * the chunks form the regular grid with the requested chunk size (`BoxOK`: they start at multiples of the requested size and are cut off at the end of the
      array), are disjoint and cover exactly the array;
    * every element has the value it had before, and all further calls on the library give the right answers;
    * around each index `i` the padded chunk that contains it (as the interpolation gets it) either is stored, has the requested padding and holds, at each index
      `j` of the padded chunk, what `PadValue` says; or, only if zero suppression is switched on, it is recorded as "all zero", and `PadValue` asks for zero at
      each index of the padded chunk.
    Missing: the corners of the padding where `|r|` is not an index of the array in `r` or another coordinate is outside (see
    `C32_corner_padding_is_stale`); evaluators other than the cylindrical one; file names that `generate` repeats; libraries with another streamer chunk
    size; `operator[]` on padded chunks of zeros afterwards (`C30_padded_null_aborts`; excluded by `AllLegal C w' more`). -/
theorem C32_rebuild_partial (C : Cfg) (hC : C.Ok) (hchunk : C.chunk = (outCfg C).chunk) (hj : ∀ k, C.junk k < 2 ^ 32) (S : Sorter) (Z : SlabSize) (fs : FS)
    (hfs : ∀ d, fs (d, .index) = none) (ops : List LOp) (hl : AllLegal C (World.init fs) ops) (l : LibSpec) (hcur : ((World.init fs).run C ops).cur = some l)
    (ge req : List Nat) (tmp overlap : Nat) (opt : Bool) (uuid : Nat → List Nat) (hr : CanRebuild C ((World.init fs).run C ops) l ge req tmp overlap uuid) :
    ∃ st outs lib lib' fs' w' ps, MState.run C S ⟨none, fs⟩ ops = .ok (st, outs) ∧ st.lib = some lib ∧
      rebuild C S (cylindrical C.vd) uuid lib st.fs req tmp overlap opt = .ok (lib', fs') ∧
      -- the chunks
      w'.cur = some ⟨l.dir, l.next + ps.length, ps⟩ ∧ w'.disk = ((World.init fs).run C ops).disk ∧
      (∀ p ∈ ps, BoxOK (List.replicate C.dims 0) ge req p.start p.stop ∧ p.overlap = overlap) ∧ (∀ i, InBox (List.replicate C.dims 0) ge i ↔ Covered ps i) ∧
      ps.Pairwise (fun p q => DisjointBox p.start p.stop q.start q.stop) ∧
      -- the values
      (∀ p' ∈ ps, ∀ p ∈ l.pieces, ∀ i, InBox p.start p.stop i → InBox p'.start p'.stop i → p'.val i = p.val i) ∧
      (∀ more, AllLegal C w' more → ∃ st' outs', MState.run C S ⟨some lib', fs'⟩ more = .ok (st', outs') ∧ AllAnswer C w' more outs') ∧
      -- the padding
      (∀ i, InBox (List.replicate C.dims 0) ge i → ∃ lib'' fs'' m a, chunkAt C lib' fs' i = .ok (lib'', fs'', m, a) ∧ InBox m.start m.stop i ∧
        BoxOK (List.replicate C.dims 0) ge req m.start m.stop ∧ m.overlap = overlap ∧
        ((m.ctype = .specified ∧ a.shape = (subVec m.stop m.start).map (· + 2 * overlap) ∧
          ∀ j, InBoxZ (padStart m.start overlap) (padEnd m.stop overlap) j →
            ∃ v, a.get C.vd (loc (padStart m.start overlap) j) = .ok v ∧ PadValue C.vd l.pieces ge j v) ∨
         (m.ctype = .all_null ∧ opt = true ∧
          ∀ j, InBoxZ (padStart m.start overlap) (padEnd m.stop overlap) j → PadValue C.vd l.pieces ge j (List.replicate C.vd 0)))) := by
  obtain ⟨st, outs, e1, e2, e3⟩ := runW_ok hC ops (WInv.init (S := S) (Z := Z) hfs) hl
  obtain ⟨lib, lib', fs', cs', w', ps, r1, r2, r3, r4, r5, r6, r7, r8, r9, r10, r11, r12⟩ := rebuild_ok hC hchunk hj e3 hcur hr
  refine ⟨st, outs, lib, lib', fs', w', ps, e1, r1, r2, r5, r6, r8, r9, r10, r11, fun more hm => ?_, fun i hi => ?_⟩
  · obtain ⟨st', outs', f1, f2, _⟩ := runW_ok hC more r4 hm
    exact ⟨st', outs', f1, f2⟩
  · obtain ⟨p, hp, hpi⟩ := (r9 i).1 hi
    obtain ⟨c, hc, hrc⟩ := r7.rightMem hp
    have hci : InBox c.1.start c.1.stop i := by rw [hrc.start, hrc.stop]; exact hpi
    obtain ⟨lib'', fs'', a, g1, g2⟩ := chunkAt_ok hC r3 hc hci
    obtain ⟨q2, q3, a₀, q1, qs, qn, q4⟩ := r12 c hc
    refine ⟨lib'', fs'', c.1, a, g1, hci, q3, q2, ?_⟩
    cases hct : c.1.ctype with
    | all_null =>
      obtain ⟨ho, hz⟩ := qn hct
      refine Or.inr ⟨rfl, ho, fun j hj => ?_⟩
      obtain ⟨v, vl, v1, v2⟩ := q4 j hj
      have hz' : VEq v (List.replicate C.vd 0) := by
        unfold Arr.null at hz
        rw [List.all_eq_true] at hz
        refine Or.inr ⟨by simp [vl], fun x hx => floatNull_iff.1 (hz x (get_subset v1 x hx)), fun x hx => ?_⟩
        rw [(List.mem_replicate.1 hx).2]; exact Or.inl rfl
      exact ⟨fun h => VEq.replace (v2.inside h) hz', fun h h' => (v2.outside h h').trans hz', fun h h' => VEq.replace (v2.mirrored h h') hz'⟩
    | specified =>
    have q5 := qs hct
    subst q5
    refine Or.inl ⟨rfl, by rw [← g2.1]; exact q1, fun j hj => ?_⟩
    obtain ⟨v, _, v1, v2⟩ := q4 j hj
    have hvalid : ValidInd c.2.shape (loc (padStart c.1.start overlap) j) := by
      have := valid_loc hj
      have hpl := r3.chunky.placed c hc
      rw [show c.2.shape = extents (padStart c.1.start overlap) (padEnd c.1.stop overlap) from ?_]
      · exact this
      · have l1 := hpl.startLen
        have l2 := hpl.stopLen
        rw [q1]
        apply ext_getD
        · simp [extents, padStart, padEnd, subVec, l1, l2]
        · intro d hd
          have hd : d < C.dims := by simpa [subVec, l1, l2] using hd
          rw [getD_extents (by simp [padStart, padEnd, l1, l2]), getD_padStart (by omega), getD_padEnd (by omega)]
          have hl : d < (subVec c.1.stop c.1.start).length := by rw [length_subVec (by omega)]; omega
          rw [List.getD_eq_getElem?_getD (l := List.map _ _), List.getElem?_map, List.getElem?_eq_getElem hl]
          have hg := getD_subVec (a := c.1.stop) (b := c.1.start) (by omega) d
          rw [List.getD_eq_getElem?_getD, List.getElem?_eq_getElem hl] at hg
          simp only [Option.map_some, Option.getD_some] at hg ⊢
          have := hpl.getD_stop d
          rw [hg]; omega
    obtain ⟨u, u', k1, k2, k3⟩ := g2.2 _ hvalid
    rw [v1] at k1; cases k1
    exact ⟨u', k2, fun h => VEq.replace (v2.inside h) k3, fun h h' => (v2.outside h h').trans k3, fun h h' => VEq.replace (v2.mirrored h h') k3⟩

namespace Ex
open Verif.Dist.Ex

/-- Two-dimensional chunks of single numbers, with the streamer chunk size used throughout Eisvogel. -/
def cfgI (size : Nat) : Cfg := ⟨.little, 1, 2, [1, 2 ^ 64 - 1], size, fun _ => 77⟩

theorem cfgI_ok (size : Nat) : (cfgI size).Ok := by
  refine ⟨Nat.one_pos, Nat.two_pos, rfl, ?_, ?_, by show 1 < 2 ^ 63; decide⟩
  · show ∀ x ∈ [1, 2 ^ 64 - 1], x < 2 ^ 64
    decide
  · show ∀ x ∈ [1, 2 ^ 64 - 1], 0 < x
    decide

theorem fitI {size n m : Nat} (hn : n < 1000) (hm : m < 1000) : Storable (cfgI size) [n, m] := by
  have h : n * m ≤ 1000 * 1000 := Nat.mul_le_mul (by omega) (by omega)
  refine ⟨rfl, ?_, ?_, ?_⟩
  · intro x hx; rcases List.mem_cons.1 hx with rfl | hx
    · omega
    · rw [List.mem_singleton] at hx; omega
  · show volume 1 [n, m] < 2 ^ 62
    rw [volume_cons]
    simp only [prod, Nat.mul_one]; omega
  · show numElems [m] < 2 ^ 32
    simp only [numElems_eq, prod]; omega

theorem canRegisterI {size : Nat} {l : LibSpec} {uuid : List Nat} {n m x y : Nat} {b : List Nat} {opt : Bool} (hn : 0 < n ∧ n < 1000) (hm : 0 < m ∧ m ≤ 8)
    (hb : b.length = n * m) (hbits : ∀ w ∈ b, w < 2 ^ 32) (hx : x < 1000) (hy : y < 1000) (hu : uuid ≠ [] ∧ uuid.length < 2 ^ 64)
    (hp : ∀ p ∈ l.pieces, Sep p.start p.stop [x, y] [x + n, y + m] ∧ p.file ≠ uuid ∧ p.id ≠ l.next) (hnx : l.next < 1000) :
    CanRegister (cfgI size) l uuid ⟨[n, m], b⟩ [x, y] [x + n, y + m] 0 opt := by
  have hfit : Fit (cfgI size) [n, m] := by
    have := (fitI (size := size) (n := n) (m := m) hn.2 (by omega)).fit (cfgI_ok size)
    exact ⟨this.len, this.lt, this.vol, this.div0, this.fit, this.below⟩
  refine ⟨⟨hfit, ?_, hbits⟩, rfl, rfl, ?_, by decide, ?_, fun p h => (hp p h).1.disjoint, ⟨hu.1, hu.2, fun p h => (hp p h).2.1⟩, fun _ _ => Or.inl rfl,
    fun p h => (hp p h).2.2, by omega⟩
  · show b.length = volume 1 [n, m]
    rw [volume_cons, hb]; simp [prod]
  · intro d hd
    have hd : d < 2 := hd
    rcases d with _ | _ | d
    · show x < x + n ∧ x + n < 2 ^ 62; omega
    · show y < y + m ∧ y + m < 2 ^ 62; omega
    · omega
  · show [n, m] = [x + n - x + 2 * 0, y + m - y + 2 * 0]
    congr 1
    · omega
    · congr 1; omega

/-- Two chunks that fill `[0, 2) x [0, 4)`: the array is (1 2 1 2 / 3 4 3 4). -/
def full : List LOp := [.open 0 [1, 1], .register [65] a0 [0, 0] [2, 2] 0 false, .register [66] a0 [0, 2] [2, 4] 0 false]

theorem full_legal : AllLegal (cfgI 1) (World.init fun _ => none) full := by
  refine ⟨⟨rfl, by decide⟩, ⟨_, rfl, canRegisterI (n := 2) (m := 2) (x := 0) (y := 0) (by decide) (by decide) rfl (by decide) (by decide) (by decide) (by decide)
      (fun p hp => by cases hp) (by decide)⟩,
    ⟨_, rfl, canRegisterI (n := 2) (m := 2) (x := 0) (y := 2) (by decide) (by decide) rfl (by decide) (by decide) (by decide) (by decide)
      (fun p hp => ?_) (by decide)⟩, trivial⟩
  rcases List.mem_cons.1 hp with rfl | hp
  · exact ⟨⟨1, by decide, Or.inl (by decide)⟩, by decide, by decide⟩
  · cases hp

/-- The library after `full`. -/
def lib : LibSpec := ⟨0, 2, [newPiece (cfgI 1) 0 [65] a0 [0, 0] [2, 2] 0 false, newPiece (cfgI 1) 1 [66] a0 [0, 2] [2, 4] 0 false]⟩

def uuid (k : Nat) : List Nat := List.replicate (k % 2 ^ 60 + 1) 67 ++ [k]

/-- The array can be rebuilt into chunks of 2 x 3 elements with padding 1. -/
theorem canRebuild : CanRebuild (cfgI 1) ((World.init fun _ => none).run (cfgI 1) full) lib [2, 4] [2, 3] 9 1 uuid := by
  have hlt2 : ∀ {P : Nat → Prop}, P 0 → P 1 → ∀ d < 2, P d := fun h0 h1 d hd => by
    rcases d with _ | _ | d
    · exact h0
    · exact h1
    · omega
  refine ⟨⟨rfl, rfl, ?_, ?_, ?_⟩, fun i hi => ?_, hlt2 (by decide) (by decide), rfl, hlt2 (by decide) (by decide), fun b e hb => ?_, by decide, fun k => ⟨?_, ?_, ?_⟩, by decide, rfl⟩
  · refine hlt2 ?_ ?_ <;>
    · intro p hp
      rcases List.mem_cons.1 hp with rfl | hp
      · decide
      · rw [List.mem_singleton] at hp; subst hp; decide
  · exact hlt2 ⟨_, List.mem_cons_self, rfl⟩ ⟨_, List.mem_cons_self, rfl⟩
  · exact hlt2 ⟨_, List.mem_cons_self, rfl⟩ ⟨_, List.mem_cons_of_mem _ List.mem_cons_self, rfl⟩
  · have h1 : i.length = 2 := hi.1
    have a0' := hi.2.2 0 (by omega)
    have a1' := hi.2.2 1 (by omega)
    have b0 : i.getD 0 0 < 2 := a0'.2
    have b1 : i.getD 1 0 < 4 := a1'.2
    by_cases hc : i.getD 1 0 < 2
    · refine ⟨_, List.mem_cons_self, h1, h1, ?_⟩
      rw [h1]
      exact hlt2 ⟨Nat.zero_le _, b0⟩ ⟨Nat.zero_le _, hc⟩
    · refine ⟨_, List.mem_cons_of_mem _ List.mem_cons_self, h1, h1, ?_⟩
      rw [h1]
      exact hlt2 ⟨Nat.zero_le _, b0⟩ ⟨by show 2 ≤ _; omega, b1⟩
  · obtain ⟨l1, l2, h3⟩ := hb
    have l1 : b.length = 2 := l1
    have l2 : e.length = 2 := l2
    match b, e, l1, l2 with
    | [b0, b1], [e0, e1], _, _ =>
      have h0 := (h3 0 (by decide)).2.2.1
      have h1 := (h3 1 (by decide)).2.2.1
      have h0 : e0 ≤ 2 := h0
      have h1 : e1 ≤ 4 := h1
      exact fitI (n := e0 - b0 + 2 * 1) (m := e1 - b1 + 2 * 1) (by omega) (by omega)
  · unfold uuid; simp
  · unfold uuid
    rw [List.length_append, List.length_replicate, List.length_singleton]
    have := Nat.mod_lt k (y := 2 ^ 60) (by decide)
    omega
  · intro j hjk e
    have := congrArg List.getLast? e
    unfold uuid at this
    simp at this
    exact hjk this

/-- The conditions of `C32_rebuild_partial` hold for this library: all its conclusions follow. -/
example : ∃ st outs lib₀ r, MState.run (cfgI 1) Tree.Ex.S ⟨none, fun _ => none⟩ full = .ok (st, outs) ∧ st.lib = some lib₀ ∧
    rebuild (cfgI 1) Tree.Ex.S (cylindrical 1) uuid lib₀ st.fs [2, 3] 9 1 false = .ok r := by
  obtain ⟨st, outs, lib₀, lib', fs', _, _, h1, h2, h3, _⟩ := C32_rebuild_partial (cfgI 1) (cfgI_ok 1) rfl (fun _ => (by show 77 < 2 ^ 32; decide)) Tree.Ex.S Tree.Ex.Z
    (fun _ => none) (fun _ => rfl) full full_legal lib rfl [2, 4] [2, 3] 9 1 false uuid canRebuild
  exact ⟨st, outs, lib₀, _, h1, h2, h3⟩

/-- The padded chunk around `i` after `full` and `RebuildChunks`. -/
def rebuilt (i : List Nat) : Res (List Nat × List Nat × Arr) :=
  (MState.run (cfgI 1) Tree.Ex.S ⟨none, fun _ => none⟩ full).bind fun r =>
  match r.1.lib with
  | none => .ub
  | some lib => (rebuild (cfgI 1) Tree.Ex.S (cylindrical 1) uuid lib r.1.fs [2, 3] 9 1 false).bind fun q =>
    (chunkAt (cfgI 1) q.1 q.2 i).bind fun c => .ok (c.2.2.1.start, c.2.2.1.stop, c.2.2.2)

/-- Zero suppression: the array (1 2 / 3 4 / 0 0 / 0 0 / 0 0 / 0 0) in one chunk, rebuilt into chunks of 2 x 2 elements with padding 1. -/
def tall : List LOp := [.open 0 [1, 1], .register [65] ⟨[6, 2], [1, 2, 3, 4, 0, 0, 0, 0, 0, 0, 0, 0]⟩ [0, 0] [6, 2] 0 false]

/-- Chunk type, box and array of the chunk around `i`. -/
def rebuiltNull (i : List Nat) : Res (CType × List Nat × List Nat × Arr) :=
  (MState.run (cfgI 1) Tree.Ex.S ⟨none, fun _ => none⟩ tall).bind fun r =>
  match r.1.lib with
  | none => .ub
  | some lib => (rebuild (cfgI 1) Tree.Ex.S (cylindrical 1) uuid lib r.1.fs [2, 2] 9 1 true).bind fun q =>
    (chunkAt (cfgI 1) q.1 q.2 i).bind fun c => .ok (c.2.2.1.ctype, c.2.2.1.start, c.2.2.1.stop, c.2.2.2)

/-- The chunk `[2, 4)` has the elements 3 and 4 in its padding and is stored; the chunk `[4, 6)` is recorded as "all zero". -/
example : rebuiltNull [3, 1] = .ok (.specified, [2, 0], [4, 2], ⟨[4, 4], [0, 3, 4, 0,  0, 0, 0, 0,  0, 0, 0, 0,  0, 0, 0, 0]⟩) := by decide +kernel
example : rebuiltNull [5, 1] = .ok (.all_null, [4, 0], [6, 2], ⟨[2, 2], [0, 0, 0, 0]⟩) := by decide +kernel

/-- The conditions of `C32_rebuild_partial` hold for `full` with zero suppression, too. -/
example : ∃ st outs lib₀ r, MState.run (cfgI 1) Tree.Ex.S ⟨none, fun _ => none⟩ full = .ok (st, outs) ∧ st.lib = some lib₀ ∧
    rebuild (cfgI 1) Tree.Ex.S (cylindrical 1) uuid lib₀ st.fs [2, 3] 9 1 true = .ok r := by
  obtain ⟨st, outs, lib₀, lib', fs', _, _, h1, h2, h3, _⟩ := C32_rebuild_partial (cfgI 1) (cfgI_ok 1) rfl (fun _ => (by show 77 < 2 ^ 32; decide)) Tree.Ex.S Tree.Ex.Z
    (fun _ => none) (fun _ => rfl) full full_legal lib rfl [2, 4] [2, 3] 9 1 true uuid canRebuild
  exact ⟨st, outs, lib₀, _, h1, h2, h3⟩

end Ex

/-- **C32, negation.** The array (1 2 1 2 / 3 4 3 4), rebuilt into chunks of 2 x 3 elements with padding 1. The padded chunk for `[0, 2) x [0, 3)` has at the corner
    `(-1, -1)` whatever was in the uninitialised memory of the buffer (here 77); the padded chunk for `[0, 2) x [3, 4)` has at the corner `(-1, 4)` a number that
    was left in the buffer by the first chunk (here 1). The boundary condition asks for zero: `(1, -1)` and `(1, 4)` are outside of the array. -/
theorem C32_corner_padding_is_stale : AllLegal (Ex.cfgI 1) (World.init fun _ => none) Ex.full ∧
    CanRebuild (Ex.cfgI 1) ((World.init fun _ => none).run (Ex.cfgI 1) Ex.full) Ex.lib [2, 4] [2, 3] 9 1 Ex.uuid ∧
    Ex.rebuilt [0, 0] = .ok ([0, 0], [2, 3], ⟨[4, 5],
      [77, 3, 4, 3, 4,
       0,  1, 2, 1, 2,
       0,  3, 4, 3, 4,
       0,  0, 0, 0, 0]⟩) ∧
    Ex.rebuilt [1, 3] = .ok ([0, 3], [2, 4], ⟨[4, 3], [3, 4, 1,  1, 2, 0,  3, 4, 0,  0, 0, 0]⟩) :=
  ⟨Ex.full_legal, Ex.canRebuild, by decide +kernel, by decide +kernel⟩

end Verif.Rebuild
