import Verif.Meep.Props61
/-
C62: does the result depend on the division of the calculation domain into simulation chunks?
-/
set_option linter.unusedSectionVars false
namespace Verif.Meep
open Verif Verif.ND Verif.Dist Verif.Tree Verif.Ops Verif.Rebuild

variable {K : Type} [Field K] [LinearOrder K] [IsStrictOrderedRing K]

/-! ### Specification -/

/-- `A` is an upper bound for the magnitudes up to step `n` at the index `i` and its neighbours in the padded domain. -/
def BoundsNear (X : Phys K) (p : Padded) (n : Nat) (i : List Nat) (A : K) : Prop :=
  0 ≤ A ∧ ∀ n' ≤ n, ∀ j, InBox p.start (addVec p.start p.shape) j → (∀ d < p.start.length, j.getD d 0 ≤ i.getD d 0 + 1 ∧ i.getD d 0 ≤ j.getD d 0 + 1) → X.mag n' j ≤ A

/-- The magnitude `B` was reached at the index `i` itself, up to step `n`. -/
def Reached (X : Phys K) (n : Nat) (i : List Nat) (B : K) : Prop := ∃ n' ≤ n, X.mag n' i = B

/-! ### Theorems -/

/-- **C62** (what holds). A sample that is within the dynamic range of the largest magnitude so far in its neighbourhood, and has been above the threshold, is stored; a sample that is outside of the
    dynamic range of a magnitude reached before at its own place, or in a neighbourhood that is below the threshold, is set to zero: both whatever the division into simulation chunks. -/
theorem C62_division_partial (X : Phys K) (C : Cfg) (T L ds N out : Nat) (cal start shape : List Nat) (fs : FS) (procs : List MProc) (p : Padded)
    (h : MeepOk X C T L ds N cal start shape out fs procs) (hdr : 0 < X.dr) {pad : Nat} (hp : padDomain cal start shape ds pad = .ok p)
    (n : Nat) (i u : List Nat) (hu : IsSample X p procs n i u) :
    (∀ A B, BoundsNear X p n i A → Reached X n i B → X.absMin < B → A / X.dr ≤ X.mag n i → u = (X.vec n i).map X.enc) ∧
    (∀ A, BoundsNear X p n i A → A ≤ X.absMin → u = [X.enc 0, X.enc 0]) ∧
    (∀ B, Reached X n i B → X.mag n i < B / X.dr → u = [X.enc 0, X.enc 0]) := by
  obtain ⟨P, hP, c, hc, hs, M, hM, u1, u2⟩ := hu
  obtain ⟨r, e, _, _, l1, l2, h3, _⟩ := C55_padding h.dom pad
  rw [hp] at e
  cases e
  have hpr : Range start.length p.start p.shape := ⟨l1, l2, fun d hd => by
    have := (h3 d hd).2.2.2.2
    have := h.dom.lt d hd
    omega⟩
  have hcr := (h.chunkFacts hP hc).range
  have hlow : ∀ B, Reached X n i B → B ≤ M := by
    rintro B ⟨n', h1, rfl⟩
    exact hM.upper n' h1 i hs fun _ _ => rfl
  have hupp : ∀ A, BoundsNear X p n i A → M ≤ A := by
    rintro A ⟨h0, h1⟩
    rcases hM.attained with h2 | ⟨n', h2, j, h4, h5, rfl⟩
    · rw [h2]; exact h0
    · refine h1 n' h2 j h4.2 fun d hd => ?_
      have h6 := h5 d hd
      have h7 := ((inBox_range hpr).1 hs.2).2 d (by omega)
      have h8 := ((inBox_range hcr).1 hs.1).2 d (by omega)
      have h9 := ((inBox_range hpr).1 h4.2).2 d (by omega)
      have h10 := ((inBox_range hcr).1 h4.1).2 d (by omega)
      omega
  refine ⟨fun A B hA hB h1 h2 => u1 ⟨lt_of_lt_of_le h1 (hlow B hB), le_trans (div_le_div_of_nonneg_right (hupp A hA) (le_of_lt hdr)) h2⟩,
    fun A hA h1 => u2 fun hsu => absurd (lt_of_lt_of_le hsu.1 (hupp A hA)) (not_lt.2 h1), fun B hB h1 => u2 fun hsu => ?_⟩
  exact absurd (le_trans (div_le_div_of_nonneg_right (hlow B hB) (le_of_lt hdr)) hsu.2) (not_le.2 h1)

/-! ### The division matters -/

namespace Ex62

/-- The calculation of `Ex61` with another division: one process with two chunks, which meet at the index 2 of the first axis. -/
def procs : List MProc := [⟨1, 2, fun n r b => [0, n, r, b], [Ex61.chunk 0 [1, 1] [3, 13], Ex61.chunk 1 [5, 1] [11, 13]]⟩]

theorem ok : MeepOk Ex61.X Ex45.cfg 2 2 2 2 [6, 7] [1, 2] [3, 4] 0 (fun _ => none) procs := by
  refine ⟨rfl, fun x => Nat.mod_lt _ (by decide), ?_, ?_, ?_, ?_, rfl, rfl, by decide, by decide, Ex57.ok.dom, by decide, ?_, ?_, ?_, ?_, ?_, fun _ _ _ => ⟨rfl, rfl⟩, fun _ => rfl, by decide, by decide⟩
  · intro P hP c hc
    obtain rfl : P = _ := by simpa [procs] using hP
    rcases (by simpa using hc : c = _ ∨ c = _) with rfl | rfl
    · exact ⟨Ex61.chunk_ok 0 (by decide) (by decide), by show ∀ d < 2, List.getD [3, 13] d 0 < 2 * ((List.getD [6, 7] d 0 : Nat) : Int); decide⟩
    · exact ⟨Ex61.chunk_ok 1 (by decide) (by decide), by show ∀ d < 2, List.getD [11, 13] d 0 < 2 * ((List.getD [6, 7] d 0 : Nat) : Int); decide⟩
  · intro P hP
    obtain rfl : P = _ := by simpa [procs] using hP
    decide
  · have h : (procs.flatMap fun P => P.chunks).Pairwise fun c c' => ∀ i ∈ elemLoop c.box.start (addVec c.box.start c.box.shape), i ∉ elemLoop c'.box.start (addVec c'.box.start c'.box.shape) := by decide +kernel
    exact h.imp fun {c c'} h1 i hi => h1 i (mem_elemLoop.2 hi.1) (mem_elemLoop.2 hi.2)
  · have h : ∀ i ∈ elemLoop [0, 0] [6, 7], ∃ P ∈ procs, ∃ c ∈ P.chunks, i ∈ elemLoop c.box.start (addVec c.box.start c.box.shape) := by decide +kernel
    intro i hi
    obtain ⟨P, hP, c, hc, h1⟩ := h i (mem_elemLoop.2 (inBox_zero_iff (s := [6, 7]).2 hi))
    exact ⟨P, hP, c, hc, mem_elemLoop.1 h1⟩
  · intro P hP n r b
    obtain rfl : P = _ := by simpa [procs] using hP
    exact ⟨by simp, by simp⟩
  · intro P hP n r b n' r' b' he
    obtain rfl : P = _ := by simpa [procs] using hP
    simpa using he
  · exact List.pairwise_singleton _ _
  · decide
  · decide

theorem sample : IsSample Ex61.X Ex57.pd procs 1 [1, 0] [0, 3] := by
  have hr : Range 2 Ex57.pd.start Ex57.pd.shape := ⟨rfl, rfl, by decide⟩
  have hc : Range 2 (Ex61.chunk 0 [1, 1] [3, 13]).box.start (Ex61.chunk 0 [1, 1] [3, 13]).box.shape := ⟨rfl, rfl, by decide⟩
  have ho : overlaps (Ex61.chunk 0 [1, 1] [3, 13]).box.start (Ex61.chunk 0 [1, 1] [3, 13]).box.shape Ex57.pd.start Ex57.pd.shape = true := by decide +kernel
  have e1 : (chunkOverlap (Ex61.chunk 0 [1, 1] [3, 13]).box.start (Ex61.chunk 0 [1, 1] [3, 13]).box.shape Ex57.pd.start Ex57.pd.shape).1 = [1, 0] := by decide +kernel
  have e2 : (chunkOverlap (Ex61.chunk 0 [1, 1] [3, 13]).box.start (Ex61.chunk 0 [1, 1] [3, 13]).box.shape Ex57.pd.start Ex57.pd.shape).2 = [1, 6] := by decide +kernel
  have hstored : ∀ i : List Nat, i ∈ elemLoop [0, 0] [2, 7] → i ∈ elemLoop [1, 0] [6, 6] → (Ex61.chunk 0 [1, 1] [3, 13]).StoredAt Ex57.pd i := fun i h1 h2 => ⟨mem_elemLoop.1 h1, mem_elemLoop.1 h2⟩
  have hp := isPeak_peakAt (X := Ex61.X) hr hc ho 1 (k := [0, 0]) (by rw [e2]; exact ⟨rfl, by decide⟩)
  rw [e1, e2] at hp
  have : peakAt Ex61.X 1 [1, 0] [1, 6] [0, 0] = 9 := by decide +kernel
  rw [this] at hp
  refine ⟨_, List.mem_cons_self, _, List.mem_cons_self, hstored _ (by decide +kernel) (by decide +kernel), 9, hp, fun _ => by decide +kernel, fun hs => ?_⟩
  exact absurd ⟨by decide +kernel, by decide +kernel⟩ hs

/-- The hypotheses of `C62_division_partial` are met: the sample at index (2, 0), which is the largest so far among its neighbours within a factor of two, is stored. -/
example : BoundsNear Ex61.X Ex57.pd 1 [2, 0] 49 ∧ Reached Ex61.X 1 [2, 0] 25 ∧ Ex61.X.absMin < 25 ∧ (49 : Rat) / Ex61.X.dr ≤ Ex61.X.mag 1 [2, 0] := by
  refine ⟨⟨by decide +kernel, fun n' hn j hj hd => ?_⟩, ⟨0, by decide, by decide +kernel⟩, by decide +kernel, by decide +kernel⟩
  have h : ∀ n' ≤ 1, ∀ j ∈ elemLoop [1, 0] [6, 6], (∀ d < 2, j.getD d 0 ≤ [2, 0].getD d 0 + 1 ∧ [2, 0].getD d 0 ≤ j.getD d 0 + 1) → Ex61.X.mag n' j ≤ 49 := by decide +kernel
  exact h n' hn j (mem_elemLoop.2 hj) hd

end Ex62

/-- **C62, the negation.** There are two calculations that differ only in the division of the calculation domain into simulation chunks and processes, with different results: a sample at a place of the stored
    grid is zero in one of them and the field in the other. -/
theorem C62_depends_on_division : ∃ (X : Phys Rat) (C : Cfg) (T L ds N out : Nat) (cal start shape : List Nat) (fs : FS) (p : Padded) (pad : Nat) (procs procs' : List MProc),
    0 < X.dr ∧ padDomain cal start shape ds pad = .ok p ∧ MeepOk X C T L ds N cal start shape out fs procs ∧ MeepOk X C T L ds N cal start shape out fs procs' ∧
    ∃ (n : Nat) (j u u' : List Nat), n < N ∧ ValidInd p.shape (j.map (· * ds)) ∧ IsSample X p procs n (addVec p.start (j.map (· * ds))) u ∧ IsSample X p procs' n (addVec p.start (j.map (· * ds))) u' ∧
      u = [X.enc 0, X.enc 0] ∧ u' = (X.vec n (addVec p.start (j.map (· * ds)))).map X.enc ∧ u ≠ u' :=
  ⟨Ex61.X, Ex45.cfg, 2, 2, 2, 2, 0, [6, 7], [1, 2], [3, 4], fun _ => none, Ex57.pd, 1, Ex61.procs, Ex62.procs, by decide +kernel, Ex57.padded, Ex61.ok, Ex62.ok,
    1, [0, 0], [0, 0], [0, 3], by decide, ⟨rfl, by decide⟩, Ex61.sample 1 0 (Or.inl ⟨rfl, rfl⟩), Ex62.sample, by decide +kernel, by decide +kernel, by decide⟩

end Verif.Meep
