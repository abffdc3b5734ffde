import Verif.Array.Props2
/-!
Property theorems C05, rejection of bad regions by `fill`, and by `fill_from` without a hypothesis on the
arguments themselves: only the extents of the two arrays are bounded.
-/
namespace Verif.ND
open Verif
variable {S : Type}

theorem getD_vsubS_one {e : List Nat} {d : Nat} (hd : d < e.length) :
    (vsubS e 1).getD d 0 = wsub (e.getD d 0) 1 := by
  rw [vsubS, List.getD_eq_getElem?_getD, List.getElem?_map, List.getD_eq_getElem?_getD, List.getElem?_eq_getElem hd]
  generalize e[d] = q
  show Option.getD (some (wsub q 1)) 0 = wsub q 1
  exact Option.getD_some

/-- **C05, rejection by `fill`**  `fill` with a region that is empty or does not fit into the array never writes
    anything: it either fails an assertion or leaves the buffer as it was. -/
theorem C05_fill_invalid_never_writes (vd : Nat) (h : Hdr) (buf : List S) (start end_ : List Nat) (v : S)
    (hdim : 0 < start.length) (hl1 : start.length = end_.length) (hl2 : start.length = h.shape.length)
    (hsm : ∀ x ∈ end_, x < 2 ^ 64) (hbad : ¬ Fits start (subVec end_ start) h.shape) :
    fill vd h buf start end_ v = .abort ∨ fill vd h buf start end_ v = .ok buf := by
  have hsm' : Small end_ := hsm
  unfold fill
  by_cases hA1 : hasIndex h.shape start = true
  case neg => left; simp [Res.assert, hA1, Res.bind]
  by_cases hA2 : hasIndex h.shape (vsubS end_ 1) = true
  case neg => left; simp [Res.assert, hA1, hA2, Res.bind]
  right
  simp only [hA1, hA2, Res.assert_true, Res.bind_eq, Res.ok_bind]
  have hem : ∃ d < start.length, end_.getD d 0 ≤ start.getD d 0 := by
    apply Classical.byContradiction
    intro hcon
    have hne : ∀ d < start.length, start.getD d 0 < end_.getD d 0 := by
      intro d hd'
      apply Nat.lt_of_not_le
      intro hle
      exact hcon ⟨d, hd', hle⟩
    have hsl := length_subVec hl1.symm
    have v2 := (hasIndex_iff (by simp [vsubS]; omega)).1 hA2
    refine hbad ⟨hl2, by omega, fun d hd' => ?_⟩
    have h1 := v2.2 d hd'
    have h2 := hne d (by omega)
    have h3 := hsm'.getD d
    rw [getD_vsubS_one (by omega), wsub_eq (by omega) h3] at h1
    rw [getD_subVec hl1.symm]
    omega
  rw [rows_empty hl1 hdim hsm' hem]
  rfl

/-- **C05, rejection by `fill_from`, whatever the arguments**  As `C05_fill_from_invalid_never_writes`, but the
    index arguments may be any 64-bit numbers: it is enough that, axis by axis, the extents of the two arrays add up
    to less than 2^64. -/
theorem C05_fill_from_any_invalid_never_writes (vd : Nat) (hd hs : Hdr) (dst src : List S)
    (inStart inEnd outStart : List Nat) (hdim : 0 < inStart.length)
    (hl1 : inStart.length = inEnd.length) (hl2 : inStart.length = hs.shape.length)
    (hl3 : outStart.length = hd.shape.length) (hl4 : inStart.length = outStart.length)
    (hsm : ∀ x ∈ inEnd, x < 2 ^ 64)
    (hext : ∀ d, hs.shape.getD d 0 + hd.shape.getD d 0 < 2 ^ 64)
    (hbad : ¬ (Fits inStart (subVec inEnd inStart) hs.shape ∧ Fits outStart (subVec inEnd inStart) hd.shape)) :
    fillFrom vd hd dst hs src inStart inEnd outStart = .abort ∨
      fillFrom vd hd dst hs src inStart inEnd outStart = .ok dst := by
  have hsm' : Small inEnd := hsm
  by_cases hA1 : hasIndex hs.shape inStart = true
  case neg => left; unfold fillFrom; simp [Res.assert, hA1, Res.bind]
  by_cases hA2 : hasIndex hs.shape (vsubS inEnd 1) = true
  case neg => left; unfold fillFrom; simp [Res.assert, hA1, hA2, Res.bind]
  by_cases hA3 : hasIndex hd.shape outStart = true
  case neg => left; unfold fillFrom; simp [Res.assert, hA1, hA2, hA3, Res.bind]
  by_cases hem : ∃ d < inStart.length, inEnd.getD d 0 ≤ inStart.getD d 0
  · by_cases hA4 : hasIndex hd.shape (vsubS (vadd outStart (vsub inEnd inStart)) 1) = true
    case neg => left; unfold fillFrom; simp [Res.assert, hA1, hA2, hA3, hA4, Res.bind]
    right
    unfold fillFrom
    simp only [hA1, hA2, hA3, hA4, Res.assert_true, Res.bind_eq, Res.ok_bind]
    rw [rows_empty hl1 hdim hsm' hem]
    rfl
  · have v2 := (hasIndex_iff (by simp [vsubS]; omega)).1 hA2
    have v3 := (hasIndex_iff hl3).1 hA3
    have hw : ∀ d < outStart.length, outStart.getD d 0 + inEnd.getD d 0 < 2 ^ 64 := by
      intro d hd'
      have h1 := v2.2 d (by omega)
      have h2 := v3.2 d (by omega)
      have h3 := hsm'.getD d
      have hp : 0 < inEnd.getD d 0 := by
        apply Nat.pos_of_ne_zero
        intro h0
        exact hem ⟨d, by omega, by omega⟩
      rw [getD_vsubS_one (by omega), wsub_eq (by omega) h3] at h1
      have := hext d
      omega
    have hso : Small outStart := by
      intro x hx
      obtain ⟨d, hd', rfl⟩ := List.getElem_of_mem hx
      have := hw d hd'
      rw [getD_mem_lt hd'] at this
      have hU : U64 = 2 ^ 64 := rfl
      omega
    have hsd : Small hd.shape := by
      intro x hx
      obtain ⟨d, hd', rfl⟩ := List.getElem_of_mem hx
      have := hext d
      rw [getD_mem_lt hd'] at this
      have hU : U64 = 2 ^ 64 := rfl
      omega
    exact C05_fill_from_invalid_never_writes vd hd hs dst src inStart inEnd outStart hdim hl1 hl2 hl3 hl4 hsm' hso
      hsd hbad hw

-- A region that ends before it starts passes both assertions and changes nothing; one that is too long, or that ends
-- at index 0, fails an assertion.
example : fill 1 (mkHdr 1 [2, 3]) [0,0,0,0,0,0] [1, 2] [2, 1] 7 = .ok [0,0,0,0,0,0] ∧
    fill 1 (mkHdr 1 [2, 3]) [0,0,0,0,0,0] [1, 0] [3, 1] 7 = .abort ∧
    fill 1 (mkHdr 1 [2, 3]) [0,0,0,0,0,0] [0, 0] [0, 3] 7 = .abort ∧
    fill 1 (mkHdr 1 [2, 3]) [0,0,0,0,0,0] [0, 1] [2, 3] 7 = .ok [0,7,7,0,7,7] := by decide +kernel
-- All three conditions can be met: the hypotheses hold of the first region.
example : (∀ x ∈ [2, 1], x < 2 ^ 64) ∧ ¬ Fits [1, 2] (subVec [2, 1] [1, 2]) [2, 3] := by
  refine ⟨by decide, fun h => ?_⟩
  have := h.2.2 1 (by decide)
  simp [subVec] at this
-- An output position near 2^64 makes the sum in the fourth assertion wrap around; the third one rejects it.
example : fillFrom 1 (mkHdr 1 [3]) [0,0,0] (mkHdr 1 [3]) [1,2,3] [0] [3] [2 ^ 64 - 1] = .abort ∧
    fillFrom 1 (mkHdr 1 [3]) [0,0,0] (mkHdr 1 [3]) [1,2,3] [2] [1] [2] = .ok [0,0,0] ∧
    ∀ d, (mkHdr 1 [3]).shape.getD d 0 + (mkHdr 1 [3]).shape.getD d 0 < 2 ^ 64 := by
  refine ⟨by decide +kernel, by decide +kernel, fun d => ?_⟩
  rcases d with _ | d <;> simp [mkHdr]

end Verif.ND
