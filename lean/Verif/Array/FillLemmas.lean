import Verif.Array.RowCopy
namespace Verif.ND
open Verif
variable {S : Type}

theorem vsubS_one_valid {shape e : List Nat} (hl : e.length = shape.length) (hs : Small shape)
    (he : ∀ d < shape.length, 0 < e.getD d 0 ∧ e.getD d 0 ≤ shape.getD d 0) : ValidInd shape (vsubS e 1) := by
  refine ⟨by simp [vsubS, hl], fun d hd => ?_⟩
  have h1 := he d hd
  have h2 := hs.getD d
  have : (vsubS e 1).getD d 0 = wsub (e.getD d 0) 1 := by
    have hd2 : d < e.length := by omega
    rw [vsubS, List.getD_eq_getElem?_getD, List.getElem?_map, List.getD_eq_getElem?_getD, List.getElem?_eq_getElem hd2]
    generalize e[d] = q
    show Option.getD (some (wsub q 1)) 0 = wsub q 1
    exact Option.getD_some
  rw [this, wsub_eq (by omega) (by omega)]
  omega

theorem split_region {inS inE : List Nat} (hl : inS.length = inE.length) (hp : 0 < inS.length) :
    ∃ s0 a e0 z, inS = s0 ++ [a] ∧ inE = e0 ++ [z] ∧ s0.length = e0.length := by
  obtain ⟨s0, a, rfl⟩ := exists_snoc hp
  obtain ⟨e0, z, rfl⟩ := exists_snoc (l := inE) (by omega)
  exact ⟨s0, a, e0, z, rfl, rfl, by simpa using hl⟩

theorem runLoop_fill_eq (v : S) (n : Nat) (pos : List Nat → Nat) (L : List (List Nat)) (dst : List S) :
    runLoop (fun lo b => fillN b (pos lo) n v) L dst =
      runLoop (fun lo b => copyN (List.replicate n v) 0 n b (pos lo)) L dst :=
  runLoop_congr L dst (fun i _ s => fillN_eq s (pos i) n v)

theorem inBox_ext {s e k : List Nat} (hl : s.length = e.length) (hk : ValidInd (subVec e s) k) :
    InBox s e (addVec s k) := by
  have hkl : k.length = s.length := by rw [hk.1]; simp [subVec, hl]
  refine ⟨addVec_length hkl.symm, by rw [addVec_length hkl.symm, hl], fun d hd => ?_⟩
  rw [addVec_length hkl.symm] at hd
  rw [getD_addVec hkl.symm]
  have := hk.2 d (by simp [subVec, ← hl, hd])
  rw [getD_subVec hl.symm] at this
  omega

theorem valid_of_inBox {s e i : List Nat} (h : InBox s e i) : ValidInd (subVec e s) (subVec i s) ∧ i = addVec s (subVec i s) := by
  obtain ⟨h1, h2, h3⟩ := h
  have hl : (subVec i s).length = s.length := by simp [subVec, h1]
  refine ⟨⟨by simp only [subVec, List.length_zipWith]; omega, fun d hd => ?_⟩, ?_⟩
  · rw [getD_subVec h1, getD_subVec (by omega)]
    have := h3 d (by simp only [subVec, List.length_zipWith] at hd; omega)
    omega
  · apply vec_ext (by rw [addVec_length (by omega), h1])
    intro d hd
    rw [getD_addVec (by omega), getD_subVec h1]
    have := h3 d hd
    omega

theorem length_subVec {a b : List Nat} (h : a.length = b.length) : (subVec a b).length = a.length := by
  simp [subVec, h]

theorem subVec_snoc {a b : List Nat} {x y : Nat} (h : a.length = b.length) :
    subVec (a ++ [x]) (b ++ [y]) = subVec a b ++ [x - y] := by
  simp [subVec, List.zipWith_append h]

end Verif.ND
