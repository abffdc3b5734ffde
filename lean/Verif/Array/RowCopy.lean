import Verif.Array.Lemmas2
namespace Verif.ND
open Verif
variable {S : Type}

/-- The scalars of the element at row-major position of `j`. -/
abbrev blk (vd : Nat) (P : List Nat) (buf : List S) (j : List Nat) : List S :=
  (buf.drop (vd * lin P j)).take vd

theorem runLoop_map {σ ι κ : Type} (g : κ → ι) (f : ι → σ → Res σ) : ∀ (l : List κ) (s : σ),
    runLoop f (l.map g) s = runLoop (fun k => f (g k)) l s
  | [], _ => rfl
  | k :: ks, s => by
      simp only [List.map_cons, runLoop]
      congr 1
      funext s'
      exact runLoop_map g f ks s'

theorem runLoop_congr {σ ι : Type} {f g : ι → σ → Res σ} : ∀ (l : List ι) (s : σ),
    (∀ i ∈ l, ∀ s, f i s = g i s) → runLoop f l s = runLoop g l s
  | [], _, _ => rfl
  | i :: is, s, h => by
      simp only [runLoop]
      rw [h i (by simp)]
      congr 1
      funext s'
      exact runLoop_congr is s' (fun j hj => h j (by simp [hj]))

/-- Copying rows of `n` elements into a window: row `p ∈ L` goes to the elements `q p ++ [b + t]`. -/
theorem rowsWrite {vd : Nat} {P st : List Nat} {h : Hdr} (w : IsWindow vd P st h) (dst : List S)
    (hb : dst.length = volume vd P) (src : List S) (so : List Nat → Nat) (q : List Nat → List Nat) (b n : Nat)
    (hn : 0 < n) (L : List (List Nat)) (hL : L.Nodup)
    (hval : ∀ p ∈ L, ∀ t < n, ValidInd h.shape (q p ++ [b + t]))
    (hinj : ∀ p ∈ L, ∀ p' ∈ L, q p = q p' → p = p')
    (hso : ∀ p ∈ L, so p + n * vd ≤ src.length) :
    ∃ r, runLoop (fun p d => copyN src (so p) (n * vd) d (flatInd h (q p ++ [b]))) L dst = .ok r ∧
      r.length = dst.length ∧
      (∀ p ∈ L, ∀ t < n, blk vd P r (addVec st (q p ++ [b + t])) = (src.drop (so p + t * vd)).take vd) ∧
      (∀ j, ValidInd P j → (∀ p ∈ L, ∀ t < n, j ≠ addVec st (q p ++ [b + t])) →
        blk vd P r j = blk vd P dst j) := by
  -- length of row prefixes
  have hlen : ∀ p ∈ L, (q p ++ [b]).length = P.length := by
    intro p hp
    have := (hval p hp 0 hn).1
    rw [w.lenShape] at this
    simpa using this
  -- positions
  have hpos : ∀ p ∈ L, ∀ t, lin P (addVec st (q p ++ [b + t])) = lin P (addVec st (q p ++ [b])) + t := by
    intro p hp t
    have hl := hlen p hp
    rw [lin_add w.lenSt hl, lin_add w.lenSt (by simpa using hl), lin_row hl]
    omega
  have hflat : ∀ p ∈ L, flatInd h (q p ++ [b]) = vd * lin P (addVec st (q p ++ [b])) :=
    fun p hp => w.flat (hlen p hp)
  have hbound : ∀ p ∈ L, flatInd h (q p ++ [b]) + n * vd ≤ dst.length := by
    intro p hp
    have hv := blk_le (vd := vd) (w.valid (hval p hp (n - 1) (by omega)))
    rw [hpos p hp] at hv
    rw [hflat p hp, hb]
    have : vd * (lin P (addVec st (q p ++ [b])) + (n - 1)) + vd = vd * lin P (addVec st (q p ++ [b])) + n * vd := by
      rw [← Nat.mul_succ, Nat.mul_comm n vd, ← Nat.mul_add]
      congr 1; omega
    omega
  have hdisj : L.Pairwise (fun i j => flatInd h (q i ++ [b]) + n * vd ≤ flatInd h (q j ++ [b]) ∨
      flatInd h (q j ++ [b]) + n * vd ≤ flatInd h (q i ++ [b])) := by
    have key : ∀ i ∈ L, ∀ j ∈ L, i ≠ j → ¬ (lin P (addVec st (q i ++ [b])) ≤ lin P (addVec st (q j ++ [b])) ∧
        lin P (addVec st (q j ++ [b])) < lin P (addVec st (q i ++ [b])) + n) := by
      intro i hi j hj hij hh
      have ht : lin P (addVec st (q j ++ [b])) - lin P (addVec st (q i ++ [b])) < n := by omega
      have e1 := hpos i hi (lin P (addVec st (q j ++ [b])) - lin P (addVec st (q i ++ [b])))
      have vi := w.valid (hval i hi _ ht)
      have vj := w.valid (hval j hj 0 hn)
      have e2 := lin_inj vi vj (by rw [e1]; simp; omega)
      have e3 : q i ++ [b + (lin P (addVec st (q j ++ [b])) - lin P (addVec st (q i ++ [b])))] = q j ++ [b + 0] := by
        have l1 : st.length = (q i ++ [b + (lin P (addVec st (q j ++ [b])) - lin P (addVec st (q i ++ [b])))]).length := by
          rw [w.lenSt, ← hlen i hi]; simp
        have l2 : st.length = (q j ++ [b + 0]).length := by rw [w.lenSt, ← hlen j hj]; simp
        apply vec_ext (by rw [← l1, l2])
        intro d _
        have := congrArg (fun v => v.getD d 0) e2
        simp only [getD_addVec l1, getD_addVec l2] at this
        omega
      have := List.append_inj_left' e3 rfl
      exact hij (hinj i hi j hj this)
    rw [List.pairwise_iff_forall_sublist]
    intro i j hsub
    have hi : i ∈ L := hsub.subset (by simp)
    have hj : j ∈ L := hsub.subset (by simp)
    have hij : i ≠ j := by
      have := List.Pairwise.sublist hsub hL
      simpa using this
    rw [hflat i hi, hflat j hj, Nat.mul_comm n vd, ← Nat.mul_add, ← Nat.mul_add]
    have k1 := key i hi j hj hij
    have k2 := key j hj i hi (Ne.symm hij)
    by_cases hle : lin P (addVec st (q i ++ [b])) ≤ lin P (addVec st (q j ++ [b]))
    · left; exact Nat.mul_le_mul_left _ (by omega)
    · right; exact Nat.mul_le_mul_left _ (by omega)
  obtain ⟨r, e1, e2, e3, e4⟩ := runCopies_spec src (n * vd) so (fun p => flatInd h (q p ++ [b])) L dst
    (fun p hp => ⟨hso p hp, hbound p hp⟩) hdisj
  refine ⟨r, e1, e2, ?_, ?_⟩
  · intro p hp t ht
    apply block_ext
    intro k hk
    have hk' : t * vd + k < n * vd := by
      calc t * vd + k < t * vd + vd := by omega
        _ = (t + 1) * vd := by rw [Nat.add_mul, Nat.one_mul]
        _ ≤ n * vd := Nat.mul_le_mul_right _ ht
    have := e3 p hp (t * vd + k) hk'
    simp only [hflat p hp] at this
    rw [hpos p hp, Nat.mul_add, Nat.mul_comm vd t, Nat.add_assoc, this, Nat.add_assoc]
  · intro j hj hne
    apply block_ext
    intro k hk
    apply e4
    intro p hp hh
    simp only [hflat p hp] at hh
    have h1 : lin P (addVec st (q p ++ [b])) ≤ lin P j := by
      have : vd * lin P (addVec st (q p ++ [b])) < vd * (lin P j + 1) := by rw [Nat.mul_add]; omega
      have := Nat.lt_of_mul_lt_mul_left this
      omega
    have h2 : lin P j < lin P (addVec st (q p ++ [b])) + n := by
      have : vd * lin P j < vd * (lin P (addVec st (q p ++ [b])) + n) := by
        rw [Nat.mul_add, Nat.mul_comm vd n]; omega
      exact Nat.lt_of_mul_lt_mul_left this
    have ht : lin P j - lin P (addVec st (q p ++ [b])) < n := by omega
    refine hne p hp _ ht ?_
    refine lin_inj hj (w.valid (hval p hp _ ht)) ?_
    rw [hpos p hp]; omega

end Verif.ND
