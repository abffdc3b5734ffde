import Verif.Array.Props
/-!
Property theorems C05 (fill, rejection), C06 (Append), C08 (copy).
-/
namespace Verif.ND
open Verif
variable {S : Type}

/-- **C05, `fill`**  Filling a non-empty region inside the array sets exactly the elements of the region. -/
theorem C05_fill (vd : Nat) (P st : List Nat) (h : Hdr) (hP : Small P) (hv : ViewOf vd P st h)
    (buf : List S) (hb : buf.length = volume vd P) (start end_ : List Nat) (hdim : 0 < start.length)
    (hlen : start.length = end_.length) (hin : Fits start (subVec end_ start) h.shape) (v : S) :
    ∃ buf', fill vd h buf start end_ v = .ok buf' ∧ buf'.length = buf.length ∧
      (∀ k, ValidInd (subVec end_ start) k → read vd h buf' (addVec start k) = .ok (List.replicate vd v)) ∧
      (∀ j, ValidInd P j → (∀ k, ValidInd (subVec end_ start) k → j ≠ addVec st (addVec start k)) →
        read vd (mkHdr vd P) buf' j = read vd (mkHdr vd P) buf j) := by
  have w := hv.window hP
  have sms := (hv.shape_small hP).1
  obtain ⟨s0, a, e0, z, rfl, rfl, hl0⟩ := split_region hlen hdim
  have hlt : ∀ d < (s0 ++ [a]).length, (s0 ++ [a]).getD d 0 < (e0 ++ [z]).getD d 0 ∧
      (e0 ++ [z]).getD d 0 ≤ h.shape.getD d 0 := by
    intro d hd'
    have h1 := hin.2.2 d (by rw [← hin.1]; exact hd')
    rw [getD_subVec hlen.symm] at h1
    omega
  have hlast := hlt s0.length (by simp)
  rw [getD_append_last] at hlast
  rw [show (e0 ++ [z]).getD s0.length 0 = z by rw [hl0]; exact getD_append_last] at hlast
  have hz : z < U64 := by have := sms.getD s0.length; omega
  have he0 : ∀ x ∈ e0, x < U64 := by
    intro x hx
    obtain ⟨d, hd', rfl⟩ := List.getElem_of_mem hx
    have := (hlt d (by simp; omega)).2
    rw [getD_append_left hd', getD_mem_lt hd'] at this
    have := sms.getD d
    omega
  have hrows := rows_eq hl0 (a := a) (z := z) (by omega) hz he0
  have hboxp : ∀ p, InBox s0 e0 p → ∀ t < z - a, InBox (s0 ++ [a]) (e0 ++ [z]) (p ++ [a + t]) := by
    intro p hp t ht
    exact (inBox_snoc hl0 hp.1).2 ⟨hp, by omega, by omega⟩
  have hval : ∀ p, InBox s0 e0 p → ∀ t < z - a, ValidInd h.shape (p ++ [a + t]) := by
    intro p hp t ht
    have hb := hboxp p hp t ht
    refine ⟨by rw [hb.1, hin.1], fun d hd' => ?_⟩
    have h1 := hb.2.2 d (by rw [hb.1, hin.1]; exact hd')
    have h2 := hlt d (by rw [hin.1]; exact hd')
    omega
  have hA1 : hasIndex h.shape (s0 ++ [a]) = true := by
    refine (hasIndex_iff hin.1).2 ⟨hin.1, fun d hd' => ?_⟩
    have := hlt d (by rw [hin.1]; exact hd'); omega
  have hA2 : hasIndex h.shape (vsubS (e0 ++ [z]) 1) = true := by
    refine (hasIndex_iff (by simp only [vsubS, List.length_map]; rw [← hlen, hin.1])).2
      (vsubS_one_valid (by rw [← hlen, hin.1]) sms fun d hd' => ?_)
    have := hlt d (by rw [hin.1]; exact hd'); omega
  have hn : wsub (lastD (e0 ++ [z])) (lastD (s0 ++ [a])) = z - a := by
    rw [lastD_append, lastD_append, wsub_eq (by omega) hz]
  obtain ⟨r, r1, r2, r3, r4⟩ := rowsWrite w buf hb (List.replicate ((z - a) * vd) v) (fun _ => 0)
    (fun p => p) a (z - a) (by omega) (elemLoop s0 e0) (elemLoop_nodup s0 e0)
    (fun p hp => hval p (mem_elemLoop.1 hp)) (fun p _ p' _ he => he) (fun p _ => by simp)
  refine ⟨r, ?_, r2, ?_, ?_⟩
  · unfold fill
    simp only [hA1, hA2, Res.assert_true, hrows, hn, Res.bind_eq, Res.ok_bind]
    rw [runLoop_fill_eq, runLoop_map]
    exact r1
  · intro k hk
    have hkl : k.length = (s0 ++ [a]).length := by rw [hk.1, length_subVec hlen.symm, hlen]
    obtain ⟨k0, t, rfl⟩ := exists_snoc (l := k) (by rw [hkl]; simp)
    have hkl0 : k0.length = s0.length := by simpa using hkl
    have hbk := inBox_ext hlen hk
    rw [addVec_snoc (by omega)] at hbk
    have hb2 := (inBox_snoc hl0 (by rw [addVec_length (by omega)])).1 hbk
    have ht : t < z - a := by omega
    have e3 := r3 (addVec s0 k0) (mem_elemLoop.2 hb2.1) t ht
    rw [addVec_snoc (a := s0) (by omega), read_window w (by rw [r2, hb]) (hval _ hb2.1 t ht)]
    refine congrArg Res.ok (Eq.trans e3 ?_)
    have : t * vd + vd ≤ (z - a) * vd := by
      rw [← Nat.succ_mul]; exact Nat.mul_le_mul_right _ ht
    simp only [List.drop_replicate, List.take_replicate, Nat.zero_add]
    congr 1
    omega
  · intro j hj hne
    rw [read_own (by rw [r2, hb]) hj, read_own hb hj]
    congr 1
    apply r4 j hj
    intro p hp t ht he
    have b1 := mem_elemLoop.1 hp
    have hvi := valid_of_inBox (hboxp p b1 t ht)
    refine hne _ hvi.1 ?_
    rw [← hvi.2]; exact he

theorem safe_rows_gen (a z n : Nat) (hz : z < U64) (hn : a < z → n = z - a) :
    ∀ (s0 e0 : List Nat), s0.length = e0.length →
    (∀ x ∈ e0, x < U64) → Safe (s0 ++ [a]) (e0 ++ [z]) (List.replicate s0.length 1 ++ [n])
  | [], [], _, _ => by
      have hU : U64 = 2 ^ 64 := rfl
      refine ⟨?_, trivial⟩
      unfold SafeDim
      by_cases h : a < z
      · have := hn h; omega
      · left; omega
  | s :: ss, e :: es, h, he => by
      have hU : U64 = 2 ^ 64 := rfl
      have := he e (by simp)
      refine ⟨?_, safe_rows_gen a z n hz hn ss es (by simpa using h) (fun x hx => he x (by simp [hx]))⟩
      unfold SafeDim
      omega

/-- Rows of an empty region: the loop body is never executed. -/
theorem rows_empty {s e : List Nat} (hl : s.length = e.length) (hp : 0 < s.length) (he : Small e)
    (hem : ∃ d < s.length, e.getD d 0 ≤ s.getD d 0) : rows s e = .ok [] := by
  obtain ⟨s0, a, e0, z, rfl, rfl, hl0⟩ := split_region hl hp
  have hz : z < U64 := he z (by simp)
  have he0 : ∀ x ∈ e0, x < U64 := fun x hx => he x (by simp [hx])
  unfold rows
  rw [lastD_append, lastD_append]
  have hr : rowChunk (s0 ++ [a]).length (wsub z a) = List.replicate s0.length 1 ++ [wsub z a] := by simp [rowChunk]
  have hs := safe_rows_gen a z (wsub z a) hz (fun h => wsub_eq (by omega) hz) s0 e0 hl0 he0
  rw [hr, chunkLoop_eq _ hs lt_fuelFor]
  have hnil : chunkSpec (s0 ++ [a]) (e0 ++ [z]) (List.replicate s0.length 1 ++ [wsub z a]) = [] := by
    rw [List.eq_nil_iff_forall_not_mem]
    intro p hp
    have hb := chunkSpec_boxOK hs p hp
    obtain ⟨d, hd, hle⟩ := hem
    have := hb.2.2 d hd
    omega
  rw [hnil]; rfl

/-- **C05, rejection**  `fill_from` with a region that is empty or does not fit never writes anything: it either
    fails an assertion or leaves the destination as it was. -/
theorem C05_fill_from_invalid_never_writes (vd : Nat) (hd hs : Hdr) (dst src : List S)
    (inStart inEnd outStart : List Nat) (hdim : 0 < inStart.length)
    (hl1 : inStart.length = inEnd.length) (hl2 : inStart.length = hs.shape.length)
    (hl3 : outStart.length = hd.shape.length) (hl4 : inStart.length = outStart.length)
    (hsm : Small inEnd) (_hso : Small outStart) (_hsd : Small hd.shape)
    (hbad : ¬ (Fits inStart (subVec inEnd inStart) hs.shape ∧ Fits outStart (subVec inEnd inStart) hd.shape))
    (hw : ∀ d < outStart.length, outStart.getD d 0 + inEnd.getD d 0 < 2 ^ 64) :
    fillFrom vd hd dst hs src inStart inEnd outStart = .abort ∨
      fillFrom vd hd dst hs src inStart inEnd outStart = .ok dst := by
  unfold fillFrom
  by_cases hA1 : hasIndex hs.shape inStart = true
  case neg => left; simp [Res.assert, hA1, Res.bind]
  by_cases hA2 : hasIndex hs.shape (vsubS inEnd 1) = true
  case neg => left; simp [Res.assert, hA1, hA2, Res.bind]
  by_cases hA3 : hasIndex hd.shape outStart = true
  case neg => left; simp [Res.assert, hA1, hA2, hA3, Res.bind]
  by_cases hA4 : hasIndex hd.shape (vsubS (vadd outStart (vsub inEnd inStart)) 1) = true
  case neg => left; simp [Res.assert, hA1, hA2, hA3, hA4, Res.bind]
  right
  simp only [hA1, hA2, hA3, hA4, Res.assert_true, Res.bind_eq, Res.ok_bind]
  have hem : ∃ d < inStart.length, inEnd.getD d 0 ≤ inStart.getD d 0 := by
    apply Classical.byContradiction
    intro hcon
    have hne : ∀ d < inStart.length, inStart.getD d 0 < inEnd.getD d 0 := by
      intro d hd'
      apply Nat.lt_of_not_le
      intro hle
      exact hcon ⟨d, hd', hle⟩
    have getSub : ∀ (e : List Nat) d, d < e.length → (vsubS e 1).getD d 0 = wsub (e.getD d 0) 1 := by
      intro e d hd2
      rw [vsubS, List.getD_eq_getElem?_getD, List.getElem?_map, List.getD_eq_getElem?_getD, List.getElem?_eq_getElem hd2]
      generalize e[d] = q
      show Option.getD (some (wsub q 1)) 0 = wsub q 1
      exact Option.getD_some
    have hsub := vsub_eq (a := inEnd) (b := inStart) (fun d hd' => Nat.le_of_lt (hne d (by omega))) hl1.symm hsm
    have hsl := length_subVec hl1.symm
    have hU : U64 = 2 ^ 64 := rfl
    have hadd := vadd_eq (a := outStart) (b := subVec inEnd inStart) (by omega) (fun d hd' => by
      rw [getD_subVec hl1.symm]
      have := hw d hd'; omega)
    rw [hsub, hadd] at hA4
    have v2 := (hasIndex_iff (by simp [vsubS]; omega)).1 hA2
    have v4 := (hasIndex_iff (by simp only [vsubS, List.length_map]; rw [addVec_length (by omega)]; exact hl3)).1 hA4
    refine hbad ⟨⟨hl2, by omega, fun d hd' => ?_⟩, ⟨hl3, by omega, fun d hd' => ?_⟩⟩
    · have h1 := v2.2 d hd'
      have h2 := hne d (by omega)
      have h3 := hsm.getD d
      rw [getSub _ _ (by omega), wsub_eq (by omega) h3] at h1
      rw [getD_subVec hl1.symm]
      omega
    · have h1 := v4.2 d hd'
      have h2 := hne d (by omega)
      have h3 := hw d (by omega)
      rw [getSub _ _ (by rw [addVec_length (by omega)]; omega), getD_addVec (by omega), getD_subVec hl1.symm,
        wsub_eq (by omega) (by omega)] at h1
      rw [getD_subVec hl1.symm]
      omega
  rw [rows_empty hl1 hdim hsm hem]
  rfl

example : Fits [1, 1] (subVec [3, 2] [1, 1]) [4, 5] ∧ Fits [0, 2] (subVec [3, 2] [1, 1]) [2, 3] := by
  refine ⟨⟨rfl, rfl, by decide⟩, ⟨rfl, rfl, by decide⟩⟩
example : fillFrom 1 (mkHdr 1 [2, 3]) [0,0,0,0,0,0] (mkHdr 1 [3, 2]) [1,2,3,4,5,6] [1,0] [3,2] [0,1]
    = .ok [0,3,4,0,5,6] := by decide +kernel
example : fillFrom 1 (mkHdr 1 [2, 3]) [0,0,0,0,0,0] (mkHdr 1 [3, 2]) [1,2,3,4,5,6] [1,0] [4,2] [0,1]
    = .abort := by decide +kernel

/-! ### C06 -/

theorem resize_own (vd : Nat) (P Q : List Nat) (buf : List S) (junk : Nat → S) :
    resize vd (mkHdr vd P) buf Q junk = .ok (mkHdr vd Q, (List.range (volume vd Q)).map fun k => buf.getD k (junk k)) := rfl

theorem volume_cons (vd a : Nat) (P : List Nat) : volume vd (a :: P) = a * (prod P * vd) := by
  rw [volume_eq, prod, Nat.mul_assoc]

/-- **C06**  `a.Append<0>(b)` of owning arrays with equal trailing extents `P` concatenates along the first axis,
    and the result is an owning array of shape `(a0 + b0) :: P`. -/
theorem C06_append_concatenates (vd : Nat) (a b : Nat) (P : List Nat) (hab : a + b < 2 ^ 64) (junk : Nat → S)
    (dst src : List S) (hd : dst.length = volume vd (a :: P)) (hs : src.length = volume vd (b :: P)) :
    ∃ out, append vd (mkHdr vd (a :: P)) dst (mkHdr vd (b :: P)) src 0 junk = .ok (mkHdr vd ((a + b) :: P), out) ∧
      out.length = volume vd ((a + b) :: P) ∧
      ∀ i is, ValidInd ((a + b) :: P) (i :: is) →
        read vd (mkHdr vd ((a + b) :: P)) out (i :: is) =
          if i < a then read vd (mkHdr vd (a :: P)) dst (i :: is)
          else read vd (mkHdr vd (b :: P)) src ((i - a) :: is) := by
  have hvol : volume vd ((a + b) :: P) = dst.length + src.length := by
    rw [hd, hs, volume_cons, volume_cons, volume_cons, Nat.add_mul]
  refine ⟨dst ++ src, ?_, by simp [hvol], ?_⟩
  · unfold append
    have hsh : shapeAllowsConcat (mkHdr vd (a :: P)).shape (mkHdr vd (b :: P)).shape 0 = true := by
      simp only [shapeAllowsConcat, mkHdr, List.all_eq_true, List.mem_range]
      intro x _
      cases x with
      | zero => simp
      | succ x => simp
    have hnew : (mkHdr vd (a :: P)).shape.set 0 (wadd ((mkHdr vd (a :: P)).shape.getD 0 0) ((mkHdr vd (b :: P)).shape.getD 0 0))
        = (a + b) :: P := by
      simp only [mkHdr, List.getD_cons_zero, List.set_cons_zero]
      rw [wadd_eq hab]
    rw [if_pos rfl]
    simp only [hsh, show (mkHdr vd (a :: P)).owns = true from rfl, Res.assert_true, Res.bind_eq, Res.ok_bind]
    rw [hnew, resize_own]
    simp only [Res.ok_bind]
    unfold copyN
    rw [if_pos ⟨by omega, by simp only [List.length_map, List.length_range]; omega⟩]
    simp only [Res.ok_bind]
    congr 2
    have hlen : (List.map (fun k => dst.getD k (junk k)) (List.range (volume vd ((a + b) :: P)))).length
        = dst.length + src.length := by simp [hvol]
    rw [List.drop_zero, List.take_length, List.drop_eq_nil_of_le (i := dst.length + src.length) (by omega),
      List.append_nil]
    congr 1
    apply List.ext_getElem?
    intro k
    rw [List.getElem?_take]
    by_cases hk : k < dst.length
    · rw [if_pos hk, List.getElem?_map, List.getElem?_range (by omega)]
      simp [List.getD_eq_getElem?_getD, hk]
    · rw [if_neg hk, List.getElem?_eq_none (by omega)]
  · intro i is hv
    obtain ⟨hi, hv'⟩ := validInd_cons.1 hv
    rw [read_own (by simp [hvol]) hv]
    by_cases hia : i < a
    · have v1 : ValidInd (a :: P) (i :: is) := validInd_cons.2 ⟨hia, hv'⟩
      rw [if_pos hia, read_own hd v1]
      congr 1
      have hbd := blk_le (vd := vd) v1
      apply block_ext
      intro k hk
      simp only [lin] at *
      rw [List.getElem?_append_left (by omega)]
    · have v1 : ValidInd (b :: P) ((i - a) :: is) := validInd_cons.2 ⟨by omega, hv'⟩
      rw [if_neg hia, read_own hs v1]
      congr 1
      apply block_ext
      intro k hk
      have hpos : vd * lin ((a + b) :: P) (i :: is) = dst.length + vd * lin (b :: P) ((i - a) :: is) := by
        simp only [lin]
        rw [hd, volume_cons, Nat.mul_add, Nat.mul_add, ← Nat.add_assoc]
        congr 1
        have : i = a + (i - a) := by omega
        conv => lhs; rw [this]
        rw [Nat.add_mul, Nat.mul_add]
        congr 1
        rw [Nat.mul_comm vd, Nat.mul_assoc]
      rw [hpos, Nat.add_assoc, List.getElem?_append_right (by omega)]
      congr 1; omega

/-- **C06**  Incompatible extents or a view as the target are rejected, other axes throw. -/
theorem C06_append_rejects (vd : Nat) (hd hs : Hdr) (dst src : List S) (junk : Nat → S) :
    (hd.owns = false → append vd hd dst hs src 0 junk = .abort) ∧
    (hd.owns = true → (∃ d, 0 < d ∧ d < hd.shape.length ∧ hd.shape.getD d 0 ≠ hs.shape.getD d 0) →
      append vd hd dst hs src 0 junk = .abort) ∧
    (∀ axis, 0 < axis → axis < hd.shape.length → hd.owns = true → append vd hd dst hs src axis junk = .throw) := by
  refine ⟨fun h => ?_, fun h hne => ?_, fun axis h1 h2 h => ?_⟩
  · simp [append, h, Res.bind]
  · have : shapeAllowsConcat hd.shape hs.shape 0 = false := by
      obtain ⟨d, h0, h1, h2⟩ := hne
      rw [Bool.eq_false_iff]
      intro hh
      simp only [shapeAllowsConcat, List.all_eq_true, List.mem_range] at hh
      have := hh d h1
      simp at this
      rcases this with h3 | h3
      · omega
      · exact h2 (by simpa [List.getD_eq_getElem?_getD] using h3)
    simp [append, h, this, Res.bind]
  · unfold append
    rw [if_neg (by omega)]
    simp [h, h2]

/-- **C06 (limit)**  Appending a *view* is not concatenation: the whole buffer of the view's parent is copied,
    past the end of the destination buffer. -/
theorem C06_append_view_is_ub :
    append 1 (mkHdr 1 [1, 2]) [1, 2] (view (mkHdr 1 [2, 2]) [0, 0] [1, 2]) [3, 4, 5, 6] 0 (fun _ => 0) = .ub := by
  decide +kernel

example : append 1 (mkHdr 1 [1, 2]) [1, 2] (mkHdr 1 [2, 2]) [3, 4, 5, 6] 0 (fun _ => 0)
    = .ok (mkHdr 1 [3, 2], [1, 2, 3, 4, 5, 6]) := by decide +kernel

end Verif.ND
