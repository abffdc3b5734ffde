import Verif.Array.FillLemmas
/-!
Property theorems C03, C04, C05 for `NDVecArray`.
`S` is the scalar type, `vd` the number of scalars per element (`vec_dims`).
-/
namespace Verif.ND
open Verif
variable {S : Type}

/-! ### C03 -/

/-- **C03**  Element blocks of an array of shape `P`: they lie inside the buffer of `volume vd P` scalars,
    different indices have disjoint blocks, and every scalar of the buffer belongs to some element. -/
theorem C03_addressing_bijective (vd : Nat) (hvd : 0 < vd) (P : List Nat) :
    (∀ i, ValidInd P i → flatInd (mkHdr vd P) i + vd ≤ volume vd P) ∧
    (∀ i j, ValidInd P i → ValidInd P j → i ≠ j →
      flatInd (mkHdr vd P) i + vd ≤ flatInd (mkHdr vd P) j ∨ flatInd (mkHdr vd P) j + vd ≤ flatInd (mkHdr vd P) i) ∧
    (∀ x, x < volume vd P → ∃ i, ValidInd P i ∧ flatInd (mkHdr vd P) i ≤ x ∧ x < flatInd (mkHdr vd P) i + vd) := by
  have hf : ∀ i, ValidInd P i → flatInd (mkHdr vd P) i = vd * lin P i := by
    intro i hi
    rw [(mkHdr_window vd P).flat hi.1, addVec_zero P i hi.1]
  refine ⟨fun i hi => by rw [hf i hi]; exact blk_le hi, ?_, ?_⟩
  · intro i j hi hj hne
    rw [hf i hi, hf j hj, ← Nat.mul_succ, ← Nat.mul_succ]
    have : lin P i ≠ lin P j := fun h => hne (lin_inj hi hj h)
    by_cases h : lin P i < lin P j
    · left; exact Nat.mul_le_mul_left _ h
    · right; exact Nat.mul_le_mul_left _ (by omega)
  · intro x hx
    rw [volume_eq] at hx
    obtain ⟨i, hi, he⟩ := lin_surj P (x / vd) (by rw [Nat.div_lt_iff_lt_mul hvd]; exact hx)
    refine ⟨i, hi, ?_⟩
    rw [hf i hi, he]
    have h1 := Nat.div_add_mod x vd
    have h2 := Nat.mod_lt x hvd
    constructor <;> omega

example : ValidInd [2, 3, 4] [1, 2, 3] ∧ ValidInd [2, 3, 4] [0, 2, 3] ∧
    flatInd (mkHdr 2 [2, 3, 4]) [1, 2, 3] = 46 ∧ volume 2 [2, 3, 4] = 48 := by
  refine ⟨⟨rfl, by decide⟩, ⟨rfl, by decide⟩, by decide, by decide⟩

/-- **C03, observable form**: writing element `i` of an array (owning or a view) makes exactly that element
    read back as the new value; every other element of the owning array is unchanged. -/
theorem C03_write_read (vd : Nat) (P st : List Nat) (h : Hdr) (hP : Small P) (hv : ViewOf vd P st h)
    (buf : List S) (hb : buf.length = volume vd P) (i : List Nat) (hi : ValidInd h.shape i)
    (v : List S) (hvl : v.length = vd) :
    ∃ buf', write vd h buf i v = .ok buf' ∧ buf'.length = buf.length ∧ read vd h buf' i = .ok v ∧
      ∀ j, ValidInd P j → j ≠ addVec st i → read vd (mkHdr vd P) buf' j = read vd (mkHdr vd P) buf j := by
  have w := hv.window hP
  have hl : i.length = P.length := by rw [hi.1, w.lenShape]
  have hbd := blk_le (vd := vd) (w.valid hi)
  obtain ⟨r, e1, e2, e3⟩ := copyN_spec (src := v) (so := 0) (n := vd) (dst := buf)
    (d := vd * lin P (addVec st i)) (by omega) (by omega)
  refine ⟨r, ?_, e2, ?_, ?_⟩
  · unfold write
    rw [if_pos ((hasIndex_iff hi.1).2 hi), w.flat hl, e1]
  · rw [read_window w (by rw [e2, hb]) hi]
    congr 1
    have : v = (v.drop 0).take vd := by rw [List.drop_zero, List.take_of_length_le (by omega)]
    conv => rhs; rw [this]
    apply block_ext
    intro k hk
    rw [e3, if_pos (by omega)]
    congr 1; omega
  · intro j hj hne
    rw [read_own (by rw [e2, hb]) hj, read_own hb hj]
    congr 1
    apply block_ext
    intro k hk
    rw [e3, if_neg]
    intro hh
    apply hne
    apply lin_inj hj (w.valid hi)
    have h1 : vd * lin P (addVec st i) < vd * (lin P j + 1) := by rw [Nat.mul_add]; omega
    have h2 : vd * lin P j < vd * (lin P (addVec st i) + 1) := by rw [Nat.mul_add]; omega
    have := Nat.lt_of_mul_lt_mul_left h1
    have := Nat.lt_of_mul_lt_mul_left h2
    omega

/-! ### C04 -/

/-- **C04**  Element `i` of (any chain of) views is element `st + i` of the owning array, for reading and
    for writing, where `st` is the sum of the start indices of the views. -/
theorem C04_view_is_window (vd : Nat) (P st : List Nat) (h : Hdr) (hP : Small P) (hv : ViewOf vd P st h)
    (buf : List S) (hb : buf.length = volume vd P) (i : List Nat) (hi : ValidInd h.shape i) :
    ValidInd P (addVec st i) ∧
    read vd h buf i = read vd (mkHdr vd P) buf (addVec st i) ∧
    ∀ v, write vd h buf i v = write vd (mkHdr vd P) buf (addVec st i) v := by
  have w := hv.window hP
  have hv := w.valid hi
  refine ⟨hv, by rw [read_window w hb hi, read_own hb hv], fun v => ?_⟩
  unfold write
  rw [if_pos ((hasIndex_iff hi.1).2 hi), w.flat (by rw [hi.1, w.lenShape])]
  have : hasIndex (mkHdr vd P).shape (addVec st i) = true := (hasIndex_iff (by simpa [mkHdr] using hv.1)).2 hv
  rw [if_pos this, (mkHdr_window vd P).flat hv.1, addVec_zero P _ hv.1]

/-- **C04**  One `View` call: element `i` of `h.View(s, e)` is element `s + i` of `h`; it has shape `e - s`. -/
theorem C04_view_step (vd : Nat) (P st : List Nat) (h : Hdr) (hP : Small P) (hv : ViewOf vd P st h)
    (s e : List Nat) (hse : LeVec s e) (heh : LeVec e h.shape) :
    (view h s e).shape = subVec e s ∧
    ∀ (buf : List S), buf.length = volume vd P → ∀ i, ValidInd (subVec e s) i →
      ValidInd h.shape (addVec s i) ∧ read vd (view h s e) buf i = read vd h buf (addVec s i) := by
  have w := hv.window hP
  have hsm : Small e := small_of_le (hv.shape_small hP).1 heh
  have hsub : (view h s e).shape = subVec e s := by
    simp only [view]
    exact vsub_eq (fun d hd => hse.2 d (by have := hse.1; omega)) hse.1.symm hsm
  refine ⟨hsub, fun buf hb i hi => ?_⟩
  have hbox := inBox_ext hse.1 hi
  have hval : ValidInd h.shape (addVec s i) := by
    refine ⟨by rw [hbox.2.1, heh.1], fun d hd => ?_⟩
    have := hbox.2.2 d (by rw [hbox.2.1, heh.1]; exact hd)
    have := heh.2 d (by rw [heh.1]; exact hd)
    omega
  refine ⟨hval, ?_⟩
  have w2 := (ViewOf.step hv hse heh).window hP
  rw [read_window w2 hb (by rw [hsub]; exact hi), read_window w hb hval, addVec_assoc]

example : ViewOf 2 [4, 5] (addVec (addVec [0, 0] [1, 1]) [1, 2]) (view (view (mkHdr 2 [4, 5]) [1, 1] [4, 5]) [1, 2] [3, 4]) := by
  refine ViewOf.step (ViewOf.step ViewOf.own ⟨rfl, ?_⟩ ⟨rfl, ?_⟩) ⟨rfl, ?_⟩ ⟨by decide +kernel, ?_⟩ <;> decide +kernel

/-! ### C05 -/

/-- **C05, `fill_from`**  If the (non-empty) source region lies in the source array and its image in the
    destination, every element of the image equals the corresponding source element, and all other elements
    of the destination's owning array are unchanged.  Source and destination may each be owning or views
    (of different buffers). -/
theorem C05_fill_from (vd : Nat)
    (Pd sd : List Nat) (hd : Hdr) (hPd : Small Pd) (hvd : ViewOf vd Pd sd hd) (dst : List S) (hbd : dst.length = volume vd Pd)
    (Ps ss : List Nat) (hs : Hdr) (hPs : Small Ps) (hvs : ViewOf vd Ps ss hs) (src : List S) (hbs : src.length = volume vd Ps)
    (inStart inEnd outStart : List Nat) (hdim : 0 < inStart.length) (hlen : inStart.length = inEnd.length)
    (hin : Fits inStart (subVec inEnd inStart) hs.shape)
    (hout : Fits outStart (subVec inEnd inStart) hd.shape) :
    ∃ dst', fillFrom vd hd dst hs src inStart inEnd outStart = .ok dst' ∧ dst'.length = dst.length ∧
      (∀ k, ValidInd (subVec inEnd inStart) k →
        read vd hd dst' (addVec outStart k) = read vd hs src (addVec inStart k)) ∧
      (∀ j, ValidInd Pd j → (∀ k, ValidInd (subVec inEnd inStart) k → j ≠ addVec sd (addVec outStart k)) →
        read vd (mkHdr vd Pd) dst' j = read vd (mkHdr vd Pd) dst j) := by
  have wd := hvd.window hPd
  have ws := hvs.window hPs
  have smd := (hvd.shape_small hPd).1
  have sms := (hvs.shape_small hPs).1
  obtain ⟨s0, a, e0, z, rfl, rfl, hl0⟩ := split_region hlen hdim
  obtain ⟨o0, b, rfl⟩ := exists_snoc (l := outStart) (by
    have := hout.1; have := hout.2.1; rw [length_subVec hlen.symm] at this; omega)
  have hol : o0.length = s0.length := by
    have h1 := hout.1; have h2 := hout.2.1
    rw [length_subVec hlen.symm] at h2
    simp at h1 h2 hlen; omega
  -- componentwise facts
  have hlt : ∀ d < (s0 ++ [a]).length, (s0 ++ [a]).getD d 0 < (e0 ++ [z]).getD d 0 ∧
      (e0 ++ [z]).getD d 0 ≤ hs.shape.getD d 0 ∧
      (o0 ++ [b]).getD d 0 + ((e0 ++ [z]).getD d 0 - (s0 ++ [a]).getD d 0) ≤ hd.shape.getD d 0 := by
    intro d hd'
    have h1 := hin.2.2 d (by rw [← hin.1]; exact hd')
    have h2 := hout.2.2 d (by rw [← hout.1]; simp at hd' ⊢; omega)
    rw [getD_subVec hlen.symm] at h1 h2
    omega
  have hlast := hlt s0.length (by simp)
  rw [getD_append_last] at hlast
  rw [show (e0 ++ [z]).getD s0.length 0 = z by rw [hl0]; exact getD_append_last] at hlast
  have hz : z < U64 := by have := sms.getD s0.length; omega
  have he0 : ∀ x ∈ e0, x < U64 := by
    intro x hx
    obtain ⟨d, hd', rfl⟩ := List.getElem_of_mem hx
    have := (hlt d (by simp; omega)).2.1
    rw [getD_append_left hd', getD_mem_lt hd'] at this
    have := sms.getD d
    omega
  have hrows := rows_eq hl0 (a := a) (z := z) (by omega) hz he0
  have hboxp : ∀ p, InBox s0 e0 p → ∀ t < z - a, InBox (s0 ++ [a]) (e0 ++ [z]) (p ++ [a + t]) := by
    intro p hp t ht
    exact (inBox_snoc hl0 hp.1).2 ⟨hp, by omega, by omega⟩
  have hsrcval : ∀ p, InBox s0 e0 p → ∀ t < z - a, ValidInd hs.shape (p ++ [a + t]) := by
    intro p hp t ht
    have hb := hboxp p hp t ht
    refine ⟨by rw [hb.1, hin.1], fun d hd' => ?_⟩
    have h1 := hb.2.2 d (by rw [hb.1, hin.1]; exact hd')
    have h2 := hlt d (by rw [hin.1]; exact hd')
    omega
  have hdstval : ∀ p, InBox s0 e0 p → ∀ t < z - a, ValidInd hd.shape (addVec o0 (subVec p s0) ++ [b + t]) := by
    intro p hp t ht
    have hb := hboxp p hp t ht
    have hpl := hp.1
    have hsl : (subVec p s0).length = p.length := length_subVec hp.1
    have hpa : (p ++ [a + t]).length = (s0 ++ [a]).length := by simp [hpl]
    have hsl2 := length_subVec hpa
    have heq : addVec o0 (subVec p s0) ++ [b + t] = addVec (o0 ++ [b]) (subVec (p ++ [a + t]) (s0 ++ [a])) := by
      rw [subVec_snoc hp.1, addVec_snoc (by omega), show a + t - a = t by omega]
    have hob : (o0 ++ [b]).length = (subVec (p ++ [a + t]) (s0 ++ [a])).length := by
      rw [hsl2, hpa]; simp [hol]
    rw [heq]
    refine ⟨by rw [← hout.1, addVec_length hob], fun d hd' => ?_⟩
    have hd2 : d < (s0 ++ [a]).length := by rw [← hpa, ← hsl2, ← hob, hout.1]; exact hd'
    rw [getD_addVec hob, getD_subVec hpa]
    have h2 := hlt d hd2
    have h1 := hb.2.2 d (by rw [hpa]; exact hd2)
    omega
  -- the four assertions
  have hA1 : hasIndex hs.shape (s0 ++ [a]) = true := by
    refine (hasIndex_iff hin.1).2 ⟨hin.1, fun d hd' => ?_⟩
    have := hlt d (by rw [hin.1]; exact hd'); omega
  have hA2 : hasIndex hs.shape (vsubS (e0 ++ [z]) 1) = true := by
    refine (hasIndex_iff (by simp only [vsubS, List.length_map]; rw [← hlen, hin.1])).2
      (vsubS_one_valid (by rw [← hlen, hin.1]) sms fun d hd' => ?_)
    have := hlt d (by rw [hin.1]; exact hd'); omega
  have hA3 : hasIndex hd.shape (o0 ++ [b]) = true := by
    refine (hasIndex_iff hout.1).2 ⟨hout.1, fun d hd' => ?_⟩
    have := hlt d (by rw [← hout.1] at hd'; simp at hd' ⊢; omega); omega
  have hsubE : vsub (e0 ++ [z]) (s0 ++ [a]) = subVec (e0 ++ [z]) (s0 ++ [a]) := by
    refine vsub_eq (fun d hd' => ?_) hlen.symm ?_
    · have := hlt d (by omega); omega
    · intro x hx
      rcases List.mem_append.1 hx with hx | hx
      · exact he0 x hx
      · simp at hx; omega
  have hsel : (subVec (e0 ++ [z]) (s0 ++ [a])).length = (o0 ++ [b]).length := by
    rw [length_subVec hlen.symm]; simp; omega
  have haddE : vadd (o0 ++ [b]) (subVec (e0 ++ [z]) (s0 ++ [a])) = addVec (o0 ++ [b]) (subVec (e0 ++ [z]) (s0 ++ [a])) := by
    refine vadd_eq hsel.symm fun d hd' => ?_
    rw [getD_subVec hlen.symm]
    have := hlt d (by simp at hd' ⊢; omega)
    have := smd.getD d
    omega
  have hA4 : hasIndex hd.shape (vsubS (vadd (o0 ++ [b]) (vsub (e0 ++ [z]) (s0 ++ [a]))) 1) = true := by
    rw [hsubE, haddE]
    have hl4 : (addVec (o0 ++ [b]) (subVec (e0 ++ [z]) (s0 ++ [a]))).length = hd.shape.length := by
      rw [addVec_length hsel.symm, hout.1]
    refine (hasIndex_iff (by simp only [vsubS, List.length_map]; exact hl4)).2 (vsubS_one_valid hl4 smd fun d hd' => ?_)
    rw [getD_addVec hsel.symm, getD_subVec hlen.symm]
    have := hlt d (by rw [← hout.1] at hd'; simp at hd' ⊢; omega)
    omega
  -- run the copy loop
  have hn : wsub (lastD (e0 ++ [z])) (lastD (s0 ++ [a])) = z - a := by
    rw [lastD_append, lastD_append, wsub_eq (by omega) hz]
  obtain ⟨r, r1, r2, r3, r4⟩ := rowsWrite wd dst hbd src (fun p => flatInd hs (p ++ [a]))
    (fun p => addVec o0 (subVec p s0)) b (z - a) (by omega) (elemLoop s0 e0) (elemLoop_nodup s0 e0)
    (fun p hp => hdstval p (mem_elemLoop.1 hp))
    (by
      intro p hp p' hp' he
      have b1 := mem_elemLoop.1 hp
      have b2 := mem_elemLoop.1 hp'
      have l1 := length_subVec b1.1
      have l2 := length_subVec b2.1
      apply vec_ext (by rw [b1.1, b2.1])
      intro d hd'
      have := congrArg (fun v => v.getD d 0) he
      simp only [getD_addVec (a := o0) (b := subVec p s0) (by rw [l1, b1.1, hol]),
        getD_addVec (a := o0) (b := subVec p' s0) (by rw [l2, b2.1, hol]), getD_subVec b1.1, getD_subVec b2.1] at this
      have := (b1.2.2 d hd').1
      have := (b2.2.2 d (by rw [b2.1, ← b1.1]; exact hd')).1
      omega)
    (by
      intro p hp
      have b1 := mem_elemLoop.1 hp
      have hv := ws.valid (hsrcval p b1 (z - a - 1) (by omega))
      have hb := blk_le (vd := vd) hv
      have hpl : (p ++ [a]).length = Ps.length := by
        have := (hsrcval p b1 0 (by omega)).1
        rw [ws.lenShape] at this; simpa using this
      rw [lin_add ws.lenSt (by simpa using hpl), lin_row hpl] at hb
      rw [ws.flat hpl, lin_add ws.lenSt hpl, hbs]
      have : vd * (lin Ps ss + (lin Ps (p ++ [a]) + (z - a - 1))) + vd = vd * (lin Ps ss + lin Ps (p ++ [a])) + (z - a) * vd := by
        rw [← Nat.mul_succ, Nat.mul_comm (z - a) vd, ← Nat.mul_add]
        congr 1; omega
      omega)
  have hloop : fillFrom vd hd dst hs src (s0 ++ [a]) (e0 ++ [z]) (o0 ++ [b]) = .ok r := by
    unfold fillFrom
    simp only [hA1, hA2, hA3, hA4, Res.assert_true, hrows, hn, Res.bind_eq, Res.ok_bind]
    rw [runLoop_map]
    refine Eq.trans (runLoop_congr _ _ ?_) r1
    intro p hp s
    have b1 := mem_elemLoop.1 hp
    congr 2
    have hpa : (p ++ [a]).length = (s0 ++ [a]).length := by simp [b1.1]
    have e1 : vsub (p ++ [a]) (s0 ++ [a]) = subVec (p ++ [a]) (s0 ++ [a]) := by
      refine vsub_eq (fun d hd' => ?_) hpa ?_
      · exact ((hboxp p b1 0 (by omega)).2.2 d (by simpa using hd')).1
      · intro x hx
        obtain ⟨d, hd', rfl⟩ := List.getElem_of_mem hx
        have h1 := (hboxp p b1 0 (by omega)).2.2 d (by simpa using hd')
        have h2 := hlt d (by omega)
        have h3 := sms.getD d
        rw [Nat.add_zero, getD_mem_lt hd'] at h1
        omega
    rw [e1, subVec_snoc b1.1, Nat.sub_self]
    have hsl := length_subVec b1.1
    have hpl0 := b1.1
    rw [vadd_eq (by simp; omega) (fun d hd' => ?_), addVec_snoc (by omega), Nat.add_zero]
    have hvd' := hdstval p b1 0 (by omega)
    have h1 := hvd'.2 d (by rw [← hout.1]; exact hd')
    have h2 := smd.getD d
    rw [Nat.add_zero] at h1
    rw [show addVec o0 (subVec p s0) ++ [b] = addVec (o0 ++ [b]) (subVec p s0 ++ [0]) by
      rw [addVec_snoc (by omega)]; simp, getD_addVec (by simp; omega)] at h1
    omega
  refine ⟨r, hloop, r2, ?_, ?_⟩
  · intro k hk
    have hkl : k.length = (s0 ++ [a]).length := by rw [hk.1, length_subVec hlen.symm, hlen]
    obtain ⟨k0, t, rfl⟩ := exists_snoc (l := k) (by rw [hkl]; simp)
    have hkl0 : k0.length = s0.length := by simpa using hkl
    have hbk := inBox_ext hlen hk
    rw [addVec_snoc (by omega)] at hbk
    have hb2 := (inBox_snoc hl0 (by rw [addVec_length (by omega)])).1 hbk
    have ht : t < z - a := by omega
    have hsub0 : subVec (addVec s0 k0) s0 = k0 := by
      apply vec_ext (by rw [length_subVec (by rw [addVec_length (by omega)]), addVec_length (by omega), hkl0])
      intro d _
      rw [getD_subVec (by rw [addVec_length (by omega)]), getD_addVec (by omega)]
      omega
    have e3 := r3 (addVec s0 k0) (mem_elemLoop.2 hb2.1) t ht
    have v1 := hdstval _ hb2.1 t ht
    have v2 := hsrcval _ hb2.1 t ht
    rw [hsub0] at e3 v1
    rw [addVec_snoc (a := o0) (by omega), addVec_snoc (a := s0) (by omega)]
    rw [read_window wd (by rw [r2, hbd]) v1, read_window ws hbs v2]
    refine congrArg Res.ok (Eq.trans e3 ?_)
    congr 2
    have hpl : (addVec s0 k0 ++ [a]).length = Ps.length := by
      have := v2.1; rw [ws.lenShape] at this; simpa using this
    rw [ws.flat hpl, lin_add ws.lenSt hpl, lin_add ws.lenSt (by simpa using hpl), lin_row hpl]
    rw [Nat.mul_comm t vd, ← Nat.mul_add, Nat.add_assoc]
  · intro j hj hne
    rw [read_own (by rw [r2, hbd]) hj, read_own hbd hj]
    congr 1
    apply r4 j hj
    intro p hp t ht he
    have b1 := mem_elemLoop.1 hp
    have hsl := length_subVec b1.1
    refine hne (subVec p s0 ++ [t]) ?_ ?_
    · have := valid_of_inBox (hboxp p b1 t ht)
      rw [subVec_snoc b1.1] at this
      have h2 : a + t - a = t := by omega
      rw [h2] at this
      exact this.1
    · rw [he, addVec_snoc (a := o0) (by rw [hsl, b1.1, hol])]

end Verif.ND
