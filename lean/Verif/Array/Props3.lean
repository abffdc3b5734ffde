import Verif.Array.LoopLemmas
/-
C07 (swapping axes), C08 (copying), C09 (element iteration).
-/
namespace Verif.ND
open Verif
variable {S : Type}

/-! ### C05, one more function -/

/-- **C05, `fill_from<axis>` along the last axis**  The elements of a non-empty one-dimensional array are written to consecutive positions of the last axis, from `start` on; all other
    elements keep their values. -/
theorem C05_fill_row (vd : Nat) (P : List Nat) (hP : Small P) (buf : List S) (hb : buf.length = volume vd P) (m : Nat) (hm : 0 < m) (row : List S) (hr : row.length = volume vd [m])
    (start : List Nat) (b : Nat) (hs : ValidInd P (start ++ [b])) (he : ValidInd P (start ++ [b + (m - 1)])) :
    ∃ buf', fillRow vd (mkHdr vd P) buf (mkHdr vd [m]) row (start ++ [b]) = .ok buf' ∧ buf'.length = buf.length ∧
      (∀ k < m, read vd (mkHdr vd P) buf' (start ++ [b + k]) = read1 vd (mkHdr vd [m]) row k) ∧
      ∀ j, ValidInd P j → (∀ k < m, j ≠ start ++ [b + k]) → read vd (mkHdr vd P) buf' j = read vd (mkHdr vd P) buf j := by
  have w := mkHdr_window vd P
  have hl : (start ++ [b]).length = P.length := hs.1
  have hlen : P.length = start.length + 1 := by rw [← hl]; simp
  have hlt := he.2 start.length (by omega)
  rw [getD_append_last] at hlt
  have hval : ∀ t < m, ValidInd P (start ++ [b + t]) := by
    intro t ht
    refine ⟨by simpa using hl, fun d hd => ?_⟩
    by_cases h : d < start.length
    · have := hs.2 d hd
      rwa [getD_append_left h] at this ⊢
    · have : d = start.length := by omega
      rw [this, getD_append_last]; omega
  have hU : U64 = 2 ^ 64 := rfl
  have hsm := hP.getD start.length
  have hv : volume vd [m] = vd * m := by simp [volume_eq, prod, Nat.mul_comm]
  have hbd := row_bound w (n := m) hm hval
  rw [hv] at hr
  obtain ⟨r, e1, e2, e3⟩ := copyN_spec (src := row) (so := 0) (n := vd * m) (dst := buf) (d := flatInd (mkHdr vd P) (start ++ [b])) (by omega) (by rw [hb, Nat.mul_comm]; exact hbd)
  refine ⟨r, ?_, e2, ?_, ?_⟩
  · unfold fillRow
    have hsh : (mkHdr vd [m]).shape.getD 0 0 = m := rfl
    have hset : (start ++ [b]).set ((start ++ [b]).length - 1) (wadd (lastD (start ++ [b])) (wsub m 1)) = start ++ [b + (m - 1)] := by
      rw [lastD_append, wsub_eq (by omega) (by omega), wadd_eq (by omega)]
      simp
    have h1 : hasIndex (mkHdr vd P).shape (start ++ [b]) = true := (hasIndex_iff hs.1).2 hs
    have h2 : hasIndex (mkHdr vd P).shape (start ++ [b + (m - 1)]) = true := (hasIndex_iff he.1).2 he
    have o1 : (mkHdr vd P).owns = true := rfl
    have o2 : (mkHdr vd [m]).owns = true := rfl
    rw [o1, o2, hsh]
    simp only [hset, h1, h2, Res.assert, if_true, Res.ok_bind]
    exact e1
  · intro k hk
    rw [read_window w (by rw [e2, hb]) (hval k hk)]
    have hb1 : vd * k + vd ≤ row.length := by
      rw [hr, ← Nat.mul_succ]; exact Nat.mul_le_mul_left _ (by omega)
    unfold read1
    rw [if_pos (by simp [hasIndex, mkHdr, hk]), if_pos hb1]
    congr 1
    apply block_ext
    intro q hq
    rw [pos_row w hl, e3, if_pos (by
      have : vd * k + q < vd * m := by omega
      rw [Nat.mul_comm k]; omega)]
    congr 1
    rw [Nat.mul_comm k]; omega
  · intro j hj hne
    rw [read_own (by rw [e2, hb]) hj, read_own hb hj]
    congr 1
    apply block_ext
    intro q hq
    rw [e3, if_neg]
    intro hh
    have f0 : flatInd (mkHdr vd P) (start ++ [b]) = vd * lin P (start ++ [b]) := by
      rw [w.flat hl, addVec_zero P _ hl]
    rw [f0] at hh
    have h1 : vd * lin P (start ++ [b]) < vd * (lin P j + 1) := by rw [Nat.mul_add]; omega
    have h2 : vd * lin P j < vd * (lin P (start ++ [b]) + m) := by rw [Nat.mul_add]; omega
    have g1 := Nat.lt_of_mul_lt_mul_left h1
    have g2 := Nat.lt_of_mul_lt_mul_left h2
    apply hne (lin P j - lin P (start ++ [b])) (by omega)
    apply lin_inj hj (hval _ (by omega))
    rw [lin_row hl]
    omega

example : fillRow 2 (mkHdr 2 [2, 3]) [1,2,3,4,5,6,7,8,9,10,11,12] (mkHdr 2 [2]) [-1,-2,-3,-4] [1, 1] = .ok [1,2,3,4,5,6,7,8,-1,-2,-3,-4] := by decide +kernel
example : ValidInd [2, 3] ([1] ++ [1]) ∧ ValidInd [2, 3] ([1] ++ [1 + (2 - 1)]) := ⟨⟨rfl, by decide⟩, ⟨rfl, by decide⟩⟩

/-! ### C09 -/

/-- **C09**  `index_loop_over_elements(s, e, worker)` on an array or view calls the worker once for every index of
    the region, in row-major order, with the element stored at that index. -/
theorem C09_index_loop (vd : Nat) (P st : List Nat) (h : Hdr) (hP : Small P) (hv : ViewOf vd P st h)
    (buf : List S) (hb : buf.length = volume vd P) (s e : List Nat) (hd : 0 < s.length) (hl : s.length = e.length)
    (hsh : LeVec e h.shape) :
    ∃ calls, indexLoop vd h buf s e = .ok calls ∧
      (calls.map Prod.fst).Pairwise LexLt ∧ (∀ i, i ∈ calls.map Prod.fst ↔ InBox s e i) ∧
      ∀ c ∈ calls, read vd h buf c.1 = .ok c.2 := by
  have w := hv.window hP
  refine ⟨_, indexLoop_eq w (hv.shape_small hP).1 hb hd hl hsh, ?_, ?_, ?_⟩
  · rw [List.map_map]
    show (List.map id _).Pairwise _
    rw [List.map_id]
    exact elemLoop_pairwise s e
  · intro i
    rw [List.map_map]
    show i ∈ List.map id _ ↔ _
    rw [List.map_id]
    exact mem_elemLoop
  · intro c hc
    obtain ⟨i, hi, rfl⟩ := List.mem_map.1 hc
    have hbx := mem_elemLoop.1 hi
    have hval : ValidInd h.shape i := by
      refine ⟨by rw [hbx.2.1, hsh.1], fun d hd => ?_⟩
      have h1 := hbx.2.2 d (by rw [hbx.2.1, hsh.1]; exact hd)
      have h2 := hsh.2 d (by rw [hsh.1]; exact hd)
      omega
    exact read_window w hb hval

theorem loopElems_eq {vd : Nat} {P st : List Nat} {h : Hdr} (w : IsWindow vd P st h) (hsm : Small h.shape) {buf : List S}
    (hb : buf.length = volume vd P) (hd : 0 < h.shape.length) :
    loopElems vd h buf = .ok ((elemLoop (h.shape.map fun _ => 0) h.shape).map fun i => blk vd P buf (addVec st i)) := by
  unfold loopElems
  rcases shape_cases hd hsm with ⟨h1, h2⟩ | ⟨e0, z, hez, hz, hr⟩
  · obtain ⟨boxes, hb1, hb2⟩ := arrayRows hsm h1
    have : boxes = [] := by simpa using hb2
    subst this
    have hnil : elemLoop (h.shape.map fun _ => 0) h.shape = [] := by
      rw [List.eq_nil_iff_forall_not_mem]
      intro i hi
      exact h2 i (inBox_zero_iff.1 (mem_elemLoop.1 hi))
    simp only [hb1, hnil, Res.bind_eq, Res.ok_bind]
    rfl
  · obtain ⟨boxes, hb1, hb2⟩ := arrayRows hsm hr
    simp only [hb1, Res.bind_eq, Res.ok_bind]
    have hstep := runLoop_map (σ := List (List S)) Prod.fst
      (fun lo acc => (rowElems vd h buf (lastD h.shape) lo).bind fun xs => .ok (acc ++ xs.map Prod.snd)) boxes []
    rw [hb2] at hstep
    rw [← hstep, runLoop_map, hez, List.map_append, lastD_append]
    have hlv : LeVec (e0 ++ [z]) h.shape := by rw [hez]; exact ⟨rfl, fun _ _ => Nat.le_refl _⟩
    have hacc := runLoop_acc (κ := List S)
      (fun p => (rowElems vd h buf z (p ++ [0])).bind fun xs => .ok (xs.map Prod.snd))
      (fun p => (List.range z).map fun t => blk vd P buf (addVec st (p ++ [0 + t])))
      (elemLoop (e0.map fun _ => 0) e0) []
      (fun p hp => by
        rw [rowElems_eq w hb hz (fun t ht => row_valid (by simp) hlv hp (by omega))]
        simp)
    have hcongr := runLoop_congr (σ := List (List S))
      (f := fun p acc => (rowElems vd h buf z (p ++ [0])).bind fun xs => .ok (acc ++ xs.map Prod.snd))
      (g := fun p acc => ((rowElems vd h buf z (p ++ [0])).bind fun xs => .ok (xs.map Prod.snd)).bind fun xs => .ok (acc ++ xs))
      (elemLoop (e0.map fun _ => 0) e0) [] (fun p _ acc => by
        cases rowElems vd h buf z (p ++ [0]) <;> simp [Res.bind])
    rw [hcongr, hacc, List.nil_append, show List.map (fun _ => 0) [z] = [0] from rfl,
      elemLoop_snoc 0 z _ e0 (by simp), List.map_flatMap]
    congr 1
    congr 1
    funext p
    rw [forRange_eq, List.range'_eq_map_range, List.map_map, List.map_map]
    rfl

/-- **C09**  `loop_over_elements` delivers the elements that `index_loop_over_elements` delivers, in the same order. -/
theorem C09_loop_over_elements (vd : Nat) (P st : List Nat) (h : Hdr) (hP : Small P) (hv : ViewOf vd P st h)
    (buf : List S) (hb : buf.length = volume vd P) (hd : 0 < h.shape.length) :
    ∃ calls, indexLoopAll vd h buf = .ok calls ∧ loopElems vd h buf = .ok (calls.map Prod.snd) ∧
      (calls.map Prod.fst).Pairwise LexLt ∧ (∀ i, i ∈ calls.map Prod.fst ↔ ValidInd h.shape i) ∧
      ∀ c ∈ calls, read vd h buf c.1 = .ok c.2 := by
  have w := hv.window hP
  have hsm := (hv.shape_small hP).1
  have hlv : LeVec h.shape h.shape := ⟨rfl, fun _ _ => Nat.le_refl _⟩
  obtain ⟨calls, h1, h2, h3, h4⟩ := C09_index_loop vd P st h hP hv buf hb (h.shape.map fun _ => 0) h.shape
    (by simpa using hd) (by simp) hlv
  refine ⟨calls, h1, ?_, h2, fun i => by rw [h3, inBox_zero_iff], h4⟩
  rw [loopElems_eq w hsm hb hd]
  rw [indexLoop_eq w hsm hb (by simpa using hd) (by simp) hlv] at h1
  cases h1
  rw [List.map_map]
  rfl

/-- **C09**  `apply_sequential(outer, inner, worker)` calls the worker for the listed positions of the last axis, counted from `outer`, in the order of the list (which may repeat positions), with the
    element stored there. -/
theorem C09_apply_sequential (vd : Nat) (P st : List Nat) (h : Hdr) (hP : Small P) (hv : ViewOf vd P st h)
    (buf : List S) (hb : buf.length = volume vd P) (outer : List Nat) (a : Nat) (inner : List Nat) (hi : ∀ k ∈ inner, ValidInd h.shape (outer ++ [a + k])) :
    ∃ calls, applySequential vd h buf (outer ++ [a]) inner = .ok calls ∧ 
      calls.map Res.ok = inner.map fun k => read vd h buf (outer ++ [a + k]) := by
  have w := hv.window hP
  unfold applySequential
  induction inner with
  | nil => exact ⟨[], rfl, rfl⟩
  | cons k ks ih =>
    obtain ⟨calls, h1, h2⟩ := ih (fun j hj => hi j (by simp [hj]))
    have hk := hi k (by simp)
    have hl : (outer ++ [a]).length = P.length := by
      have := hk.1
      rw [w.lenShape] at this
      simpa using this
    have hbd := blk_le (vd := vd) (w.valid hk)
    rw [pos_row w hl, ← hb] at hbd
    refine ⟨(buf.drop (flatInd h (outer ++ [a]) + k * vd)).take vd :: calls, ?_, ?_⟩
    · rw [List.foldr_cons, if_pos hbd, h1]; rfl
    · rw [List.map_cons, List.map_cons, h2, read_window w hb hk, pos_row w hl]

example : applySequential 1 (view (mkHdr 1 [2, 3]) [0, 1] [2, 3]) [1,2,3,4,5,6] [1, 0] [1, 0, 1] = .ok [[6], [5], [6]] := by decide +kernel
example : ∀ k ∈ [1, 0, 1], ValidInd (view (mkHdr 1 [2, 3]) [0, 1] [2, 3]).shape ([1] ++ [0 + k]) := by
  intro k hk
  refine ⟨rfl, ?_⟩
  have : k < 2 := by simp at hk; omega
  have hk' : k = 0 ∨ k = 1 := by omega
  rcases hk' with rfl | rfl <;> decide +kernel

theorem isAllNull_run (buf : List S) (null : S → Bool) (pos : List Nat → Nat) (n : Nat) :
    ∀ (L : List (List Nat)) (flag : Bool), (∀ p ∈ L, pos p + n ≤ buf.length) →
    runLoop (fun p flag => if flag = false then .ok flag
      else if pos p + n ≤ buf.length then .ok (((buf.drop (pos p)).take n).all null) else .ub) L flag
      = .ok (flag && L.all fun p => ((buf.drop (pos p)).take n).all null)
  | [], flag, _ => by simp [runLoop]
  | p :: ps, flag, h => by
      simp only [runLoop]
      cases flag with
      | false =>
        simp only [if_pos, Res.ok_bind]
        rw [isAllNull_run buf null pos n ps false (fun q hq => h q (by simp [hq]))]
        simp
      | true =>
        rw [if_neg (by simp), if_pos (h p (by simp))]
        simp only [Res.ok_bind]
        rw [isAllNull_run buf null pos n ps _ (fun q hq => h q (by simp [hq]))]
        simp

/-- **C09**  `IsAllNull` is true exactly if every scalar of every element is null. -/
theorem C09_is_all_null (vd : Nat) (P st : List Nat) (h : Hdr) (hP : Small P) (hv : ViewOf vd P st h)
    (buf : List S) (hb : buf.length = volume vd P) (hd : 0 < h.shape.length) (null : S → Bool) :
    ∃ b, isAllNull vd h buf null = .ok b ∧
      (b = true ↔ ∀ i v, ValidInd h.shape i → read vd h buf i = .ok v → ∀ x ∈ v, null x = true) := by
  have w := hv.window hP
  have hsm := (hv.shape_small hP).1
  unfold isAllNull
  rcases shape_cases hd hsm with ⟨h1, h2⟩ | ⟨e0, z, hez, hz, hr⟩
  · obtain ⟨boxes, hb1, hb2⟩ := arrayRows hsm h1
    have : boxes = [] := by simpa using hb2
    subst this
    simp only [hb1, Res.bind_eq, Res.ok_bind]
    exact ⟨true, rfl, by simp only [true_iff]; intro i v hi; exact (h2 i hi).elim⟩
  · obtain ⟨boxes, hb1, hb2⟩ := arrayRows hsm hr
    simp only [hb1, Res.bind_eq, Res.ok_bind]
    have hlv : LeVec (e0 ++ [z]) h.shape := by rw [hez]; exact ⟨rfl, fun _ _ => Nat.le_refl _⟩
    have hstep := runLoop_map (σ := Bool) Prod.fst
      (fun lo flag => if flag = false then .ok flag
        else if flatInd h lo + lastD h.shape * vd ≤ buf.length then
          .ok (((buf.drop (flatInd h lo)).take (lastD h.shape * vd)).all null) else .ub) boxes true
    rw [hb2] at hstep
    have hlast : lastD h.shape = z := by rw [hez, lastD_append]
    rw [← hstep, runLoop_map, hlast,
      isAllNull_run buf null (fun p => flatInd h (p ++ [0])) (z * vd) _ true (fun p hp => by
        rw [hb]; exact row_bound w hz (fun t ht => row_valid (by simp) hlv hp (by omega)))]
    refine ⟨_, rfl, ?_⟩
    have hlen : ∀ p ∈ elemLoop (e0.map fun _ => 0) e0, (p ++ [0]).length = P.length := by
      intro p hp
      have := (row_valid (a := 0) (t := 0) (by simp) hlv hp hz).1
      rw [w.lenShape] at this
      simpa using this
    rw [Bool.true_and, List.all_eq_true]
    constructor
    · intro hall i v hi hrd x hx
      rw [read_window w hb hi] at hrd
      cases hrd
      have hi2 := inBox_of_valid hi
      obtain ⟨p, t, rfl⟩ := exists_snoc (l := i) (by rw [hi.1]; exact hd)
      rw [hez, List.map_append] at hi2
      have hpl : p.length = (e0.map fun _ => 0).length := by
        have := hi2.2.1; simpa using this
      obtain ⟨hp, ht0, ht⟩ := (inBox_snoc (by simp) hpl).1 hi2
      have hp' := mem_elemLoop.2 hp
      have hrow := hall p hp'
      rw [List.all_eq_true] at hrow
      apply hrow
      have hpos := pos_row (vd := vd) w (hlen p hp') t
      rw [Nat.zero_add] at hpos
      rw [hpos] at hx
      obtain ⟨k, hk, rfl⟩ := List.getElem_of_mem hx
      rw [List.length_take, List.length_drop] at hk
      apply List.mem_iff_getElem?.2
      refine ⟨t * vd + k, ?_⟩
      have h5 : t * vd + vd ≤ z * vd := by rw [← Nat.succ_mul]; exact Nat.mul_le_mul_right _ ht
      rw [List.getElem?_take, if_pos (by omega), List.getElem?_drop, List.getElem_take, List.getElem_drop,
        List.getElem?_eq_some_iff]
      have h6 : flatInd h (p ++ [0]) + (t * vd + k) = flatInd h (p ++ [0]) + t * vd + k := by omega
      refine ⟨by omega, ?_⟩
      simp only [h6]
    · intro hall p hp
      rw [List.all_eq_true]
      intro x hx
      have hvd : 0 < vd := by
        apply Nat.pos_of_ne_zero
        rintro rfl
        simp at hx
      obtain ⟨k, hk, rfl⟩ := List.getElem_of_mem hx
      have hkz : k < z * vd := by rw [List.length_take] at hk; omega
      have ht : k / vd < z := Nat.div_lt_of_lt_mul (by rw [Nat.mul_comm]; exact hkz)
      have hval := row_valid (a := 0) (t := k / vd) (by simp) hlv hp (by omega)
      have hrd := read_window w hb hval
      apply hall _ _ hval hrd
      rw [pos_row w (hlen p hp)]
      apply List.mem_iff_getElem?.2
      refine ⟨k % vd, ?_⟩
      have hdm : k / vd * vd + k % vd = k := by rw [Nat.mul_comm]; exact Nat.div_add_mod k vd
      rw [List.getElem?_take, if_pos (Nat.mod_lt _ hvd), List.getElem?_drop, List.getElem_take, List.getElem_drop,
        Nat.add_assoc, hdm]
      rw [List.getElem?_eq_getElem]

example : ViewOf 1 [2, 3] [0, 1] (view (mkHdr 1 [2, 3]) [0, 1] [2, 3]) :=
  ViewOf.step (st := [0, 0]) (h := mkHdr 1 [2, 3]) (s := [0, 1]) (e := [2, 3]) ViewOf.own ⟨rfl, by decide⟩ ⟨rfl, by decide⟩
example : indexLoopAll 1 (view (mkHdr 1 [2, 3]) [0, 1] [2, 3]) [1,2,3,4,5,6]
    = .ok [([0,0],[2]), ([0,1],[3]), ([1,0],[5]), ([1,1],[6])] := by decide +kernel
example : isAllNull 1 (view (mkHdr 1 [2, 3]) [0, 1] [2, 3]) [1,0,0,4,0,0] (· == 0) = .ok true := by decide +kernel
example : isAllNull 1 (mkHdr 1 [2, 3]) [1,0,0,4,0,0] (· == 0) = .ok false := by decide +kernel

/-! ### C07 -/

theorem runWrites {vd : Nat} {P : List Nat} (hP : Small P) : ∀ (L : List (List Nat × List S)) (buf : List S),
    buf.length = volume vd P → (∀ x ∈ L, ValidInd P x.1 ∧ x.2.length = vd) → (L.map Prod.fst).Nodup →
    ∃ buf', runLoop (fun x d => write vd (mkHdr vd P) d x.1 x.2) L buf = .ok buf' ∧ buf'.length = buf.length ∧
      (∀ x ∈ L, read vd (mkHdr vd P) buf' x.1 = .ok x.2) ∧
      (∀ j, ValidInd P j → j ∉ L.map Prod.fst → read vd (mkHdr vd P) buf' j = read vd (mkHdr vd P) buf j)
  | [], buf, _, _, _ => ⟨buf, rfl, rfl, by simp, fun _ _ _ => rfl⟩
  | x :: xs, buf, hb, hL, hn => by
      obtain ⟨b1, w1, w2, w3, w4⟩ := C03_write_read vd P _ (mkHdr vd P) hP ViewOf.own buf hb x.1 (hL x (by simp)).1 x.2
        (hL x (by simp)).2
      rw [List.map_cons, List.nodup_cons] at hn
      obtain ⟨b2, r1, r2, r3, r4⟩ := runWrites hP xs b1 (by omega) (fun y hy => hL y (by simp [hy])) hn.2
      refine ⟨b2, ?_, by omega, ?_, ?_⟩
      · simp only [runLoop, w1, Res.ok_bind, r1]
      · intro y hy
        rcases List.mem_cons.1 hy with rfl | hy
        · rw [r4 _ (hL y (by simp)).1 hn.1, w3]
        · exact r3 y hy
      · intro j hj hjn
        simp only [List.map_cons, List.mem_cons, not_or] at hjn
        rw [r4 j hj hjn.2, w4 j hj (by rw [addVec_zero P x.1 (hL x (by simp)).1.1]; exact hjn.1)]

theorem getD_set {v : List Nat} {p x d : Nat} :
    (v.set p x).getD d 0 = if p = d ∧ d < v.length then x else v.getD d 0 := by
  rw [List.getD_eq_getElem?_getD, List.getElem?_set, List.getD_eq_getElem?_getD]
  by_cases h1 : p = d
  · subst h1
    by_cases h2 : p < v.length
    · simp [h2]
    · simp [h2]
  · simp [h1]

theorem length_swapAt (v : List Nat) (p q : Nat) : (swapAt v p q).length = v.length := by simp [swapAt]

theorem getD_swapAt {v : List Nat} {p q : Nat} (hp : p < v.length) (hq : q < v.length) (d : Nat) :
    (swapAt v p q).getD d 0 = v.getD (if d = p then q else if d = q then p else d) 0 := by
  unfold swapAt
  rw [getD_set, getD_set, List.length_set]
  by_cases h1 : d = q
  · subst h1
    rw [if_pos ⟨rfl, hq⟩]
    by_cases h2 : d = p
    · subst h2; simp
    · simp [h2]
  · rw [if_neg (by omega)]
    by_cases h2 : d = p
    · subst h2; simp [hp]
    · rw [if_neg (by omega)]; simp [h1, h2]

theorem swapAt_swapAt {v : List Nat} {p q : Nat} (hp : p < v.length) (hq : q < v.length) :
    swapAt (swapAt v p q) p q = v := by
  apply vec_ext (by simp [length_swapAt])
  intro d _
  rw [getD_swapAt (by rw [length_swapAt]; exact hp) (by rw [length_swapAt]; exact hq), getD_swapAt hp hq]
  congr 1
  by_cases h1 : d = p
  · subst h1; by_cases h2 : q = d <;> simp [h2]
  · by_cases h2 : d = q
    · subst h2; simp [h1]
    · simp [h1, h2]

theorem valid_swapAt {shape i : List Nat} {p q : Nat} (hp : p < shape.length) (hq : q < shape.length)
    (h : ValidInd shape i) : ValidInd (swapAt shape p q) (swapAt i p q) := by
  refine ⟨by simp [length_swapAt, h.1], fun d hd => ?_⟩
  rw [length_swapAt] at hd
  rw [getD_swapAt hp hq, getD_swapAt (by rw [h.1]; exact hp) (by rw [h.1]; exact hq)]
  apply h.2
  split
  · exact hq
  · split
    · exact hp
    · exact hd

theorem small_swapAt {shape : List Nat} {p q : Nat} (hp : p < shape.length) (hq : q < shape.length) (h : Small shape) :
    Small (swapAt shape p q) := by
  intro x hx
  obtain ⟨d, hd, rfl⟩ := List.getElem_of_mem hx
  have h1 := getD_swapAt hp hq d
  rw [List.getD_eq_getElem?_getD, List.getElem?_eq_getElem hd, Option.getD_some] at h1
  rw [h1]
  exact h.getD _

/-- **C07**  `SwapAxes<p, q>` of an array or view into any owning array (of any previous shape): the result has the
    extents `p` and `q` exchanged and holds at the swapped index the element of the source. -/
theorem C07_swap_axes (vd : Nat) (P st : List Nat) (h : Hdr) (hP : Small P) (hv : ViewOf vd P st h)
    (buf : List S) (hb : buf.length = volume vd P) (p q : Nat) (hp : p < h.shape.length) (hq : q < h.shape.length)
    (Q : List Nat) (dst : List S) (junk : Nat → S) :
    ∃ out, swapAxes vd h buf (mkHdr vd Q) dst p q junk = .ok (mkHdr vd (swapAt h.shape p q), out) ∧
      out.length = volume vd (swapAt h.shape p q) ∧
      ∀ i, ValidInd h.shape i →
        ValidInd (swapAt h.shape p q) (swapAt i p q) ∧
        read vd (mkHdr vd (swapAt h.shape p q)) out (swapAt i p q) = read vd h buf i := by
  have w := hv.window hP
  have hsm := (hv.shape_small hP).1
  have hlv : LeVec h.shape h.shape := ⟨rfl, fun _ _ => Nat.le_refl _⟩
  unfold swapAxes
  rw [resize_own]
  simp only [Res.bind_eq, Res.ok_bind]
  have hil : indexLoopAll vd h buf = _ := indexLoop_eq w hsm hb (by simp; omega) (by simp) hlv
  rw [hil]
  simp only [Res.ok_bind]
  have hmap := runLoop_map (fun x : List Nat × List S => (swapAt x.1 p q, x.2))
    (fun (x : List Nat × List S) d => write vd (mkHdr vd (swapAt h.shape p q)) d x.1 x.2)
    ((elemLoop (h.shape.map fun _ => 0) h.shape).map fun i => (i, blk vd P buf (addVec st i)))
    ((List.range (volume vd (swapAt h.shape p q))).map fun k => dst.getD k (junk k))
  rw [List.map_map] at hmap
  have hval : ∀ i, i ∈ elemLoop (h.shape.map fun _ => 0) h.shape ↔ ValidInd h.shape i :=
    fun i => by rw [mem_elemLoop, inBox_zero_iff]
  obtain ⟨out, r1, r2, r3, _⟩ := runWrites (vd := vd) (small_swapAt hp hq hsm)
    ((elemLoop (h.shape.map fun _ => 0) h.shape).map
      ((fun x : List Nat × List S => (swapAt x.1 p q, x.2)) ∘ fun i => (i, blk vd P buf (addVec st i))))
    ((List.range (volume vd (swapAt h.shape p q))).map fun k => dst.getD k (junk k)) (by simp)
    (by
      intro x hx
      obtain ⟨i, hi, rfl⟩ := List.mem_map.1 hx
      have hi := (hval i).1 hi
      refine ⟨valid_swapAt hp hq hi, ?_⟩
      simp only [Function.comp, blk, List.length_take, List.length_drop]
      have := blk_le (vd := vd) (w.valid hi)
      omega)
    (by
      rw [List.map_map, List.Nodup, List.pairwise_map]
      apply List.Pairwise.imp_of_mem _ (elemLoop_nodup (h.shape.map fun _ => 0) h.shape)
      intro i j hi hj hne heq
      simp only [Function.comp] at heq
      have hi := (hval i).1 hi
      have hj := (hval j).1 hj
      apply hne
      rw [← swapAt_swapAt (v := i) (p := p) (q := q) (by rw [hi.1]; exact hp) (by rw [hi.1]; exact hq), heq,
        swapAt_swapAt (by rw [hj.1]; exact hp) (by rw [hj.1]; exact hq)])
  refine ⟨out, ?_, by simpa using r2, ?_⟩
  · rw [← hmap, r1]; rfl
  · intro i hi
    refine ⟨valid_swapAt hp hq hi, ?_⟩
    rw [read_window w hb hi]
    exact r3 _ (List.mem_map.2 ⟨i, (hval i).2 hi, rfl⟩)

/-- **C07**  Swapping the same axes twice restores the array. -/
theorem C07_swap_twice (vd : Nat) (P : List Nat) (hP : Small P) (buf : List S) (hb : buf.length = volume vd P)
    (p q : Nat) (hp : p < P.length) (hq : q < P.length) (Q Q' : List Nat) (dst dst' : List S) (junk junk' : Nat → S) :
    ∃ mid out, swapAxes vd (mkHdr vd P) buf (mkHdr vd Q) dst p q junk = .ok (mkHdr vd (swapAt P p q), mid) ∧
      swapAxes vd (mkHdr vd (swapAt P p q)) mid (mkHdr vd Q') dst' p q junk' = .ok (mkHdr vd P, out) ∧
      ∀ i, ValidInd P i → read vd (mkHdr vd P) out i = read vd (mkHdr vd P) buf i := by
  obtain ⟨mid, m1, m2, m3⟩ := C07_swap_axes vd P _ (mkHdr vd P) hP ViewOf.own buf hb p q hp hq Q dst junk
  have hp' : p < (swapAt P p q).length := by rw [length_swapAt]; exact hp
  have hq' : q < (swapAt P p q).length := by rw [length_swapAt]; exact hq
  obtain ⟨out, o1, o2, o3⟩ := C07_swap_axes vd (swapAt P p q) _ (mkHdr vd (swapAt P p q)) (small_swapAt hp hq hP)
    ViewOf.own mid m2 p q hp' hq' Q' dst' junk'
  simp only [mkHdr] at o1 o2 o3 m1 m2 m3 hp' hq' ⊢
  rw [swapAt_swapAt hp hq] at o1 o2 o3
  refine ⟨mid, out, m1, o1, fun i hi => ?_⟩
  have hs := m3 i hi
  have ho := o3 _ hs.1
  rw [swapAt_swapAt (by rw [hi.1]; exact hp) (by rw [hi.1]; exact hq)] at ho
  rw [ho.2, hs.2]

example : swapAxes 1 (mkHdr 1 [2, 3]) [1,2,3,4,5,6] (mkHdr 1 [1, 1]) [0] 0 1 (fun _ => 0)
    = .ok (mkHdr 1 [3, 2], [1,4,2,5,3,6]) := by decide +kernel

/-! ### C08 -/

/-- The full claim of C08 for one source: copying `(hs, src)` over an owning array gives an owning array of the
    same shape with equal elements. -/
def CopyEqual (vd : Nat) (hs : Hdr) (src : List S) (r : Res (Hdr × List S)) : Prop :=
  ∃ out, r = .ok (mkHdr vd hs.shape, out) ∧ out.length = volume vd hs.shape ∧
    ∀ i, ValidInd hs.shape i → read vd (mkHdr vd hs.shape) out i = read vd hs src i

/-- **C08, proved part**: copy assignment from an *owning* array (not a view), into an owning array of any shape. -/
theorem C08_assign_partial (vd : Nat) (P : List Nat) (hP : Small P) (hd0 : 0 < P.length) (src : List S)
    (hs : src.length = volume vd P) (Q : List Nat) (dst : List S) (junk : Nat → S) :
    CopyEqual vd (mkHdr vd P) src (assign vd (mkHdr vd Q) dst (mkHdr vd P) src junk) := by
  unfold CopyEqual assign
  have w := mkHdr_window vd P
  rw [resize_own]
  simp only [Res.bind_eq, Res.ok_bind]
  rcases shape_cases hd0 hP with ⟨h1, h2⟩ | ⟨e0, z, hez, hz, hr⟩
  · obtain ⟨boxes, hb1, hb2⟩ := arrayRows hP h1
    have : boxes = [] := by simpa using hb2
    subst this
    refine ⟨(List.range (volume vd P)).map fun k => dst.getD k (junk k), ?_, by simp [mkHdr], fun i hi => (h2 i hi).elim⟩
    simp only [mkHdr] at *
    simp only [hb1, Res.ok_bind]
    rfl
  · obtain ⟨boxes, hb1, hb2⟩ := arrayRows hP hr
    have hlv : LeVec (e0 ++ [z]) P := by rw [hez]; exact ⟨rfl, fun _ _ => Nat.le_refl _⟩
    have hlast : lastD P = z := by rw [hez, lastD_append]
    have hstep := runLoop_map (σ := List S) Prod.fst
      (fun lo d => copyN src (flatInd (mkHdr vd P) lo) (z * vd) d (flatInd (mkHdr vd P) lo)) boxes
      ((List.range (volume vd P)).map fun k => dst.getD k (junk k))
    rw [hb2] at hstep
    obtain ⟨r, q1, q2, q3, _⟩ := rowsWrite w ((List.range (volume vd P)).map fun k => dst.getD k (junk k)) (by simp)
      src (fun p => flatInd (mkHdr vd P) (p ++ [0])) id 0 z hz (elemLoop (e0.map fun _ => 0) e0) (elemLoop_nodup _ _)
      (fun p hp t ht => row_valid (by simp) hlv hp (by omega)) (fun _ _ _ _ h => h)
      (fun p hp => by
        rw [hs]; exact row_bound w hz (fun t ht => row_valid (by simp) hlv hp (by omega)))
    refine ⟨r, ?_, by simpa [mkHdr] using q2, ?_⟩
    · rw [show (mkHdr vd (mkHdr vd P).shape).shape = P from rfl, hb1]
      simp only [Res.ok_bind, hlast]
      rw [runLoop_map] at hstep
      simp only [id] at q1
      rw [show (mkHdr vd P).shape = P from rfl, ← hstep, q1]
      rfl
    · intro i hi
      show read vd (mkHdr vd P) r i = _
      have hi : ValidInd P i := hi
      have hrl : r.length = volume vd P := by simpa using q2
      rw [read_own hrl hi, read_own hs hi]
      have hi2 := inBox_of_valid hi
      obtain ⟨p, t, rfl⟩ := exists_snoc (l := i) (by rw [hi.1]; exact hd0)
      rw [hez, List.map_append] at hi2
      have hpl : p.length = (e0.map fun _ => 0).length := by
        have := hi2.2.1; simpa using this
      obtain ⟨hp, ht0, ht⟩ := (inBox_snoc (by simp) hpl).1 hi2
      have hp' := mem_elemLoop.2 hp
      have := q3 p hp' t ht
      simp only [id, Nat.zero_add] at this
      rw [blk, addVec_zero P _ hi.1] at this
      rw [this]
      have hl : (p ++ [0]).length = P.length := by have := hi.1; simpa using this
      have hpos := pos_row (vd := vd) w hl t
      rw [Nat.zero_add, addVec_zero P _ hi.1] at hpos
      rw [hpos]

/-- **C08, proved part**: copy construction from an *owning* array. -/
theorem C08_copy_construct_partial (vd : Nat) (P : List Nat) (hP : Small P) (hd0 : 0 < P.length) (src : List S)
    (hs : src.length = volume vd P) (junk : Nat → S) :
    CopyEqual vd (mkHdr vd P) src (copyConstruct vd (mkHdr vd P) src junk) :=
  C08_assign_partial vd P hP hd0 src hs P _ junk

/-- **C08 fails for views**: copying a view of a 2x2 array does not give an array with the elements of the view.
    (`operator=` computes the source position with the strides and the offset of the destination.) -/
theorem C08_copy_of_view_wrong :
    ∃ (h : Hdr), ViewOf 1 [2, 2] [0, 1] h ∧
      ¬ CopyEqual 1 h [1, 2, 3, 4] (assign 1 (mkHdr 1 [2, 1]) [0, 0] h [1, 2, 3, 4] (fun _ => 0)) ∧
      ¬ CopyEqual 1 h [1, 2, 3, 4] (copyConstruct 1 h [1, 2, 3, 4] (fun _ => 0)) := by
  refine ⟨view (mkHdr 1 [2, 2]) [0, 1] [2, 2],
    ViewOf.step (st := [0, 0]) (h := mkHdr 1 [2, 2]) (s := [0, 1]) (e := [2, 2]) ViewOf.own ⟨rfl, by decide⟩
      ⟨rfl, by decide⟩, ?_, ?_⟩
  · rintro ⟨out, h1, _, h3⟩
    have e : assign 1 (mkHdr 1 [2, 1]) [0, 0] (view (mkHdr 1 [2, 2]) [0, 1] [2, 2]) [1, 2, 3, 4] (fun _ => 0)
        = .ok (mkHdr 1 [2, 1], [1, 2]) := by decide +kernel
    have e2 : (view (mkHdr 1 [2, 2]) [0, 1] [2, 2]).shape = [2, 1] := by decide +kernel
    rw [e, e2] at h1
    cases h1
    have := h3 [0, 0] (by rw [e2]; exact ⟨rfl, by decide⟩)
    rw [e2] at this
    revert this
    decide +kernel
  · rintro ⟨out, h1, _, h3⟩
    have e : copyConstruct 1 (view (mkHdr 1 [2, 2]) [0, 1] [2, 2]) [1, 2, 3, 4] (fun _ => 0)
        = .ok (mkHdr 1 [2, 1], [1, 2]) := by decide +kernel
    have e2 : (view (mkHdr 1 [2, 2]) [0, 1] [2, 2]).shape = [2, 1] := by decide +kernel
    rw [e, e2] at h1
    cases h1
    have := h3 [0, 0] (by rw [e2]; exact ⟨rfl, by decide⟩)
    rw [e2] at this
    revert this
    decide +kernel

example : assign 1 (mkHdr 1 [3]) [7, 7, 7] (mkHdr 1 [2, 2]) [1, 2, 3, 4] (fun _ => 0)
    = .ok (mkHdr 1 [2, 2], [1, 2, 3, 4]) := by decide +kernel

end Verif.ND
