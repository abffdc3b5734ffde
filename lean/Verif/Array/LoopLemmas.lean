import Verif.Array.Props2
namespace Verif.ND
open Verif
variable {S : Type}

theorem runLoop_acc {ι κ : Type} (g : ι → Res (List κ)) (ys : ι → List κ) : ∀ (L : List ι) (acc : List κ),
    (∀ p ∈ L, g p = .ok (ys p)) →
    runLoop (fun p acc => (g p).bind fun xs => .ok (acc ++ xs)) L acc = .ok (acc ++ L.flatMap ys)
  | [], acc, _ => by simp [runLoop]
  | p :: ps, acc, h => by
      simp only [runLoop]
      rw [h p (by simp)]
      simp only [Res.ok_bind]
      rw [runLoop_acc g ys ps _ (fun q hq => h q (by simp [hq]))]
      simp

theorem pos_row {vd : Nat} {P st : List Nat} {h : Hdr} (w : IsWindow vd P st h) {lo : List Nat} {a : Nat}
    (hl : (lo ++ [a]).length = P.length) (t : Nat) :
    vd * lin P (addVec st (lo ++ [a + t])) = flatInd h (lo ++ [a]) + t * vd := by
  rw [w.flat hl, lin_add w.lenSt hl, lin_add w.lenSt (by simpa using hl), lin_row hl, Nat.mul_comm t, ← Nat.mul_add,
    Nat.add_assoc]

theorem row_bound {vd : Nat} {P st : List Nat} {h : Hdr} (w : IsWindow vd P st h) {lo : List Nat} {a n : Nat}
    (hn : 0 < n) (hval : ∀ t < n, ValidInd h.shape (lo ++ [a + t])) :
    flatInd h (lo ++ [a]) + n * vd ≤ volume vd P := by
  have hl : (lo ++ [a]).length = P.length := by
    have := (hval 0 hn).1
    rw [w.lenShape] at this
    simpa using this
  have hv := blk_le (vd := vd) (w.valid (hval (n - 1) (by omega)))
  rw [pos_row w hl] at hv
  have : (n - 1) * vd + vd = n * vd := by
    rw [← Nat.succ_mul]; congr 1; omega
  omega

theorem rowElems_eq {vd : Nat} {P st : List Nat} {h : Hdr} (w : IsWindow vd P st h) {buf : List S}
    (hb : buf.length = volume vd P) {lo : List Nat} {a n : Nat} (hn : 0 < n)
    (hval : ∀ t < n, ValidInd h.shape (lo ++ [a + t])) :
    rowElems vd h buf n (lo ++ [a]) =
      .ok ((List.range n).map fun t => (lo ++ [a + t], blk vd P buf (addVec st (lo ++ [a + t])))) := by
  have hl : (lo ++ [a]).length = P.length := by
    have := (hval 0 hn).1
    rw [w.lenShape] at this
    simpa using this
  unfold rowElems
  rw [if_pos (by rw [hb]; exact row_bound w hn hval)]
  congr 1
  apply List.map_congr_left
  intro t _
  rw [lastD_append, blk, pos_row w hl]
  simp

/-- A region inside of the shape. -/
theorem row_valid {shape s0 e0 p : List Nat} {a z : Nat} (hl0 : s0.length = e0.length)
    (hsh : LeVec (e0 ++ [z]) shape) (hp : p ∈ elemLoop s0 e0) {t : Nat} (ht : a + t < z) :
    ValidInd shape (p ++ [a + t]) := by
  have hb := mem_elemLoop.1 hp
  have hb2 : InBox (s0 ++ [a]) (e0 ++ [z]) (p ++ [a + t]) := (inBox_snoc hl0 hb.1).2 ⟨hb, by omega, ht⟩
  refine ⟨by rw [hb2.2.1, hsh.1], fun d hd => ?_⟩
  have h1 := hb2.2.2 d (by rw [hb2.2.1, hsh.1]; exact hd)
  have h2 := hsh.2 d (by rw [hsh.1]; exact hd)
  omega

/-- The `(index, element)` sequence of a loop over a region. -/
theorem indexLoop_eq {vd : Nat} {P st : List Nat} {h : Hdr} (w : IsWindow vd P st h) (hsm : Small h.shape) {buf : List S}
    (hb : buf.length = volume vd P) {s e : List Nat} (hd : 0 < s.length) (hl : s.length = e.length)
    (hsh : LeVec e h.shape) :
    indexLoop vd h buf s e = .ok ((elemLoop s e).map fun i => (i, blk vd P buf (addVec st i))) := by
  have hes : Small e := small_of_le hsm hsh
  unfold indexLoop
  by_cases hem : ∃ d < s.length, e.getD d 0 ≤ s.getD d 0
  · have hnil : elemLoop s e = [] := by
      rw [List.eq_nil_iff_forall_not_mem]
      intro i hi
      have hbx := mem_elemLoop.1 hi
      obtain ⟨d, h1, h2⟩ := hem
      have := hbx.2.2 d (by rw [hbx.1]; exact h1)
      omega
    rw [rows_empty hl hd hes hem, hnil]
    rfl
  · obtain ⟨s0, a, e0, z, rfl, rfl, hl0⟩ := split_region hl hd
    have haz : a < z := by
      apply Nat.lt_of_not_le
      intro hle
      refine hem ⟨s0.length, by simp, ?_⟩
      rw [getD_append_last, hl0, getD_append_last]
      exact hle
    have hz : z < U64 := hes z (by simp)
    rw [rows_eq hl0 haz hz (fun x hx => hes x (by simp [hx])), lastD_append, lastD_append,
      wsub_eq (by omega) hz]
    simp only [Res.bind_eq, Res.ok_bind]
    rw [runLoop_map, elemLoop_snoc a z s0 e0 hl0,
      runLoop_acc _ (fun p => (List.range (z - a)).map fun t => (p ++ [a + t], blk vd P buf (addVec st (p ++ [a + t])))) _ _
        (fun p hp => rowElems_eq w hb (by omega) (fun t ht => row_valid hl0 hsh hp (by omega)))]
    rw [List.nil_append, List.map_flatMap]
    congr 1
    congr 1
    funext p
    rw [forRange_eq, List.range'_eq_map_range, List.map_map, List.map_map]
    rfl

/-- The whole-array row loop used by `loop_over_elements`, `IsAllNull` and copy assignment. -/
theorem arrayRows {shape : List Nat} (hsm : Small shape) {rs : List (List Nat)}
    (hrs : rows (shape.map fun _ => 0) shape = .ok rs) :
    ∃ boxes, Res.ofLoop (arrayChunkLoop (fuelFor shape) shape (rowChunk shape.length (lastD shape))) = .ok boxes ∧
      boxes.map Prod.fst = rs := by
  have hU : U64 = 2 ^ 64 := rfl
  have hlast : lastD shape < U64 := hsm.getD _
  have h0 : lastD (shape.map fun _ => 0) = 0 := by
    unfold lastD
    rw [List.getD_eq_getElem?_getD, List.getElem?_map]
    cases shape[((shape.map fun _ => 0).length - 1)]? <;> rfl
  unfold rows at hrs
  rw [h0, wsub_eq (Nat.zero_le _) hlast, Nat.sub_zero, List.length_map] at hrs
  unfold arrayChunkLoop
  cases hq : chunkLoop (fuelFor shape) (shape.map fun _ => 0) shape (rowChunk shape.length (lastD shape)) with
  | none => rw [hq] at hrs; simp [Res.ofLoop, Res.map, Res.bind] at hrs
  | some b =>
    rw [hq] at hrs
    simp [Res.ofLoop, Res.map, Res.bind] at hrs
    exact ⟨b, rfl, hrs⟩

/-- Either some extent is zero, or the shape ends with a positive extent. -/
theorem shape_cases {shape : List Nat} (hd : 0 < shape.length) (hsm : Small shape) :
    (rows (shape.map fun _ => 0) shape = .ok [] ∧ ∀ i, ¬ ValidInd shape i) ∨
    (∃ e0 z, shape = e0 ++ [z] ∧ 0 < z ∧
      rows (shape.map fun _ => 0) shape = .ok ((elemLoop (e0.map fun _ => 0) e0).map (· ++ [0]))) := by
  by_cases hem : ∃ d < (shape.map fun _ => 0).length, shape.getD d 0 ≤ (shape.map fun _ => 0).getD d 0
  · left
    refine ⟨rows_empty (by simp) (by simpa using hd) hsm hem, fun i hi => ?_⟩
    obtain ⟨d, h1, h2⟩ := hem
    have h3 := hi.2 d (by simpa using h1)
    have : (shape.map fun _ => 0).getD d 0 = 0 := by
      rw [List.getD_eq_getElem?_getD, List.getElem?_map]
      cases shape[d]? <;> rfl
    omega
  · right
    obtain ⟨e0, z, rfl⟩ := exists_snoc hd
    have hz : 0 < z := by
      apply Nat.pos_of_ne_zero
      intro h
      refine hem ⟨e0.length, by simp, ?_⟩
      rw [getD_append_last, h]
      exact Nat.zero_le _
    refine ⟨e0, z, rfl, hz, ?_⟩
    rw [List.map_append]
    exact rows_eq (by simp) hz (hsm z (by simp)) (fun x hx => hsm x (by simp [hx]))

theorem inBox_of_valid {shape i : List Nat} (h : ValidInd shape i) : InBox (shape.map fun _ => 0) shape i :=
  inBox_zero_iff.2 h

end Verif.ND
