import Verif.Array.Lemmas
import Verif.Array.Spec
namespace Verif.ND
open Verif
variable {S : Type}

theorem Small.getD {v : List Nat} (h : Small v) (d : Nat) : v.getD d 0 < U64 := by
  rw [List.getD_eq_getElem?_getD]
  by_cases hd : d < v.length
  · simp only [List.getElem?_eq_getElem hd, Option.getD_some]
    exact h _ (List.getElem_mem hd)
  · simp [List.getElem?_eq_none (Nat.le_of_not_lt hd)]

theorem small_of_le {a b : List Nat} (hb : Small b) (h : LeVec a b) : Small a := by
  intro x hx
  obtain ⟨d, hd, rfl⟩ := List.getElem_of_mem hx
  have h1 := h.2 d hd
  have h2 := hb.getD d
  rw [List.getD_eq_getElem?_getD, List.getElem?_eq_getElem hd, Option.getD_some] at h1
  have hU : U64 = 2 ^ 64 := rfl
  omega

theorem ViewOf.shape_small {vd : Nat} {P st : List Nat} {h : Hdr} (hv : ViewOf vd P st h) (hP : Small P) :
    Small h.shape ∧ IsWindow vd P st h := by
  induction hv with
  | own => exact ⟨hP, mkHdr_window vd P⟩
  | @step st h s e _ hse heh ih =>
    obtain ⟨ih1, w⟩ := ih
    have hle : e.length = s.length := hse.1.symm
    have hsm : Small e := small_of_le ih1 heh
    have hsub : vsub e s = subVec e s :=
      vsub_eq (fun d hd => hse.2 d (by omega)) hle hsm
    have hlen : (subVec e s).length = P.length := by
      simp [subVec, hle]; rw [← hle, heh.1, w.lenShape]
    have hsl : s.length = P.length := by rw [hse.1, heh.1, w.lenShape]
    refine ⟨?_, ?_⟩
    · refine small_of_le hsm ⟨?_, ?_⟩
      · simp [view, hsub, hlen, heh.1, w.lenShape]
      · intro d _
        simp only [view, hsub, getD_subVec hle]; omega
    · constructor
      · exact w.strides
      · simp only [view]
        rw [w.flat hsl]
      · rw [addVec_length (by rw [w.lenSt, hsl]), w.lenSt]
      · simp [view, hsub, hlen]
      · intro d hd
        simp only [view, hsub, getD_subVec hle, getD_addVec (a := st) (b := s) (by rw [w.lenSt, hsl])]
        have h1 := w.inside d hd
        have h2 := heh.2 d (by rw [heh.1, w.lenShape]; exact hd)
        have h3 := hse.2 d (by omega)
        omega

theorem ViewOf.window {vd : Nat} {P st : List Nat} {h : Hdr} (hv : ViewOf vd P st h) (hP : Small P) :
    IsWindow vd P st h := (hv.shape_small hP).2

theorem blk_le {vd : Nat} {P i : List Nat} (hi : ValidInd P i) : vd * lin P i + vd ≤ volume vd P := by
  have := lin_lt hi
  rw [volume_eq, ← Nat.mul_succ, Nat.mul_comm]
  exact Nat.mul_le_mul_right _ this

theorem read_window {vd : Nat} {P st : List Nat} {h : Hdr} (w : IsWindow vd P st h) {buf : List S}
    (hb : buf.length = volume vd P) {i : List Nat} (hi : ValidInd h.shape i) :
    read vd h buf i = .ok ((buf.drop (vd * lin P (addVec st i))).take vd) := by
  have hl : i.length = P.length := by rw [hi.1, w.lenShape]
  unfold read
  rw [if_pos ((hasIndex_iff hi.1).2 hi), w.flat hl, if_pos (by rw [hb]; exact blk_le (w.valid hi))]

theorem addVec_zero : ∀ (P i : List Nat), i.length = P.length → addVec (P.map fun _ => 0) i = i
  | [], [], _ => rfl
  | p :: ps, i :: is, h => by
      have := addVec_zero ps is (by simpa using h)
      simp only [addVec, List.map_cons, List.zipWith_cons_cons] at *
      rw [this]; simp

theorem read_own {vd : Nat} {P : List Nat} {buf : List S}
    (hb : buf.length = volume vd P) {i : List Nat} (hi : ValidInd P i) :
    read vd (mkHdr vd P) buf i = .ok ((buf.drop (vd * lin P i)).take vd) := by
  rw [read_window (mkHdr_window vd P) hb hi, addVec_zero P i hi.1]

theorem block_ext {a b : List S} {x y n : Nat} (h : ∀ k < n, a[x + k]? = b[y + k]?) :
    (a.drop x).take n = (b.drop y).take n := by
  apply List.ext_getElem?
  intro k
  rw [List.getElem?_take, List.getElem?_take, List.getElem?_drop, List.getElem?_drop]
  by_cases hk : k < n
  · rw [if_pos hk, if_pos hk, h k hk]
  · rw [if_neg hk, if_neg hk]

theorem addVec_assoc : ∀ (a b c : List Nat), addVec (addVec a b) c = addVec a (addVec b c)
  | [], _, _ => by simp [addVec]
  | _ :: _, [], _ => by simp [addVec]
  | _ :: _, _ :: _, [] => by simp [addVec]
  | a :: as, b :: bs, c :: cs => by
      have := addVec_assoc as bs cs
      simp only [addVec, List.zipWith_cons_cons] at *
      rw [this, Nat.add_assoc]

theorem validInd_getD {shape i : List Nat} (h : ValidInd shape i) (d : Nat) (hd : d < shape.length) :
    i.getD d 0 < shape.getD d 0 := h.2 d hd

/-- Two vectors with the same length and the same components are equal. -/
theorem vec_ext {a b : List Nat} (hl : a.length = b.length) (h : ∀ d < a.length, a.getD d 0 = b.getD d 0) : a = b := by
  apply List.ext_getElem hl
  intro d h1 h2
  have := h d h1
  simpa [List.getD_eq_getElem?_getD, h1, h2] using this

theorem getD_mem_lt {P : List Nat} {d : Nat} (hd : d < P.length) : P.getD d 0 = P[d] := by
  simp [List.getD_eq_getElem?_getD, hd]

/-! rows of a region -/

theorem getD_append_left {a b : List Nat} {d : Nat} (h : d < a.length) : (a ++ b).getD d 0 = a.getD d 0 := by
  simp [List.getD_eq_getElem?_getD, List.getElem?_append_left h]

theorem getD_append_last {a : List Nat} {z : Nat} : (a ++ [z]).getD a.length 0 = z := by
  simp [List.getD_eq_getElem?_getD]

theorem inBox_snoc {s e i : List Nat} {a z t : Nat} (hl : s.length = e.length) (hi : i.length = s.length) :
    InBox (s ++ [a]) (e ++ [z]) (i ++ [t]) ↔ InBox s e i ∧ a ≤ t ∧ t < z := by
  unfold InBox
  constructor
  · rintro ⟨h1, h2, h3⟩
    refine ⟨⟨hi, by omega, fun d hd => ?_⟩, ?_⟩
    · have := h3 d (by simp; omega)
      rwa [getD_append_left hd, getD_append_left (by omega), getD_append_left (by omega)] at this
    · have := h3 i.length (by simp)
      rw [getD_append_last] at this
      rw [hi, getD_append_last] at this
      rw [hl, getD_append_last] at this
      exact this
  · rintro ⟨⟨h1, h2, h3⟩, h4⟩
    refine ⟨by simp [h1], by simp [h2], fun d hd => ?_⟩
    by_cases hd' : d < i.length
    · rw [getD_append_left hd', getD_append_left (by omega), getD_append_left (by omega)]
      exact h3 d hd'
    · have hd2 : d = i.length := by simp at hd; omega
      subst hd2
      rw [getD_append_last]
      rw [hi, getD_append_last, hl, getD_append_last]
      exact h4

/-- linear position along a row -/
theorem lin_row : ∀ {P lo : List Nat} {a : Nat} (_ : (lo ++ [a]).length = P.length) (t : Nat),
    lin P (lo ++ [a + t]) = lin P (lo ++ [a]) + t
  | [], lo, a, h, t => by simp at h
  | [p], [], a, h, t => by simp [lin, prod]
  | [p], _ :: _, a, h, t => by simp at h
  | p :: q :: ps, [], a, h, t => by simp at h
  | p :: q :: ps, l :: ls, a, h, t => by
      have := lin_row (P := q :: ps) (lo := ls) (a := a) (by simpa using h) t
      simp only [List.cons_append] at *
      simp only [lin] at *
      rw [this]; omega

theorem addVec_snoc {a b : List Nat} {x y : Nat} (h : a.length = b.length) :
    addVec (a ++ [x]) (b ++ [y]) = addVec a b ++ [x + y] := by
  simp [addVec, List.zipWith_append h]

end Verif.ND
