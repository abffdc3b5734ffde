import Verif.Stream.NullSup
import Verif.Bytes.Props
/-
C13 (null suppression is lossless up to the sign of zero) and C14 (buffer bounds).
-/
namespace Verif.NullSup
open Verif

/-! ### Specification -/

/-- The floats `+0` and `-0`. -/
def FloatIsZero (w : Nat) : Prop := w = 0x00000000 ∨ w = 0x80000000

/-- What comes back for an element: all-zero vectors as `+0`, everything else bit by bit. -/
def Canon (v v' : List Nat) : Prop :=
  ((∀ w ∈ v, FloatIsZero w) → v' = v.map fun _ => 0) ∧ (¬ (∀ w ∈ v, FloatIsZero w) → v' = v)

/-- No run of consecutive zero vectors is `2^32` long. -/
def NoHugeRun (vs : List (List Nat)) : Prop :=
  ∀ a run b, vs = a ++ run ++ b → (∀ v ∈ run, ∀ w ∈ v, FloatIsZero w) → run.length < 2 ^ 32

/-- Elements of `vd` 32-bit words. -/
def Elems (vd : Nat) (vs : List (List Nat)) : Prop := ∀ v ∈ vs, v.length = vd ∧ ∀ w ∈ v, w < 2 ^ 32

/-! ### Lemmas -/

theorem isNullF_iff (w : Nat) : isNullF w = true ↔ FloatIsZero w := by
  simp [isNullF, FloatIsZero]

theorem isNullVec_iff (v : List Nat) : isNullVec v = true ↔ ∀ w ∈ v, FloatIsZero w := by
  simp [isNullVec, List.all_eq_true, isNullF_iff]

def canonV (v : List Nat) : List Nat := if isNullVec v then v.map fun _ => 0 else v

theorem canonV_spec (v : List Nat) : Canon v (canonV v) := by
  unfold Canon canonV
  rw [← isNullVec_iff]
  constructor
  · intro h; rw [if_pos h]
  · intro h; rw [if_neg h]

theorem canon_unique {v v' v'' : List Nat} (h1 : Canon v v') (h2 : Canon v v'') : v' = v'' := by
  by_cases h : ∀ w ∈ v, FloatIsZero w
  · rw [h1.1 h, h2.1 h]
  · rw [h1.2 h, h2.2 h]

/-- Output of `suppress` without the buffer. -/
def encFrom (post : Nat → Nat) (vd : Nat) : List (List Nat) → Nat → List Nat
  | [], num => if 0 < num then [post num] else []
  | v :: vs, num =>
    if isNullVec v then
      (if num = 0 then List.replicate vd (post 0) else []) ++ encFrom post vd vs ((num + 1) % 2 ^ 32)
    else (if 0 < num then [post num] else []) ++ (v.map post ++ encFrom post vd vs 0)

theorem suppress_eq (post : Nat → Nat) (cap vd : Nat) : ∀ (vs : List (List Nat)) (num : Nat) (out : List Nat),
    out.length + (encFrom post vd vs num).length ≤ cap →
    suppress post cap vd vs num out = .ok (out ++ encFrom post vd vs num)
  | [], num, out, h => by
      unfold suppress encFrom at *
      by_cases hn : 0 < num
      · rw [if_pos hn] at h ⊢
        rw [if_pos hn, push, if_pos h]
      · rw [if_neg hn, if_neg hn]; simp
  | v :: vs, num, out, h => by
      unfold suppress
      unfold encFrom at h ⊢
      by_cases hv : isNullVec v
      · rw [if_pos hv] at h ⊢
        rw [if_pos hv]
        by_cases hn : num = 0
        · rw [if_pos hn] at h ⊢
          rw [if_pos hn]
          rw [List.length_append] at h
          rw [push, if_pos (by omega)]
          simp only [Res.ok_bind]
          rw [suppress_eq post cap vd vs _ _ (by rw [List.length_append]; omega), List.append_assoc]
        · rw [if_neg hn] at h ⊢
          rw [if_neg hn]
          simp only [Res.ok_bind, List.nil_append] at h ⊢
          exact suppress_eq post cap vd vs _ _ h
      · rw [if_neg hv] at h ⊢
        rw [if_neg hv]
        rw [List.length_append, List.length_append] at h
        by_cases hn : 0 < num
        · rw [if_pos hn] at h ⊢
          rw [if_pos hn, push, if_pos (by omega)]
          simp only [Res.ok_bind]
          rw [push, if_pos (by rw [List.length_append]; omega)]
          simp only [Res.ok_bind]
          rw [suppress_eq post cap vd vs _ _ (by rw [List.length_append, List.length_append]; omega)]
          simp
        · rw [if_neg hn] at h ⊢
          rw [if_neg hn]
          simp only [Res.ok_bind, List.nil_append]
          rw [push, if_pos (by omega)]
          simp only [Res.ok_bind]
          rw [suppress_eq post cap vd vs _ _ (by rw [List.length_append]; omega), List.append_assoc]

theorem encFrom_length (post : Nat → Nat) (vd : Nat) : ∀ (vs : List (List Nat)), (∀ v ∈ vs, v.length = vd) → ∀ num,
    (encFrom post vd vs num).length ≤ vs.length * vd + (if num = 0 then (vs.length + 1) / 2 else 1 + vs.length / 2)
  | [], _, num => by
      unfold encFrom
      by_cases hn : 0 < num
      · rw [if_pos hn, if_neg (by omega)]; simp
      · rw [if_neg hn]; simp
  | v :: vs, h, num => by
      have hvl := h v (by simp)
      have ih := encFrom_length post vd vs (fun x hx => h x (by simp [hx]))
      unfold encFrom
      rw [List.length_cons, Nat.succ_mul]
      by_cases hv : isNullVec v
      · rw [if_pos hv, List.length_append]
        have ih1 := ih ((num + 1) % 2 ^ 32)
        have ih2 : (encFrom post vd vs ((num + 1) % 2 ^ 32)).length ≤ vs.length * vd + (1 + vs.length / 2) := by
          split at ih1 <;> omega
        by_cases hn : num = 0
        · rw [if_pos hn, if_pos hn, List.length_replicate]; omega
        · rw [if_neg hn, if_neg hn, List.length_nil]; omega
      · rw [if_neg hv, List.length_append, List.length_append, List.length_map, hvl]
        have ih1 := ih 0
        rw [if_pos rfl] at ih1
        by_cases hn : num = 0
        · subst hn
          rw [if_pos rfl, if_neg (by omega), List.length_nil]; omega
        · rw [if_pos (by omega), if_neg hn]; simp only [List.length_cons, List.length_nil]; omega

/-- Number of leading zero vectors. -/
def lead : List (List Nat) → Nat
  | [] => 0
  | v :: vs => if isNullVec v then lead vs + 1 else 0

theorem lead_le : ∀ vs, lead vs ≤ vs.length
  | [] => by simp [lead]
  | v :: vs => by
      unfold lead
      have := lead_le vs
      split <;> simp only [List.length_cons] <;> omega

theorem take_lead_null : ∀ (vs : List (List Nat)), ∀ v ∈ vs.take (lead vs), isNullVec v = true
  | [], v, h => by simp at h
  | u :: vs, v, h => by
      unfold lead at h
      by_cases hu : isNullVec u
      · rw [if_pos hu, List.take_succ_cons] at h
        rcases List.mem_cons.1 h with rfl | h
        · exact hu
        · exact take_lead_null vs v h
      · rw [if_neg hu] at h; simp at h

theorem encFrom_run (post : Nat → Nat) (vd : Nat) : ∀ (vs : List (List Nat)) (num : Nat), 0 < num → num + lead vs < 2 ^ 32 →
    encFrom post vd vs num = post (num + lead vs) :: encFrom post vd (vs.drop (lead vs)) 0
  | [], num, h, _ => by simp [encFrom, lead, h]
  | v :: vs, num, h, h2 => by
      by_cases hv : isNullVec v
      · have hl : lead (v :: vs) = lead vs + 1 := by rw [lead, if_pos hv]
        rw [hl] at h2 ⊢
        rw [encFrom, if_pos hv, if_neg (by omega), List.nil_append, Nat.mod_eq_of_lt (by omega),
          encFrom_run post vd vs (num + 1) (by omega) (by omega), List.drop_succ_cons]
        congr 2; omega
      · have hl : lead (v :: vs) = 0 := by rw [lead, if_neg hv]
        rw [hl, List.drop_zero, encFrom, if_neg hv, if_pos h, encFrom, if_neg hv, if_neg (by omega)]
        simp

theorem desuppress_run (pre : Nat → Nat) (vd : Nat) (n : Nat) : ∀ (r : Nat) (buf : List Nat) (q : List (List Nat)) (rest : List Nat),
    desuppress pre vd n 0 buf = .ok (q, rest) →
    desuppress pre vd (r + n) r buf = .ok (List.replicate r (List.replicate vd 0) ++ q, rest)
  | 0, buf, q, rest, h => by simpa using h
  | r + 1, buf, q, rest, h => by
      rw [Nat.succ_add, desuppress, if_pos (by omega), Nat.add_sub_cancel, desuppress_run pre vd n r buf q rest h]
      simp only [Res.ok_bind]
      rw [List.replicate_succ, List.cons_append]

theorem readVec_append (pre : Nat → Nat) (vd : Nat) (a b : List Nat) (h : a.length = vd) :
    readVec pre vd (a ++ b) = .ok (a.map pre, b) := by
  subst h
  unfold readVec
  rw [if_pos (by simp)]
  simp

theorem map_id_of {pre post : Nat → Nat} (hpp : ∀ w < 2 ^ 32, pre (post w) = w) (v : List Nat) (hv : ∀ w ∈ v, w < 2 ^ 32) :
    (v.map post).map pre = v := by
  rw [List.map_map]
  apply (List.map_eq_map_iff (g := id)).2 ?_ |>.trans (List.map_id v)
  intro w hw
  exact hpp w (hv w hw)

theorem canonV_null {v : List Nat} (h : isNullVec v = true) : canonV v = List.replicate v.length 0 := by
  unfold canonV
  rw [if_pos h]
  exact List.map_const' ..

/-- Restoring the pure output. -/
theorem desuppress_encFrom (pre post : Nat → Nat) (vd : Nat) (hpp : ∀ w < 2 ^ 32, pre (post w) = w) (rest : List Nat) :
    ∀ (n : Nat) (vs : List (List Nat)), vs.length = n → Elems vd vs → NoHugeRun vs →
      desuppress pre vd n 0 (encFrom post vd vs 0 ++ rest) = .ok (vs.map canonV, rest) := by
  intro n
  induction n using Nat.strongRecOn with
  | ind n ih =>
    intro vs hlen hel hrun
    cases vs with
    | nil =>
      subst hlen
      simp [encFrom, desuppress]
    | cons v vs =>
      subst hlen
      have hv1 := hel v (by simp)
      have hel' : Elems vd vs := fun x hx => hel x (by simp [hx])
      have hrun' : ∀ k, NoHugeRun (vs.drop k) := by
        intro k a run b he hn
        apply hrun (v :: vs.take k ++ a) run b _ hn
        have : vs = vs.take k ++ (a ++ run ++ b) := by rw [← he, List.take_append_drop]
        conv => lhs; rw [this]
        simp
      rw [List.length_cons, desuppress, if_neg (by omega)]
      by_cases hv : isNullVec v
      · have hl : lead vs + 1 < 2 ^ 32 := by
          have := hrun [] (v :: vs.take (lead vs)) (vs.drop (lead vs)) (by simp) (by
            intro x hx
            rw [← isNullVec_iff]
            rcases List.mem_cons.1 hx with rfl | hx
            · exact hv
            · exact take_lead_null vs x hx)
          have hle := lead_le vs
          rw [List.length_cons, List.length_take] at this
          omega
        rw [encFrom, if_pos hv, if_pos rfl, show (0 + 1) % 2 ^ 32 = 1 from rfl, encFrom_run post vd vs 1 (by omega) (by omega),
          List.append_assoc, readVec_append _ _ _ _ (by simp)]
        simp only [Res.ok_bind]
        have hz : (List.replicate vd (post 0)).map pre = List.replicate vd 0 := by
          rw [List.map_replicate, hpp 0 (by omega)]
        rw [hz]
        have hnz : isNullVec (List.replicate vd 0) = true := by
          rw [isNullVec_iff]
          intro w hw
          left; exact (List.mem_replicate.1 hw).2
        rw [if_pos hnz, List.cons_append]
        show (desuppress pre vd vs.length ((pre (post (1 + lead vs)) + (2 ^ 32 - 1)) % 2 ^ 32) _).bind _ = _
        rw [hpp (1 + lead vs) (by omega)]
        have hc : (1 + lead vs + (2 ^ 32 - 1)) % 2 ^ 32 = lead vs := by
          have : 1 + lead vs + (2 ^ 32 - 1) = lead vs + 2 ^ 32 := by omega
          rw [this, Nat.add_mod_right, Nat.mod_eq_of_lt (by omega)]
        have hle := lead_le vs
        have hn : vs.length = lead vs + (vs.drop (lead vs)).length := by rw [List.length_drop]; omega
        rw [hc, hn, desuppress_run pre vd _ (lead vs) _ ((vs.drop (lead vs)).map canonV) rest]
        · simp only [Res.ok_bind]
          refine congrArg (fun l => Res.ok (l, rest)) ?_
          rw [List.map_cons, canonV_null hv, hv1.1]
          refine congrArg (List.replicate vd 0 :: ·) ?_
          conv => rhs; rw [← List.take_append_drop (lead vs) vs, List.map_append]
          refine congrArg (· ++ (vs.drop (lead vs)).map canonV) ?_
          apply List.ext_getElem
          · simp; omega
          · intro k h1 h2
            have hk : k < lead vs := by simpa using h1
            have hmem : vs[k]'(by omega) ∈ vs.take (lead vs) :=
              List.mem_take_iff_getElem.2 ⟨k, by omega, rfl⟩
            simp only [List.getElem_replicate, List.getElem_map, List.getElem_take]
            rw [canonV_null (take_lead_null vs _ hmem), (hel' _ (List.getElem_mem _)).1]
        · exact ih _ (by simp only [List.length_cons, List.length_drop]; omega) _ rfl
            (fun x hx => hel' x (List.mem_of_mem_drop hx)) (hrun' _)
      · rw [encFrom, if_neg hv, if_neg (by omega), List.nil_append, List.append_assoc,
          readVec_append _ _ _ _ (by rw [List.length_map, hv1.1])]
        simp only [Res.ok_bind]
        rw [map_id_of hpp v hv1.2, if_neg hv, ih vs.length (by simp) vs rfl hel' (hrun' 0)]
        simp only [Res.ok_bind]
        rw [List.map_cons, canonV, if_neg hv]

/-! ### Properties -/

theorem htonl_inv (h : Bytes.Host) : ∀ w < 2 ^ 32, Bytes.htonl h (Bytes.htonl h w) = w := by
  intro w hw
  cases h
  · exact Bytes.htonl_invol w hw
  · rfl

theorem suppress_ok (h : Bytes.Host) (vd : Nat) (vs : List (List Nat)) (hlen : ∀ v ∈ vs, v.length = vd) :
    suppress (Bytes.htonl h) (requiredBuflen vs.length vd) vd vs 0 [] = .ok (encFrom (Bytes.htonl h) vd vs 0) ∧
      (encFrom (Bytes.htonl h) vd vs 0).length ≤ requiredBuflen vs.length vd := by
  have hl := encFrom_length (Bytes.htonl h) vd vs hlen 0
  rw [if_pos rfl] at hl
  have hc : (encFrom (Bytes.htonl h) vd vs 0).length ≤ requiredBuflen vs.length vd := by
    unfold requiredBuflen intDivCeil
    omega
  refine ⟨?_, hc⟩
  rw [suppress_eq _ _ _ _ _ _ (by rw [List.length_nil]; omega), List.nil_append]

/-- **C14**  A buffer of `calculate_required_buflen` words is never overrun by `suppress_null`, for any elements (any
    zero pattern, also runs of `2^32` and more). -/
theorem C14_buffer_suffices (h : Bytes.Host) (vd : Nat) (vs : List (List Nat)) (hlen : ∀ v ∈ vs, v.length = vd) :
    ∃ out, suppress (Bytes.htonl h) (requiredBuflen vs.length vd) vd vs 0 [] = .ok out ∧
      out.length ≤ vs.length * vd + (vs.length + 1) / 2 := by
  obtain ⟨h1, h2⟩ := suppress_ok h vd vs hlen
  refine ⟨_, h1, ?_⟩
  have : requiredBuflen vs.length vd = vs.length * vd + (vs.length + 1) / 2 := rfl
  omega

/-- **C13, C14**  Restoring what null suppression produced: element by element the original vector, with zero vectors
    as `+0`; exactly the words written are consumed, whatever follows them in the buffer. -/
theorem C13_null_suppression_lossless (h : Bytes.Host) (vd : Nat) (vs : List (List Nat)) (hel : Elems vd vs)
    (hrun : NoHugeRun vs) :
    ∃ out, suppress (Bytes.htonl h) (requiredBuflen vs.length vd) vd vs 0 [] = .ok out ∧
      ∃ back, (∀ rest, desuppress (Bytes.htonl h) vd vs.length 0 (out ++ rest) = .ok (back, rest)) ∧
        back.length = vs.length ∧ ∀ (k : Nat) v v', vs[k]? = some v → back[k]? = some v' → Canon v v' := by
  refine ⟨_, (suppress_ok h vd vs (fun v hv => (hel v hv).1)).1, vs.map canonV, ?_, by simp, ?_⟩
  · intro rest
    exact desuppress_encFrom _ _ vd (htonl_inv h) rest _ vs rfl hel hrun
  · intro k v v' h1 h2
    rw [List.getElem?_map, h1] at h2
    cases h2
    exact canonV_spec v

/-- A run of zeros: the counter. -/
theorem encFrom_zeros (post : Nat → Nat) (vd : Nat) : ∀ (k num : Nat), 0 < num → num + k < 2 ^ 32 → ∀ vs,
    encFrom post vd (List.replicate k (List.replicate vd 0) ++ vs) num = encFrom post vd vs (num + k)
  | 0, num, _, _, vs => by simp
  | k + 1, num, h, h2, vs => by
      have hnz : isNullVec (List.replicate vd 0) = true := by
        rw [isNullVec_iff]
        intro w hw
        left; exact (List.mem_replicate.1 hw).2
      rw [List.replicate_succ, List.cons_append, encFrom, if_pos hnz, if_neg (by omega), List.nil_append,
        Nat.mod_eq_of_lt (by omega), encFrom_zeros post vd k (num + 1) (by omega) (by omega)]
      congr 1; omega

/-- **C13 (limit)**  The bound on runs is needed: for a run of exactly `2^32` zero vectors the 32-bit counter wraps to
    zero, no count is written, and restoring reads past the end of the buffer. -/
theorem C13_huge_run_lost (h : Bytes.Host) (vd n : Nat) (hn : n = 2 ^ 32) :
    suppress (Bytes.htonl h) (requiredBuflen n vd) vd (List.replicate n (List.replicate vd 0)) 0 []
      = .ok (List.replicate vd (Bytes.htonl h 0)) ∧
    desuppress (Bytes.htonl h) vd n 0 (List.replicate vd (Bytes.htonl h 0)) = .ub := by
  have hnz : isNullVec (List.replicate vd 0) = true := by
    rw [isNullVec_iff]
    intro w hw
    left; exact (List.mem_replicate.1 hw).2
  obtain ⟨m, hm⟩ : ∃ m, n = m + 2 := ⟨n - 2, by omega⟩
  have hm2 : m + 2 = 2 ^ 32 := by omega
  constructor
  · have h1 := (suppress_ok h vd (List.replicate n (List.replicate vd 0))
      (fun v hv => by rw [(List.mem_replicate.1 hv).2]; simp)).1
    rw [List.length_replicate] at h1
    rw [h1, hm, List.replicate_succ, encFrom, if_pos hnz, if_pos rfl, show (0 + 1) % 2 ^ 32 = 1 from rfl,
      List.replicate_succ', encFrom_zeros _ _ m 1 (by omega) (by omega), encFrom, if_pos hnz, if_neg (by omega)]
    have : (1 + m + 1) % 2 ^ 32 = 0 := by
      rw [show 1 + m + 1 = 2 ^ 32 by omega]
    rw [this, encFrom, if_neg (by omega)]
    simp
  · rw [hm, desuppress, if_neg (by omega)]
    have := readVec_append (Bytes.htonl h) vd (List.replicate vd (Bytes.htonl h 0)) [] (by simp)
    rw [List.append_nil] at this
    rw [this]
    simp only [Res.ok_bind]
    rw [List.map_replicate, htonl_inv h 0 (by decide), if_pos hnz]

example : suppress id 100 2 [[0, 0], [0, 0x80000000], [5, 0], [0, 0]] 0 [] = .ok [0, 0, 2, 5, 0, 0, 0, 1] := by decide
example : desuppress id 2 4 0 [0, 0, 2, 5, 0, 0, 0, 1] = .ok ([[0, 0], [0, 0], [5, 0], [0, 0]], []) := by decide
example : Elems 2 [[0, 0], [0, 0x80000000], [5, 0], [0, 0]] := by unfold Elems; decide
example : NoHugeRun [[0, 0], [0, 0x80000000], [5, 0], [0, 0]] := by
  intro a run b h _
  have := congrArg List.length h
  simp at this
  omega

end Verif.NullSup
