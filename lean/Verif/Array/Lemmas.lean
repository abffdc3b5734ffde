import Verif.Array.Model
import Verif.Iter.Lemmas
namespace Verif.ND
open Verif

/-! ### Linear addressing -/

/-- Product of extents. -/
def prod : List Nat → Nat
  | [] => 1
  | s :: ss => s * prod ss

/-- Row-major position of an index. -/
def lin : List Nat → List Nat → Nat
  | _ :: ss, i :: is => i * prod ss + lin ss is
  | _, _ => 0

theorem foldl_mul (l : List Nat) : ∀ a, l.foldl (· * ·) a = a * prod l := by
  induction l with
  | nil => simp [prod]
  | cons x xs ih => intro a; simp [prod, ih, Nat.mul_assoc]

theorem numElems_eq (s : List Nat) : numElems s = prod s := by simp [numElems, foldl_mul]

theorem volume_eq (vd : Nat) (s : List Nat) : volume vd s = prod s * vd := by
  rw [volume, numElems_eq]

theorem stridesAux_snd : ∀ s, (stridesAux s).2 = prod s
  | [] => rfl
  | s :: ss => by simp [stridesAux, prod, stridesAux_snd ss, Nat.mul_comm]

theorem computeStrides_cons (vd s : Nat) (ss : List Nat) :
    computeStrides vd (s :: ss) = prod ss * vd :: computeStrides vd ss := by
  simp [computeStrides, stridesAux, stridesAux_snd]

theorem computeStrides_length (vd : Nat) : ∀ s, (computeStrides vd s).length = s.length
  | [] => rfl
  | s :: ss => by rw [computeStrides_cons]; simp [computeStrides_length vd ss]

theorem foldl_add (l : List Nat) : ∀ a, l.foldl (· + ·) a = a + l.foldl (· + ·) 0 := by
  induction l with
  | nil => simp
  | cons x xs ih =>
    intro a
    rw [List.foldl_cons, List.foldl_cons, ih (a + x), ih (0 + x)]
    omega

theorem dot_strides (vd : Nat) : ∀ (P i : List Nat), i.length = P.length →
    (List.zipWith (· * ·) i (computeStrides vd P)).foldl (· + ·) 0 = vd * lin P i
  | [], [], _ => by simp [lin]
  | p :: ps, i :: is, h => by
      rw [computeStrides_cons, List.zipWith_cons_cons, List.foldl_cons, foldl_add,
        dot_strides vd ps is (by simpa using h)]
      simp only [lin, Nat.mul_add, Nat.zero_add]
      congr 1
      rw [Nat.mul_comm (prod ps) vd, Nat.mul_left_comm]

theorem flatInd_eq {vd : Nat} {P i : List Nat} {h : Hdr} (hs : h.strides = computeStrides vd P)
    (hl : i.length = P.length) : flatInd h i = h.offset + vd * lin P i := by
  rw [flatInd, foldl_add, hs, dot_strides vd P i hl]

@[simp] theorem validInd_nil : ValidInd [] [] := by simp [ValidInd]

theorem validInd_cons {s i : Nat} {ss is : List Nat} :
    ValidInd (s :: ss) (i :: is) ↔ i < s ∧ ValidInd ss is := by
  unfold ValidInd
  constructor
  · rintro ⟨h1, h2⟩
    refine ⟨by simpa using h2 0 (by simp), by simpa using h1, fun d hd => ?_⟩
    simpa using h2 (d+1) (by simpa using hd)
  · rintro ⟨h0, h1, h2⟩
    refine ⟨by simpa using h1, fun d hd => ?_⟩
    cases d with
    | zero => simpa using h0
    | succ d => simpa using h2 d (by simpa using hd)

theorem validInd_nil_left {i : List Nat} : ValidInd [] i ↔ i = [] := by
  constructor
  · rintro ⟨h, _⟩; simpa using h
  · rintro rfl; simp

theorem validInd_cons_left {s : Nat} {ss i : List Nat} :
    ValidInd (s :: ss) i ↔ ∃ i0 is, i = i0 :: is ∧ i0 < s ∧ ValidInd ss is := by
  constructor
  · intro h
    have h1 := h.1
    cases i with
    | nil => simp at h1
    | cons i0 is => exact ⟨i0, is, rfl, validInd_cons.1 h⟩
  · rintro ⟨i0, is, rfl, h⟩; exact validInd_cons.2 h

theorem inBox_zero_iff : ∀ {s i : List Nat}, InBox (s.map fun _ => 0) s i ↔ ValidInd s i
  | [], i => by simp [inBox_nil_left, validInd_nil_left]
  | s :: ss, i => by
      rw [List.map_cons, inBox_cons_left, validInd_cons_left]
      constructor
      · rintro ⟨_, _, i0, is, he, rfl, h0, h1⟩
        cases he
        exact ⟨i0, is, rfl, h0.2, inBox_zero_iff.1 h1⟩
      · rintro ⟨i0, is, rfl, h0, h1⟩
        exact ⟨s, ss, i0, is, rfl, rfl, ⟨Nat.zero_le _, h0⟩, inBox_zero_iff.2 h1⟩

theorem lin_lt : ∀ {P i : List Nat}, ValidInd P i → lin P i < prod P
  | [], _, h => by rw [validInd_nil_left.1 h]; simp [lin, prod]
  | p :: ps, i, h => by
      obtain ⟨i0, is, rfl, h0, h1⟩ := validInd_cons_left.1 h
      have ih := lin_lt h1
      simp only [lin, prod]
      calc i0 * prod ps + lin ps is < i0 * prod ps + prod ps := by omega
        _ = (i0 + 1) * prod ps := by rw [Nat.add_mul, Nat.one_mul]
        _ ≤ p * prod ps := Nat.mul_le_mul_right _ h0

theorem lin_inj : ∀ {P i j : List Nat}, ValidInd P i → ValidInd P j → lin P i = lin P j → i = j
  | [], _, _, hi, hj, _ => by rw [validInd_nil_left.1 hi, validInd_nil_left.1 hj]
  | p :: ps, i, j, hi, hj, h => by
      obtain ⟨i0, is, rfl, hi0, hi1⟩ := validInd_cons_left.1 hi
      obtain ⟨j0, js, rfl, hj0, hj1⟩ := validInd_cons_left.1 hj
      have li := lin_lt hi1
      have lj := lin_lt hj1
      simp only [lin] at h
      have hq : i0 = j0 := by
        have h1 : (i0 * prod ps + lin ps is) / prod ps = i0 := by
          rw [Nat.mul_comm, Nat.mul_add_div (by omega), Nat.div_eq_of_lt li, Nat.add_zero]
        have h2 : (j0 * prod ps + lin ps js) / prod ps = j0 := by
          rw [Nat.mul_comm, Nat.mul_add_div (by omega), Nat.div_eq_of_lt lj, Nat.add_zero]
        rw [← h1, h, h2]
      subst hq
      rw [lin_inj hi1 hj1 (by omega)]

theorem lin_surj : ∀ (P : List Nat) (m : Nat), m < prod P → ∃ i, ValidInd P i ∧ lin P i = m
  | [], m, h => ⟨[], by simp, by simp [prod] at h; simp [lin, h]⟩
  | p :: ps, m, h => by
      simp only [prod] at h
      have hp : 0 < prod ps := by
        rcases Nat.eq_zero_or_pos (prod ps) with h0 | h0
        · rw [h0] at h; simp at h
        · exact h0
      obtain ⟨is, h1, h2⟩ := lin_surj ps (m % prod ps) (Nat.mod_lt _ hp)
      refine ⟨m / prod ps :: is, validInd_cons.2 ⟨?_, h1⟩, ?_⟩
      · rw [Nat.div_lt_iff_lt_mul hp]; exact h
      · simp only [lin, h2]
        rw [Nat.mul_comm]
        exact Nat.div_add_mod m (prod ps)

theorem lin_add : ∀ {P a b : List Nat}, a.length = P.length → b.length = P.length →
    lin P (addVec a b) = lin P a + lin P b
  | [], [], [], _, _ => by simp [lin]
  | p :: ps, a :: as, b :: bs, ha, hb => by
      have := lin_add (P := ps) (a := as) (b := bs) (by simpa using ha) (by simpa using hb)
      simp only [addVec, List.zipWith_cons_cons, lin] at *
      rw [this, Nat.add_mul]; omega

theorem hasIndex_iff : ∀ {shape ind : List Nat}, ind.length = shape.length →
    (hasIndex shape ind = true ↔ ValidInd shape ind)
  | [], [], _ => by simp [hasIndex]
  | s :: ss, i :: is, h => by
      rw [validInd_cons, ← hasIndex_iff (shape := ss) (ind := is) (by simpa using h)]
      simp [hasIndex]

/-! ### Windows -/

/-- The header `h` describes the window of shape `h.shape` at `st` in an owning array of shape `P`. -/
structure IsWindow (vd : Nat) (P st : List Nat) (h : Hdr) : Prop where
  strides : h.strides = computeStrides vd P
  offset : h.offset = vd * lin P st
  lenSt : st.length = P.length
  lenShape : h.shape.length = P.length
  inside : ∀ d < P.length, st.getD d 0 + h.shape.getD d 0 ≤ P.getD d 0

theorem addVec_length {a b : List Nat} (h : a.length = b.length) : (addVec a b).length = a.length := by
  simp [addVec, h]

theorem getD_addVec {a b : List Nat} (h : a.length = b.length) (d : Nat) :
    (addVec a b).getD d 0 = a.getD d 0 + b.getD d 0 := by
  simp only [addVec, List.getD_eq_getElem?_getD, List.getElem?_zipWith]
  by_cases hd : d < a.length
  · simp [hd, h ▸ hd]
  · simp [List.getElem?_eq_none (Nat.le_of_not_lt hd), List.getElem?_eq_none (Nat.le_of_not_lt (h ▸ hd))]

theorem getD_subVec {a b : List Nat} (h : a.length = b.length) (d : Nat) :
    (subVec a b).getD d 0 = a.getD d 0 - b.getD d 0 := by
  simp only [subVec, List.getD_eq_getElem?_getD, List.getElem?_zipWith]
  by_cases hd : d < a.length
  · simp [hd, h ▸ hd]
  · simp [List.getElem?_eq_none (Nat.le_of_not_lt hd), List.getElem?_eq_none (Nat.le_of_not_lt (h ▸ hd))]

theorem IsWindow.valid {vd : Nat} {P st : List Nat} {h : Hdr} (w : IsWindow vd P st h) {i : List Nat}
    (hi : ValidInd h.shape i) : ValidInd P (addVec st i) := by
  have hl : st.length = i.length := by rw [w.lenSt, hi.1, w.lenShape]
  refine ⟨by rw [addVec_length hl, w.lenSt], fun d hd => ?_⟩
  rw [getD_addVec hl]
  have h1 := w.inside d hd
  have h2 := hi.2 d (by rw [w.lenShape]; exact hd)
  omega

theorem IsWindow.flat {vd : Nat} {P st : List Nat} {h : Hdr} (w : IsWindow vd P st h) {i : List Nat}
    (hi : i.length = P.length) : flatInd h i = vd * lin P (addVec st i) := by
  rw [flatInd_eq w.strides hi, w.offset, lin_add w.lenSt hi, Nat.mul_add]

theorem mkHdr_window (vd : Nat) (P : List Nat) : IsWindow vd P (P.map fun _ => 0) (mkHdr vd P) where
  strides := rfl
  offset := by
    have : ∀ P : List Nat, lin P (P.map fun _ => 0) = 0 := by
      intro P
      induction P with
      | nil => rfl
      | cons p ps ih => simp only [List.map_cons, lin, ih]; simp
    simp [mkHdr, this]
  lenSt := by simp
  lenShape := by simp [mkHdr]
  inside := by
    intro d hd
    have : (P.map fun _ => 0).getD d 0 = 0 := by
      simp [List.getD_eq_getElem?_getD, hd]
    rw [this]; simp [mkHdr]

theorem vsub_eq : ∀ {a b : List Nat}, (∀ d < a.length, b.getD d 0 ≤ a.getD d 0) → a.length = b.length →
    (∀ x ∈ a, x < U64) → vsub a b = subVec a b
  | [], [], _, _, _ => rfl
  | a :: as, b :: bs, h, hl, hu => by
      have h0 : b ≤ a := by simpa using h 0 (by simp)
      have ih := vsub_eq (a := as) (b := bs) (fun d hd => by simpa using h (d+1) (by simpa using hd))
        (by simpa using hl) (fun x hx => hu x (by simp [hx]))
      simp only [vsub, subVec, List.zipWith_cons_cons] at *
      rw [ih, wsub_eq h0 (hu a (by simp))]

theorem vadd_eq : ∀ {a b : List Nat}, a.length = b.length → (∀ d < a.length, a.getD d 0 + b.getD d 0 < U64) →
    vadd a b = addVec a b
  | [], [], _, _ => rfl
  | a :: as, b :: bs, hl, hu => by
      have ih := vadd_eq (a := as) (b := bs) (by simpa using hl) (fun d hd => by simpa using hu (d+1) (by simpa using hd))
      simp only [vadd, addVec, List.zipWith_cons_cons] at *
      rw [ih, wadd_eq (by simpa using hu 0 (by simp))]

/-! ### Buffers -/
variable {S : Type}

theorem copyN_spec {src dst : List S} {so n d : Nat} (h1 : so + n ≤ src.length) (h2 : d + n ≤ dst.length) :
    ∃ r, copyN src so n dst d = .ok r ∧ r.length = dst.length ∧
      ∀ x, r[x]? = if d ≤ x ∧ x < d + n then src[so + (x - d)]? else dst[x]? := by
  refine ⟨_, if_pos ⟨h1, h2⟩, ?_, ?_⟩
  · simp; omega
  · intro x
    by_cases hx : x < d
    · rw [if_neg (by omega), List.append_assoc, List.getElem?_append_left (by simp; omega)]
      rw [List.getElem?_take, if_pos hx]
    · rw [List.append_assoc, List.getElem?_append_right (by simp; omega)]
      have hd : (dst.take d).length = d := by simp; omega
      rw [hd]
      by_cases hx2 : x < d + n
      · rw [if_pos (by omega), List.getElem?_append_left (by simp; omega), List.getElem?_take, if_pos (by omega),
          List.getElem?_drop]
      · rw [if_neg (by omega), List.getElem?_append_right (by simp; omega), List.getElem?_drop]
        have : ((src.drop so).take n).length = n := by simp; omega
        rw [this]; congr 1; omega

theorem fillN_eq (dst : List S) (d n : Nat) (v : S) : fillN dst d n v = copyN (List.replicate n v) 0 n dst d := by
  unfold fillN copyN
  by_cases h : d + n ≤ dst.length
  · rw [if_pos h, if_pos ⟨by simp, h⟩]; simp
  · rw [if_neg h, if_neg (by omega)]

/-- A run of copies into pairwise disjoint destination blocks. -/
theorem runCopies_spec {ι : Type} (src : List S) (n : Nat) (so dd : ι → Nat) :
    ∀ (ops : List ι) (dst : List S),
      (∀ i ∈ ops, so i + n ≤ src.length ∧ dd i + n ≤ dst.length) →
      ops.Pairwise (fun i j => dd i + n ≤ dd j ∨ dd j + n ≤ dd i) →
      ∃ r, runLoop (fun i d => copyN src (so i) n d (dd i)) ops dst = .ok r ∧ r.length = dst.length ∧
        (∀ i ∈ ops, ∀ k < n, r[dd i + k]? = src[so i + k]?) ∧
        (∀ x, (∀ i ∈ ops, ¬ (dd i ≤ x ∧ x < dd i + n)) → r[x]? = dst[x]?)
  | [], dst, _, _ => ⟨dst, rfl, rfl, by simp, by simp⟩
  | i :: is, dst, hb, hp => by
      obtain ⟨r1, e1, l1, s1⟩ := copyN_spec (src := src) (dst := dst) (hb i (by simp)).1 (hb i (by simp)).2
      obtain ⟨hp1, hp2⟩ := List.pairwise_cons.1 hp
      obtain ⟨r, e2, l2, s2, s3⟩ := runCopies_spec src n so dd is r1
        (fun j hj => by rw [l1]; exact hb j (by simp [hj])) hp2
      refine ⟨r, by simp [runLoop, e1, e2], by rw [l2, l1], ?_, ?_⟩
      · intro j hj k hk
        rcases List.mem_cons.1 hj with rfl | hj
        · rw [s3, s1, if_pos (by omega)]
          · congr 1; omega
          · intro j' hj' hh
            have := hp1 j' hj'
            omega
        · exact s2 j hj k hk
      · intro x hx
        rw [s3 x (fun j hj => hx j (by simp [hj])), s1, if_neg (hx i (by simp))]

/-! ### Rows -/

theorem chunkDimSpec_one (e : Nat) : ∀ b, chunkDimSpec b e 1 = (forRange b e).map fun i => (i, i + 1) := by
  intro b
  fun_induction forRange b e with
  | case1 b h ih =>
      rw [chunkDimSpec_cons h (by omega), List.map_cons]
      have : min (b + 1) e = b + 1 := by omega
      rw [this, ih]
  | case2 b h => rw [chunkDimSpec_nil (by omega)]; rfl

theorem chunkSpec_rows (a z : Nat) (haz : a < z) : ∀ (s0 e0 : List Nat), s0.length = e0.length →
    (chunkSpec (s0 ++ [a]) (e0 ++ [z]) (List.replicate s0.length 1 ++ [z - a])).map Prod.fst
      = (elemLoop s0 e0).map (· ++ [a])
  | [], [], _ => by
      have : chunkDimSpec a z (z - a) = [(a, z)] := by
        rw [chunkDimSpec_cons haz (by omega)]
        have : min (a + (z - a)) z = z := by omega
        rw [this, chunkDimSpec_nil (Nat.le_refl z)]
      simp [chunkSpec, elemLoop, this]
  | s :: ss, e :: es, h => by
      have ih := chunkSpec_rows a z haz ss es (by simpa using h)
      simp only [List.cons_append, List.length_cons, List.replicate_succ, chunkSpec, elemLoop, chunkDimSpec_one,
        List.flatMap_map, List.map_flatMap, List.map_map] at *
      congr 1
      funext i
      have h1 : (Prod.fst ∘ fun p : List Nat × List Nat => (i :: p.1, (i + 1) :: p.2)) = (i :: ·) ∘ Prod.fst := rfl
      rw [h1, ← List.map_map, ih, List.map_map]
      rfl

theorem safe_rows (a z : Nat) (hz : z < U64) : ∀ (s0 e0 : List Nat), s0.length = e0.length →
    (∀ x ∈ e0, x < U64) → Safe (s0 ++ [a]) (e0 ++ [z]) (List.replicate s0.length 1 ++ [z - a])
  | [], [], _, _ => by
      have hU : U64 = 2 ^ 64 := rfl
      refine ⟨?_, trivial⟩
      unfold SafeDim
      omega
  | s :: ss, e :: es, h, he => by
      have hU : U64 = 2 ^ 64 := rfl
      have := he e (by simp)
      refine ⟨?_, safe_rows a z hz ss es (by simpa using h) (fun x hx => he x (by simp [hx]))⟩
      unfold SafeDim
      omega

theorem lastD_append (s : List Nat) (a : Nat) : lastD (s ++ [a]) = a := by simp [lastD]

theorem rows_eq {s0 e0 : List Nat} {a z : Nat} (hl : s0.length = e0.length) (haz : a < z) (hz : z < U64)
    (he : ∀ x ∈ e0, x < U64) :
    rows (s0 ++ [a]) (e0 ++ [z]) = .ok ((elemLoop s0 e0).map (· ++ [a])) := by
  have hw : wsub (lastD (e0 ++ [z])) (lastD (s0 ++ [a])) = z - a := by
    rw [lastD_append, lastD_append, wsub_eq (by omega) hz]
  unfold rows
  rw [hw]
  have hr : rowChunk (s0 ++ [a]).length (z - a) = List.replicate s0.length 1 ++ [z - a] := by
    simp [rowChunk]
  rw [hr, chunkLoop_eq _ (safe_rows a z hz s0 e0 hl he) lt_fuelFor]
  simp only [Res.ofLoop, Res.map, Res.ok_bind, chunkSpec_rows a z haz s0 e0 hl]

theorem elemLoop_snoc (a z : Nat) : ∀ (s0 e0 : List Nat), s0.length = e0.length →
    elemLoop (s0 ++ [a]) (e0 ++ [z]) = (elemLoop s0 e0).flatMap fun p => (forRange a z).map fun t => p ++ [t]
  | [], [], _ => by
      simp only [List.nil_append, elemLoop, List.map_cons, List.map_nil, List.flatMap_cons, List.flatMap_nil,
        List.append_nil]
      induction forRange a z with
      | nil => rfl
      | cons x xs ih => simp [ih]
  | s :: ss, e :: es, h => by
      simp only [List.cons_append, elemLoop, elemLoop_snoc a z ss es (by simpa using h), List.map_flatMap,
        List.flatMap_assoc, List.flatMap_map, List.map_map]
      rfl

theorem exists_snoc {l : List Nat} (h : 0 < l.length) : ∃ s a, l = s ++ [a] := by
  refine ⟨l.dropLast, l.getLast (by intro hh; rw [hh] at h; simp at h), ?_⟩
  exact (List.dropLast_concat_getLast _).symm

end Verif.ND
