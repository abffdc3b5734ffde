import Verif.Array.Alias
import Verif.Array.Props3
/-
C84 (an operation of an array whose argument is the array itself, or a view of it, acts as if the argument were a copy).
-/
namespace Verif.ND
open Verif

variable {S : Type}

/-! ### `fill_from` -/

/-- Copies within a buffer whose sources are not written to are copies from the original. -/
theorem selfLoop {ι : Type} (orig : List S) (n : Nat) (so dd : ι → Nat) : ∀ (L : List ι) (cur : List S), cur.length = orig.length →
    (∀ i ∈ L, so i + n ≤ orig.length ∧ dd i + n ≤ orig.length) → (∀ i ∈ L, ∀ j ∈ L, so i + n ≤ dd j ∨ dd j + n ≤ so i) →
    (∀ i ∈ L, ∀ k < n, cur[so i + k]? = orig[so i + k]?) →
    runLoop (fun i b => copySelf b (so i) n (dd i)) L cur = runLoop (fun i b => copyN orig (so i) n b (dd i)) L cur
  | [], _, _, _, _, _ => rfl
  | i :: is, cur, hl, hb, hd, ha => by
    have h1 : copySelf cur (so i) n (dd i) = copyN cur (so i) n cur (dd i) := if_pos (hd i (by simp) i (by simp))
    have h2 : copyN cur (so i) n cur (dd i) = copyN orig (so i) n cur (dd i) := by
      unfold copyN
      rw [block_ext (ha i (by simp)), hl]
    obtain ⟨r, e1, e2, e3⟩ := copyN_spec (src := orig) (dst := cur) (hb i (by simp)).1 (by rw [hl]; exact (hb i (by simp)).2)
    show (copySelf cur (so i) n (dd i)).bind _ = (copyN orig (so i) n cur (dd i)).bind _
    rw [h1, h2, e1, Res.ok_bind, Res.ok_bind]
    refine selfLoop orig n so dd is r (by rw [e2, hl]) (fun j hj => hb j (by simp [hj])) (fun j hj k hk => hd j (by simp [hj]) k (by simp [hk])) fun j hj k hk => ?_
    rw [e3, if_neg, ha j (by simp [hj]) k hk]
    have := hd j (by simp [hj]) i (by simp)
    omega

/-- The rows of a region, as positions in the buffer. -/
theorem row_disjoint {vd : Nat} {P ss sd : List Nat} {hs hd : Hdr} (ws : IsWindow vd P ss hs) (wd : IsWindow vd P sd hd) {p q : List Nat} {a b n : Nat}
    (hp : ∀ t < n, ValidInd hs.shape (p ++ [a + t])) (hq : ∀ t < n, ValidInd hd.shape (q ++ [b + t]))
    (hne : ∀ t < n, ∀ u < n, addVec ss (p ++ [a + t]) ≠ addVec sd (q ++ [b + u])) :
    flatInd hs (p ++ [a]) + n * vd ≤ flatInd hd (q ++ [b]) ∨ flatInd hd (q ++ [b]) + n * vd ≤ flatInd hs (p ++ [a]) := by
  rcases Nat.eq_zero_or_pos n with rfl | hn
  · omega
  have hlp : (p ++ [a]).length = P.length := by
    have := (hp 0 hn).1
    rw [ws.lenShape] at this
    simpa using this
  have hlq : (q ++ [b]).length = P.length := by
    have := (hq 0 hn).1
    rw [wd.lenShape] at this
    simpa using this
  have e1 : ∀ t, lin P (addVec ss (p ++ [a + t])) = lin P (addVec ss (p ++ [a])) + t := by
    intro t
    rw [lin_add ws.lenSt hlp, lin_add ws.lenSt (by simpa using hlp), lin_row hlp]
    omega
  have e2 : ∀ t, lin P (addVec sd (q ++ [b + t])) = lin P (addVec sd (q ++ [b])) + t := by
    intro t
    rw [lin_add wd.lenSt hlq, lin_add wd.lenSt (by simpa using hlq), lin_row hlq]
    omega
  rw [ws.flat hlp, wd.flat hlq, Nat.mul_comm n vd, ← Nat.mul_add, ← Nat.mul_add]
  have key : lin P (addVec ss (p ++ [a])) + n ≤ lin P (addVec sd (q ++ [b])) ∨ lin P (addVec sd (q ++ [b])) + n ≤ lin P (addVec ss (p ++ [a])) := by
    by_cases h1 : lin P (addVec ss (p ++ [a])) ≤ lin P (addVec sd (q ++ [b]))
    · left
      by_cases h2 : lin P (addVec ss (p ++ [a])) + n ≤ lin P (addVec sd (q ++ [b]))
      · exact h2
      · exfalso
        have ht : lin P (addVec sd (q ++ [b])) - lin P (addVec ss (p ++ [a])) < n := by omega
        refine hne _ ht 0 hn (lin_inj (ws.valid (hp _ ht)) (wd.valid (hq 0 hn)) ?_)
        rw [e1, e2]
        omega
    · right
      by_cases h2 : lin P (addVec sd (q ++ [b])) + n ≤ lin P (addVec ss (p ++ [a]))
      · exact h2
      · exfalso
        have ht : lin P (addVec ss (p ++ [a])) - lin P (addVec sd (q ++ [b])) < n := by omega
        refine hne 0 hn _ ht (lin_inj (ws.valid (hp 0 hn)) (wd.valid (hq _ ht)) ?_)
        rw [e1, e2]
        omega
  rcases key with key | key
  · left; exact Nat.mul_le_mul_left _ key
  · right; exact Nat.mul_le_mul_left _ key

/-- The rows that `fill_from` copies. -/
theorem region_rows {hs hd : Hdr} (sms : Small hs.shape) (smd : Small hd.shape) (inStart inEnd outStart : List Nat) (hdim : 0 < inStart.length) (hlen : inStart.length = inEnd.length)
    (hin : Fits inStart (subVec inEnd inStart) hs.shape) (hout : Fits outStart (subVec inEnd inStart) hd.shape) :
    ∃ (s0 e0 o0 : List Nat) (a b n : Nat), rows inStart inEnd = .ok ((elemLoop s0 e0).map (· ++ [a])) ∧ wsub (lastD inEnd) (lastD inStart) = n ∧ 0 < n ∧
      ∀ p ∈ elemLoop s0 e0, (∀ t < n, ValidInd hs.shape (p ++ [a + t])) ∧ (∀ t < n, ValidInd hd.shape (addVec o0 (subVec p s0) ++ [b + t])) ∧
        vadd outStart (vsub (p ++ [a]) inStart) = addVec o0 (subVec p s0) ++ [b] ∧
        ∀ t < n, ∃ k, ValidInd (subVec inEnd inStart) k ∧ p ++ [a + t] = addVec inStart k ∧ addVec o0 (subVec p s0) ++ [b + t] = addVec outStart k := by
  obtain ⟨s0, a, e0, z, rfl, rfl, hl0⟩ := split_region hlen hdim
  obtain ⟨o0, b, rfl⟩ := exists_snoc (l := outStart) (by
    have := hout.1; have := hout.2.1; rw [length_subVec hlen.symm] at this; omega)
  have hol : o0.length = s0.length := by
    have h1 := hout.1; have h2 := hout.2.1
    rw [length_subVec hlen.symm] at h2
    simp at h1 h2 hlen; omega
  -- componentwise facts
  have hlt : ∀ d < (s0 ++ [a]).length, (s0 ++ [a]).getD d 0 < (e0 ++ [z]).getD d 0 ∧
      (e0 ++ [z]).getD d 0 ≤ hs.shape.getD d 0 ∧
      (o0 ++ [b]).getD d 0 + ((e0 ++ [z]).getD d 0 - (s0 ++ [a]).getD d 0) ≤ hd.shape.getD d 0 := by
    intro d hd'
    have h1 := hin.2.2 d (by rw [← hin.1]; exact hd')
    have h2 := hout.2.2 d (by rw [← hout.1]; simp at hd' ⊢; omega)
    rw [getD_subVec hlen.symm] at h1 h2
    omega
  have hlast := hlt s0.length (by simp)
  rw [getD_append_last] at hlast
  rw [show (e0 ++ [z]).getD s0.length 0 = z by rw [hl0]; exact getD_append_last] at hlast
  have hz : z < U64 := by have := sms.getD s0.length; omega
  have he0 : ∀ x ∈ e0, x < U64 := by
    intro x hx
    obtain ⟨d, hd', rfl⟩ := List.getElem_of_mem hx
    have := (hlt d (by simp; omega)).2.1
    rw [getD_append_left hd', getD_mem_lt hd'] at this
    have := sms.getD d
    omega
  have hrows := rows_eq hl0 (a := a) (z := z) (by omega) hz he0
  have hboxp : ∀ p, InBox s0 e0 p → ∀ t < z - a, InBox (s0 ++ [a]) (e0 ++ [z]) (p ++ [a + t]) := by
    intro p hp t ht
    exact (inBox_snoc hl0 hp.1).2 ⟨hp, by omega, by omega⟩
  have hsrcval : ∀ p, InBox s0 e0 p → ∀ t < z - a, ValidInd hs.shape (p ++ [a + t]) := by
    intro p hp t ht
    have hb := hboxp p hp t ht
    refine ⟨by rw [hb.1, hin.1], fun d hd' => ?_⟩
    have h1 := hb.2.2 d (by rw [hb.1, hin.1]; exact hd')
    have h2 := hlt d (by rw [hin.1]; exact hd')
    omega
  have hdstval : ∀ p, InBox s0 e0 p → ∀ t < z - a, ValidInd hd.shape (addVec o0 (subVec p s0) ++ [b + t]) := by
    intro p hp t ht
    have hb := hboxp p hp t ht
    have hpl := hp.1
    have hsl : (subVec p s0).length = p.length := length_subVec hp.1
    have hpa : (p ++ [a + t]).length = (s0 ++ [a]).length := by simp [hpl]
    have hsl2 := length_subVec hpa
    have heq : addVec o0 (subVec p s0) ++ [b + t] = addVec (o0 ++ [b]) (subVec (p ++ [a + t]) (s0 ++ [a])) := by
      rw [subVec_snoc hp.1, addVec_snoc (by omega), show a + t - a = t by omega]
    have hob : (o0 ++ [b]).length = (subVec (p ++ [a + t]) (s0 ++ [a])).length := by
      rw [hsl2, hpa]; simp [hol]
    rw [heq]
    refine ⟨by rw [← hout.1, addVec_length hob], fun d hd' => ?_⟩
    have hd2 : d < (s0 ++ [a]).length := by rw [← hpa, ← hsl2, ← hob, hout.1]; exact hd'
    rw [getD_addVec hob, getD_subVec hpa]
    have h2 := hlt d hd2
    have h1 := hb.2.2 d (by rw [hpa]; exact hd2)
    omega
  have hn : wsub (lastD (e0 ++ [z])) (lastD (s0 ++ [a])) = z - a := by
    rw [lastD_append, lastD_append, wsub_eq (by omega) hz]
  refine ⟨s0, e0, o0, a, b, z - a, hrows, hn, by omega, fun p hp => ?_⟩
  have b1 := mem_elemLoop.1 hp
  refine ⟨hsrcval p b1, hdstval p b1, ?_, fun t ht => ?_⟩
  · have hpa : (p ++ [a]).length = (s0 ++ [a]).length := by simp [b1.1]
    have e1 : vsub (p ++ [a]) (s0 ++ [a]) = subVec (p ++ [a]) (s0 ++ [a]) := by
      refine vsub_eq (fun d hd' => ?_) hpa ?_
      · exact ((hboxp p b1 0 (by omega)).2.2 d (by simpa using hd')).1
      · intro x hx
        obtain ⟨d, hd', rfl⟩ := List.getElem_of_mem hx
        have h1 := (hboxp p b1 0 (by omega)).2.2 d (by simpa using hd')
        have h2 := hlt d (by omega)
        have h3 := sms.getD d
        rw [Nat.add_zero, getD_mem_lt hd'] at h1
        omega
    rw [e1, subVec_snoc b1.1, Nat.sub_self]
    have hsl := length_subVec b1.1
    have hpl0 := b1.1
    rw [vadd_eq (by simp; omega) (fun d hd' => ?_), addVec_snoc (by omega), Nat.add_zero]
    have hvd' := hdstval p b1 0 (by omega)
    have h1 := hvd'.2 d (by rw [← hout.1]; exact hd')
    have h2 := smd.getD d
    rw [Nat.add_zero] at h1
    rw [show addVec o0 (subVec p s0) ++ [b] = addVec (o0 ++ [b]) (subVec p s0 ++ [0]) by
      rw [addVec_snoc (by omega)]; simp, getD_addVec (by simp; omega)] at h1
    omega
  · have h1 := valid_of_inBox (hboxp p b1 t ht)
    refine ⟨_, h1.1, h1.2, ?_⟩
    have hsl : (subVec p s0).length = p.length := length_subVec b1.1
    have := b1.1
    rw [subVec_snoc b1.1, addVec_snoc (by omega), show a + t - a = t by omega]

/-- **C84, `fill_from`.** If source and destination are views of the same data, and the region that is read has no element in common with the region that is written, the operation
    does what it does for separate arrays. What is missing: regions that overlap, see `C84_overlap_smears`. -/
theorem C84_fill_from_partial (vd : Nat) (P sd ss : List Nat) (hd hs : Hdr) (hP : Small P) (hvd : ViewOf vd P sd hd) (hvs : ViewOf vd P ss hs) (buf : List S)
    (hb : buf.length = volume vd P) (inStart inEnd outStart : List Nat) (hdim : 0 < inStart.length) (hlen : inStart.length = inEnd.length)
    (hin : Fits inStart (subVec inEnd inStart) hs.shape) (hout : Fits outStart (subVec inEnd inStart) hd.shape)
    (hdis : ∀ k k', ValidInd (subVec inEnd inStart) k → ValidInd (subVec inEnd inStart) k' → addVec ss (addVec inStart k) ≠ addVec sd (addVec outStart k')) :
    ∃ buf', fillFromSelf vd hd hs buf inStart inEnd outStart = .ok buf' ∧ buf'.length = buf.length ∧
      (∀ k, ValidInd (subVec inEnd inStart) k → read vd hd buf' (addVec outStart k) = read vd hs buf (addVec inStart k)) ∧
      ∀ j, ValidInd P j → (∀ k, ValidInd (subVec inEnd inStart) k → j ≠ addVec sd (addVec outStart k)) → read vd (mkHdr vd P) buf' j = read vd (mkHdr vd P) buf j := by
  have h := C05_fill_from vd P sd hd hP hvd buf hb P ss hs hP hvs buf hb inStart inEnd outStart hdim hlen hin hout
  have ws := hvs.window hP
  have wd := hvd.window hP
  obtain ⟨s0, e0, o0, a, b, n, hr, hn, hn0, hrow⟩ := region_rows (hvs.shape_small hP).1 (hvd.shape_small hP).1 inStart inEnd outStart hdim hlen hin hout
  have e : fillFromSelf vd hd hs buf inStart inEnd outStart = fillFrom vd hd buf hs buf inStart inEnd outStart := by
    unfold fillFromSelf fillFrom
    simp only [hr, hn, Res.bind_eq, Res.ok_bind]
    have hl := selfLoop buf (n * vd) (fun lo => flatInd hs lo) (fun lo => flatInd hd (vadd outStart (vsub lo inStart))) ((elemLoop s0 e0).map (· ++ [a])) buf rfl
      (by
        intro lo hlo
        obtain ⟨p, hp, rfl⟩ := List.mem_map.1 hlo
        obtain ⟨h1, h2, h3, _⟩ := hrow p hp
        simp only [h3]
        rw [hb]
        exact ⟨row_bound ws hn0 h1, row_bound wd hn0 h2⟩)
      (by
        intro lo hlo lo' hlo'
        obtain ⟨p, hp, rfl⟩ := List.mem_map.1 hlo
        obtain ⟨p', hp', rfl⟩ := List.mem_map.1 hlo'
        obtain ⟨h1, _, _, h4⟩ := hrow p hp
        obtain ⟨_, g2, g3, g4⟩ := hrow p' hp'
        simp only [g3]
        refine row_disjoint ws wd h1 g2 fun t ht u hu => ?_
        obtain ⟨k, k1, k2, _⟩ := h4 t ht
        obtain ⟨k', k1', _, k3'⟩ := g4 u hu
        rw [k2, k3']
        exact hdis k k' k1 k1')
      (fun _ _ _ _ => rfl)
    rw [hl]
  rw [e]
  exact h

/-! ### Assignment -/

theorem selfCopies {ι : Type} (n : Nat) (o : ι → Nat) (buf : List S) : ∀ L : List ι, (∀ i ∈ L, o i + n ≤ buf.length) → runLoop (fun i b => copySelf b (o i) n (o i)) L buf = .ok buf
  | [], _ => rfl
  | i :: is, h => by
    have hi := h i (by simp)
    have e : copySelf buf (o i) n (o i) = .ok buf := by
      unfold copySelf
      by_cases hn : n = 0
      · subst hn
        rw [if_pos (by omega)]
        unfold copyN
        rw [if_pos ⟨hi, hi⟩]
        simp
      · rw [if_neg (by omega), if_pos rfl, if_pos hi]
    show (copySelf buf (o i) n (o i)).bind _ = _
    rw [e, Res.ok_bind]
    exact selfCopies n o buf is fun j hj => h j (by simp [hj])

/-- **C84, assignment.** Assigning an array to itself changes nothing. -/
theorem C84_assign_self (vd : Nat) (P : List Nat) (hP : Small P) (hd0 : 0 < P.length) (buf : List S) (hb : buf.length = volume vd P) (junk : Nat → S) :
    assignSelf vd (mkHdr vd P) buf junk = .ok (mkHdr vd P, buf) := by
  have hres : ((List.range (volume vd P)).map fun k => buf.getD k (junk k)) = buf := by
    apply List.ext_getElem
    · simp [hb]
    · intro k h1 h2
      simp [List.getD, h2]
  unfold assignSelf
  rw [show (mkHdr vd P).shape = P from rfl, resize_own]
  simp only [Res.bind_eq, Res.ok_bind]
  rw [hres, show (mkHdr vd P).shape = P from rfl]
  have w := mkHdr_window vd P
  rcases shape_cases hd0 hP with ⟨h1, _⟩ | ⟨e0, z, hez, hz, hr⟩
  · obtain ⟨boxes, hb1, hb2⟩ := arrayRows hP h1
    have : boxes = [] := by simpa using hb2
    subst this
    rw [hb1]
    rfl
  · obtain ⟨boxes, hb1, hb2⟩ := arrayRows hP hr
    have hlv : LeVec (e0 ++ [z]) P := by rw [hez]; exact ⟨rfl, fun _ _ => Nat.le_refl _⟩
    have hlast : lastD P = z := by rw [hez, lastD_append]
    rw [hb1, Res.ok_bind, hlast, selfCopies (z * vd) (fun p : List Nat × List Nat => flatInd (mkHdr vd P) p.1) buf boxes, Res.ok_bind]
    intro q hq
    have hm : q.1 ∈ boxes.map Prod.fst := List.mem_map.2 ⟨q, hq, rfl⟩
    rw [hb2] at hm
    obtain ⟨p, hp, he⟩ := List.mem_map.1 hm
    show flatInd (mkHdr vd P) q.1 + z * vd ≤ _
    rw [← he, hb]
    exact row_bound w hz fun t ht => row_valid (by simp) hlv hp (by omega)

/-! ### `Append` -/

/-- Appending an array to itself is undefined unless it is empty. -/
theorem C84_append_self_undefined (vd : Nat) (a : Nat) (P : List Nat) (h2 : a + a < 2 ^ 64) (buf : List S) (hb : buf.length = volume vd (a :: P)) (hne : buf ≠ []) (junk : Nat → S) :
    appendSelf vd (mkHdr vd (a :: P)) buf junk = .ub := by
  have hsh : shapeAllowsConcat (a :: P) (a :: P) 0 = true := by simp [shapeAllowsConcat]
  have hpos : 0 < buf.length := List.length_pos_iff.2 hne
  have hvol : volume vd ((a + a) :: P) = volume vd (a :: P) + volume vd (a :: P) := by
    rw [volume_cons, volume_cons, Nat.add_mul]
  unfold appendSelf
  rw [show (mkHdr vd (a :: P)).owns = true from rfl, show (mkHdr vd (a :: P)).shape = a :: P from rfl, hsh]
  simp only [Res.assert_true, Res.bind_eq, Res.ok_bind]
  rw [show (a :: P).set 0 (wadd ((a :: P).getD 0 0) ((a :: P).getD 0 0)) = (a + a) :: P by
    show wadd a a :: P = _
    rw [wadd_eq h2], resize_own]
  simp only [Res.ok_bind]
  have hl : ((List.range (volume vd ((a + a) :: P))).map fun k => buf.getD k (junk k)).length = buf.length + buf.length := by
    rw [List.length_map, List.length_range, hvol, hb]
  unfold copySelf
  rw [hl, if_neg (by omega), if_neg (by omega)]
  rfl

/-! ### Examples and negative results -/

namespace Ex84

/-- The left half of a 2 x 4 array, and its right half. -/
theorem left : ViewOf 1 [2, 4] [0, 0] (view (mkHdr 1 [2, 4]) [0, 0] [2, 2]) := by
  have := ViewOf.step (ViewOf.own (vd := 1) (P := [2, 4])) (s := [0, 0]) (e := [2, 2]) ⟨rfl, by decide +kernel⟩ ⟨rfl, by decide +kernel⟩
  exact this

theorem right : ViewOf 1 [2, 4] [0, 2] (view (mkHdr 1 [2, 4]) [0, 2] [2, 4]) := by
  have := ViewOf.step (ViewOf.own (vd := 1) (P := [2, 4])) (s := [0, 2]) (e := [2, 4]) ⟨rfl, by decide +kernel⟩ ⟨rfl, by decide +kernel⟩
  exact this

/-- The right half is filled from the left one. -/
example : fillFromSelf 1 (view (mkHdr 1 [2, 4]) [0, 2] [2, 4]) (view (mkHdr 1 [2, 4]) [0, 0] [2, 2]) [1, 2, 3, 4, 5, 6, 7, 8] [0, 0] [2, 2] [0, 0] = .ok [1, 2, 1, 2, 5, 6, 5, 6] := by
  decide +kernel

/-- All hypotheses of `C84_fill_from_partial` hold for it. -/
example : ∃ buf', fillFromSelf 1 (view (mkHdr 1 [2, 4]) [0, 2] [2, 4]) (view (mkHdr 1 [2, 4]) [0, 0] [2, 2]) [1, 2, 3, 4, 5, 6, 7, 8] [0, 0] [2, 2] [0, 0] = .ok buf' := by
  obtain ⟨b, h, _⟩ := C84_fill_from_partial 1 [2, 4] [0, 2] [0, 0] _ _ (by unfold Small; decide) right left [1, 2, 3, 4, 5, 6, 7, 8] rfl [0, 0] [2, 2] [0, 0] (by decide) rfl
    ⟨rfl, rfl, by decide +kernel⟩ ⟨rfl, rfl, by decide +kernel⟩ (by
      intro k k' hk hk' h
      have h1 := hk.2 1 (by decide)
      have h2 : k.length = 2 := hk.1
      have h3 : k'.length = 2 := hk'.1
      obtain ⟨x, y, rfl⟩ : ∃ x y, k = [x, y] := by
        match k, h2 with
        | [x, y], _ => exact ⟨x, y, rfl⟩
      obtain ⟨x', y', rfl⟩ : ∃ x y, k' = [x, y] := by
        match k', h3 with
        | [x, y], _ => exact ⟨x, y, rfl⟩
      have h4 : 0 + (0 + y) = 2 + (0 + y') := (List.cons.inj (List.cons.inj h).2).1
      have h5 : y < 2 := h1
      omega)
  exact ⟨b, h⟩

end Ex84

/-- `fill_from` with overlapping regions of the same array does not act as if the source were a copy: shifting two rows down by one repeats the first row. -/
theorem C84_overlap_smears :
    fillFrom 1 (mkHdr 1 [3, 2]) [1, 2, 3, 4, 5, 6] (mkHdr 1 [3, 2]) [1, 2, 3, 4, 5, 6] [0, 0] [2, 2] [1, 0] = .ok [1, 2, 1, 2, 3, 4] ∧
    fillFromSelf 1 (mkHdr 1 [3, 2]) (mkHdr 1 [3, 2]) [1, 2, 3, 4, 5, 6] [0, 0] [2, 2] [1, 0] = .ok [1, 2, 1, 2, 1, 2] := by decide +kernel

/-- Regions that overlap within a row are a data race. -/
theorem C84_overlap_undefined : fillFromSelf 1 (mkHdr 1 [4]) (mkHdr 1 [4]) [1, 2, 3, 4] [0] [3] [1] = .ub := by decide +kernel

/-- `SwapAxes` into the array itself does not transpose it. -/
theorem C84_swap_axes_self :
    swapAxes 1 (mkHdr 1 [2, 2]) [1, 2, 3, 4] (mkHdr 1 [2, 2]) [1, 2, 3, 4] 0 1 (fun _ => 0) = .ok (mkHdr 1 [2, 2], [1, 3, 2, 4]) ∧
    swapAxesSelf 1 (mkHdr 1 [2, 2]) [1, 2, 3, 4] 0 1 (fun _ => 0) = .ok (mkHdr 1 [2, 2], [1, 2, 2, 4]) ∧
    swapAxesSelf 1 (mkHdr 1 [1, 2]) [1, 2] 0 1 (fun _ => 0) = .abort := by decide +kernel

example : appendSelf 1 (mkHdr 1 [2, 1]) [1, 2] (fun _ => 0) = .ub := C84_append_self_undefined 1 2 [1] (by decide) [1, 2] rfl (by decide) _

example : assignSelf 1 (mkHdr 1 [2, 2]) [1, 2, 3, 4] (fun _ => 0) = .ok (mkHdr 1 [2, 2], [1, 2, 3, 4]) := C84_assign_self 1 [2, 2] (by unfold Small; decide) (by decide) _ rfl _

end Verif.ND
