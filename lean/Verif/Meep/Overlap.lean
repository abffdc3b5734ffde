import Verif.Meep.Save
/-
Model of ChunkUtils.hh and of the setup callback (MEEPCylindricalGreensFunctionCalculator.hxx 244-291), and C54.
-/
namespace Verif.Meep
open Verif Verif.ND Verif.Dist Verif.Tree Verif.Ops

/-! ### The program -/

/-- Vector.hxx 75-84 and 86-97 `VectorUtils::min`, `VectorUtils::max`. -/
def vmin (a b : List Nat) : List Nat := List.zipWith (fun x y => if x < y then x else y) a b
def vmax (a b : List Nat) : List Nat := List.zipWith (fun x y => if x > y then x else y) a b

/-- ChunkUtils.hh 7-15 `contains`, for `std::size_t` (the difference wraps). -/
def contains : List Nat → List Nat → List Nat → Bool
  | s :: ss, n :: ns, i :: is => if n ≤ wsub i s then false else contains ss ns is
  | _, _, _ => true

/-- ChunkUtils.hh 17-34 `overlaps`. -/
def overlaps : List Nat → List Nat → List Nat → List Nat → Bool
  | a :: as, n :: ns, b :: bs, m :: ms => if wadd b m ≤ a then false else if wadd a n ≤ b then false else overlaps as ns bs ms
  | _, _, _, _ => true

/-- ChunkUtils.hh 36-45 `get_chunk_overlap`: start index and shape of the common part. -/
def chunkOverlap (a sa b sb : List Nat) : List Nat × List Nat :=
  let s := vmin (vadd a sa) (vmax a b)
  let e := vmin (vadd a sa) (vadd b sb)
  (s, vsub e s)

/-- MEEPCylindricalGreensFunctionCalculator.hxx 253-287: the part of a simulation chunk (given in indices of the calculation domain) that is stored, if any; its
    start index is relative to the storage domain (375-376). -/
def setupChunk (dom domShape : List Nat) (c : SimChunk) : Option SimChunk :=
  if overlaps c.start c.shape dom domShape then
    let p := chunkOverlap c.start c.shape dom domShape
    some ⟨vsub p.1 dom, p.2⟩
  else none

/-! ### Specification -/

/-- Start index and shape of the same dimension; the range ends below `2^62`. -/
structure Range (n : Nat) (s sh : List Nat) : Prop where
  len : s.length = n
  len' : sh.length = n
  lt : ∀ d < n, s.getD d 0 + sh.getD d 0 < 2 ^ 62

/-- The range has an element. -/
def NonEmpty (sh : List Nat) : Prop := ∀ d < sh.length, 0 < sh.getD d 0

/-! ### Proof -/

theorem Range.tail {n : Nat} {s x : Nat} {ss ns : List Nat} (h : Range (n + 1) (s :: ss) (x :: ns)) : Range n ss ns ∧ s + x < 2 ^ 62 :=
  ⟨⟨by simpa using h.len, by simpa using h.len', fun d hd => by simpa using h.lt (d + 1) (by omega)⟩, by simpa using h.lt 0 (by omega)⟩

theorem wsub_lt {i s n : Nat} (hi : i < 2 ^ 64) (hs : s + n < 2 ^ 62) : wsub i s < n ↔ s ≤ i ∧ i < s + n := by
  have hU : U64 = 2 ^ 64 := rfl
  by_cases h : s ≤ i
  · rw [wsub_eq h (by omega)]; omega
  · have : wsub i s = i + (2 ^ 64 - s) := by
      unfold wsub
      rw [hU, Nat.mod_eq_of_lt (by omega)]
    rw [this]; omega

/-- **C54.** `contains` tells exactly whether the index is in the range. -/
theorem C54_contains : ∀ {n : Nat} {s sh i : List Nat}, Range n s sh → i.length = n → Small i → (contains s sh i = true ↔ InBox s (addVec s sh) i)
  | 0, s, sh, i, h, hi, _ => by
      have h1 := List.eq_nil_of_length_eq_zero h.len
      have h2 := List.eq_nil_of_length_eq_zero h.len'
      have h3 := List.eq_nil_of_length_eq_zero hi
      subst h1 h2 h3
      exact ⟨fun _ => ⟨rfl, rfl, fun d hd => (by cases hd)⟩, fun _ => rfl⟩
  | n + 1, s :: ss, x :: ns, i :: is, h, hi, hsm => by
      obtain ⟨h1, h2⟩ := h.tail
      have ih := C54_contains (i := is) h1 (by simpa using hi) (fun y hy => hsm y (by simp [hy]))
      show (if x ≤ wsub i s then false else contains ss ns is) = true ↔ InBox (s :: ss) ((s + x) :: addVec ss ns) (i :: is)
      rw [inBox_cons, ← ih]
      have hw := wsub_lt (i := i) (s := s) (n := x) (hsm i (by simp)) h2
      by_cases hx : x ≤ wsub i s
      · rw [if_pos hx]
        constructor
        · intro h; cases h
        · intro h
          have := hw.2 h.1
          omega
      · rw [if_neg hx]
        have := hw.1 (by omega)
        exact ⟨fun h => ⟨this, h⟩, fun h => h.2⟩
  | n + 1, [], _, _, h, _, _ => by have := h.len; cases this
  | n + 1, _ :: _, [], _, h, _, _ => by have := h.len'; cases this
  | n + 1, _ :: _, _ :: _, [], _, h, _ => by cases h

theorem overlaps_iff : ∀ {n : Nat} {a sa b sb : List Nat}, Range n a sa → Range n b sb →
    (overlaps a sa b sb = true ↔ ∀ d < n, a.getD d 0 < b.getD d 0 + sb.getD d 0 ∧ b.getD d 0 < a.getD d 0 + sa.getD d 0)
  | 0, a, sa, b, sb, h, h' => by
      have h1 := List.eq_nil_of_length_eq_zero h.len
      subst h1
      constructor
      · intro _ d hd; cases hd
      · intro _; rfl
  | n + 1, a :: as, x :: sa, b :: bs, y :: sb, h, h' => by
      obtain ⟨h1, h2⟩ := h.tail
      obtain ⟨h3, h4⟩ := h'.tail
      have hU : U64 = 2 ^ 64 := rfl
      have ih := overlaps_iff h1 h3
      show (if wadd b y ≤ a then false else if wadd a x ≤ b then false else overlaps as sa bs sb) = true ↔ _
      rw [wadd_eq (by omega), wadd_eq (by omega)]
      constructor
      · intro h d hd
        split at h
        · cases h
        · split at h
          · cases h
          · cases d with
            | zero => simp only [List.getD_cons_zero]; omega
            | succ d => simpa using ih.1 h d (by omega)
      · intro h
        have h0 := h 0 (by omega)
        simp only [List.getD_cons_zero] at h0
        rw [if_neg (by omega), if_neg (by omega), ih]
        intro d hd
        simpa using h (d + 1) (by omega)
  | n + 1, [], _, _, _, h, _ => by have := h.len; cases this
  | n + 1, _ :: _, [], _, _, h, _ => by have := h.len'; cases this
  | n + 1, _ :: _, _ :: _, [], _, _, h => by have := h.len; cases this
  | n + 1, _ :: _, _ :: _, _ :: _, [], _, h => by have := h.len'; cases this

theorem getD_range {n : Nat} {s sh : List Nat} (h : Range n s sh) (d : Nat) : (addVec s sh).getD d 0 = s.getD d 0 + sh.getD d 0 := getD_addVec (h.len.trans h.len'.symm) d

theorem inBox_range {n : Nat} {s sh i : List Nat} (h : Range n s sh) : InBox s (addVec s sh) i ↔ i.length = n ∧ ∀ d < n, s.getD d 0 ≤ i.getD d 0 ∧ i.getD d 0 < s.getD d 0 + sh.getD d 0 := by
  unfold InBox
  rw [addVec_length (h.len.trans h.len'.symm), h.len]
  constructor
  · rintro ⟨h1, _, h2⟩
    exact ⟨h1, fun d hd => by rw [← getD_range h]; exact h2 d (by omega)⟩
  · rintro ⟨h1, h2⟩
    exact ⟨h1, h1, fun d hd => by rw [getD_range h]; exact h2 d (by omega)⟩

/-- **C54.** Two ranges with a common index overlap; two non-empty ranges that are found to overlap have a common index. -/
theorem C54_overlaps {n : Nat} {a sa b sb : List Nat} (h : Range n a sa) (h' : Range n b sb) :
    ((∃ i, InBox a (addVec a sa) i ∧ InBox b (addVec b sb) i) → overlaps a sa b sb = true) ∧
    (NonEmpty sa → NonEmpty sb → overlaps a sa b sb = true → ∃ i, InBox a (addVec a sa) i ∧ InBox b (addVec b sb) i) := by
  constructor
  · rintro ⟨i, h1, h2⟩
    rw [overlaps_iff h h']
    intro d hd
    have h3 := ((inBox_range h).1 h1).2 d hd
    have h4 := ((inBox_range h').1 h2).2 d hd
    omega
  · intro n1 n2 ho
    rw [overlaps_iff h h'] at ho
    have hg : ∀ d < n, (vmax a b).getD d 0 = if a.getD d 0 > b.getD d 0 then a.getD d 0 else b.getD d 0 := fun d hd =>
      getD_zipN (f := fun x y => if x > y then x else y) (by rw [h.len]; exact hd) (by rw [h'.len]; exact hd)
    have hl : (vmax a b).length = n := by unfold vmax; rw [List.length_zipWith, h.len, h'.len, Nat.min_self]
    refine ⟨vmax a b, (inBox_range h).2 ⟨hl, fun d hd => ?_⟩, (inBox_range h').2 ⟨hl, fun d hd => ?_⟩⟩
    · have h3 := ho d hd
      have h4 := n1 d (by rw [h.len']; exact hd)
      rw [hg d hd]
      split <;> omega
    · have h3 := ho d hd
      have h4 := n2 d (by rw [h'.len']; exact hd)
      rw [hg d hd]
      split <;> omega

/-- An empty range inside another one is found to overlap. -/
theorem C54_empty_overlaps : overlaps [2] [0] [1] [3] = true ∧ ¬ ∃ i, InBox [2] (addVec [2] [0]) i := by
  refine ⟨by decide +kernel, ?_⟩
  rintro ⟨i, h⟩
  have h1 := h.2.2 0 (by rw [h.1]; decide)
  have h2 : 2 ≤ i.getD 0 0 := h1.1
  have h3 : i.getD 0 0 < 2 := h1.2
  omega

theorem overlap_facts {n : Nat} {a sa b sb : List Nat} (h : Range n a sa) (h' : Range n b sb) (ho : overlaps a sa b sb = true) :
    (chunkOverlap a sa b sb).1.length = n ∧ (chunkOverlap a sa b sb).2.length = n ∧ ∀ d < n,
      (chunkOverlap a sa b sb).1.getD d 0 = max (a.getD d 0) (b.getD d 0) ∧
      (chunkOverlap a sa b sb).1.getD d 0 + (chunkOverlap a sa b sb).2.getD d 0 = min (a.getD d 0 + sa.getD d 0) (b.getD d 0 + sb.getD d 0) := by
  rw [overlaps_iff h h'] at ho
  have hU : U64 = 2 ^ 64 := rfl
  have ha : vadd a sa = addVec a sa := vadd_eq (h.len.trans h.len'.symm) fun d hd => by have := h.lt d (by rw [← h.len]; exact hd); omega
  have hb : vadd b sb = addVec b sb := vadd_eq (h'.len.trans h'.len'.symm) fun d hd => by have := h'.lt d (by rw [← h'.len]; exact hd); omega
  have la : (addVec a sa).length = n := by rw [addVec_length (h.len.trans h.len'.symm)]; exact h.len
  have lb : (addVec b sb).length = n := by rw [addVec_length (h'.len.trans h'.len'.symm)]; exact h'.len
  have lm : (vmax a b).length = n := by unfold vmax; rw [List.length_zipWith, h.len, h'.len, Nat.min_self]
  have hm : ∀ d < n, (vmax a b).getD d 0 = if a.getD d 0 > b.getD d 0 then a.getD d 0 else b.getD d 0 := fun d hd =>
    getD_zipN (f := fun x y => if x > y then x else y) (by rw [h.len]; exact hd) (by rw [h'.len]; exact hd)
  have ls : (vmin (addVec a sa) (vmax a b)).length = n := by unfold vmin; rw [List.length_zipWith, la, lm, Nat.min_self]
  have le : (vmin (addVec a sa) (addVec b sb)).length = n := by unfold vmin; rw [List.length_zipWith, la, lb, Nat.min_self]
  have hs : ∀ d < n, (vmin (addVec a sa) (vmax a b)).getD d 0 = max (a.getD d 0) (b.getD d 0) := by
    intro d hd
    have h0 : (vmin (addVec a sa) (vmax a b)).getD d 0 = if (addVec a sa).getD d 0 < (vmax a b).getD d 0 then (addVec a sa).getD d 0 else (vmax a b).getD d 0 :=
      getD_zipN (f := fun x y => if x < y then x else y) (by omega) (by omega)
    have h1 := ho d hd
    rw [h0, hm d hd, getD_range h]
    split <;> split <;> omega
  have he : ∀ d < n, (vmin (addVec a sa) (addVec b sb)).getD d 0 = min (a.getD d 0 + sa.getD d 0) (b.getD d 0 + sb.getD d 0) := by
    intro d hd
    have h0 : (vmin (addVec a sa) (addVec b sb)).getD d 0 = if (addVec a sa).getD d 0 < (addVec b sb).getD d 0 then (addVec a sa).getD d 0 else (addVec b sb).getD d 0 :=
      getD_zipN (f := fun x y => if x < y then x else y) (by omega) (by omega)
    rw [h0, getD_range h, getD_range h']
    split <;> omega
  have hle : ∀ d < n, (vmin (addVec a sa) (vmax a b)).getD d 0 ≤ (vmin (addVec a sa) (addVec b sb)).getD d 0 := by
    intro d hd
    have h1 := ho d hd
    rw [hs d hd, he d hd]
    omega
  have hv : vsub (vmin (addVec a sa) (addVec b sb)) (vmin (addVec a sa) (vmax a b)) = subVec (vmin (addVec a sa) (addVec b sb)) (vmin (addVec a sa) (vmax a b)) := by
    refine vsub_eq (fun d hd => hle d (by omega)) (by omega) ?_
    apply small_of_getD
    intro d hd
    have := h.lt d (by omega)
    rw [he d (by omega)]
    omega
  have hco : chunkOverlap a sa b sb = (vmin (addVec a sa) (vmax a b), subVec (vmin (addVec a sa) (addVec b sb)) (vmin (addVec a sa) (vmax a b))) := by
    show (vmin (vadd a sa) (vmax a b), vsub (vmin (vadd a sa) (vadd b sb)) (vmin (vadd a sa) (vmax a b))) = _
    rw [ha, hb, hv]
  rw [hco]
  refine ⟨ls, by show (subVec _ _).length = n; rw [length_subVec (by omega)]; exact le, fun d hd => ⟨hs d hd, ?_⟩⟩
  show (vmin (addVec a sa) (vmax a b)).getD d 0 + (subVec (vmin (addVec a sa) (addVec b sb)) (vmin (addVec a sa) (vmax a b))).getD d 0 = _
  rw [getD_subVec (by omega), ← he d hd]
  have := hle d hd
  omega

/-- **C54.** The computed part consists of exactly the common indices, if the ranges overlap. -/
theorem C54_overlap {n : Nat} {a sa b sb : List Nat} (h : Range n a sa) (h' : Range n b sb) (ho : overlaps a sa b sb = true) :
    Range n (chunkOverlap a sa b sb).1 (chunkOverlap a sa b sb).2 ∧
    ∀ i, InBox (chunkOverlap a sa b sb).1 (addVec (chunkOverlap a sa b sb).1 (chunkOverlap a sa b sb).2) i ↔ InBox a (addVec a sa) i ∧ InBox b (addVec b sb) i := by
  obtain ⟨l1, l2, hd⟩ := overlap_facts h h' ho
  have hr : Range n (chunkOverlap a sa b sb).1 (chunkOverlap a sa b sb).2 := ⟨l1, l2, fun d hdn => by rw [(hd d hdn).2]; have := h.lt d hdn; omega⟩
  refine ⟨hr, fun i => ?_⟩
  rw [inBox_range hr, inBox_range h, inBox_range h']
  constructor
  · rintro ⟨hl, hi⟩
    refine ⟨⟨hl, fun d hdn => ?_⟩, hl, fun d hdn => ?_⟩ <;>
    · have h1 := hi d hdn
      have h2 := hd d hdn
      omega
  · rintro ⟨⟨hl, h1⟩, _, h2⟩
    refine ⟨hl, fun d hdn => ?_⟩
    have h3 := h1 d hdn
    have h4 := h2 d hdn
    have h5 := hd d hdn
    omega

/-- Indices relative to the storage domain. -/
theorem setup_some {n : Nat} {dom domShape : List Nat} {c p : SimChunk} (hd : Range n dom domShape) (hc : Range n c.start c.shape) (h : setupChunk dom domShape c = some p) :
    p.start.length = n ∧ p.shape.length = n ∧ (∀ d < n, p.start.getD d 0 + p.shape.getD d 0 ≤ domShape.getD d 0) ∧
    (∀ k, InBox p.start (addVec p.start p.shape) k ↔ ValidInd domShape k ∧ InBox c.start (addVec c.start c.shape) (addVec dom k)) := by
  unfold setupChunk at h
  by_cases ho : overlaps c.start c.shape dom domShape = true
  · rw [if_pos ho] at h
    injection h with h
    obtain ⟨l1, l2, hf⟩ := overlap_facts hc hd ho
    have hsub : vsub (chunkOverlap c.start c.shape dom domShape).1 dom = subVec (chunkOverlap c.start c.shape dom domShape).1 dom := by
      refine vsub_eq (fun d hdn => ?_) (by rw [l1, hd.len]) ?_
      · have := (hf d (by omega)).1; omega
      · apply small_of_getD
        intro d hdn
        have h1 := hf d (by omega)
        have h2 := hc.lt d (by omega)
        have h3 := hd.lt d (by omega)
        omega
    have ps : p.start = subVec (chunkOverlap c.start c.shape dom domShape).1 dom := by rw [← h]; exact hsub
    have psh : p.shape = (chunkOverlap c.start c.shape dom domShape).2 := by rw [← h]
    have hg : ∀ d < n, p.start.getD d 0 = max (c.start.getD d 0) (dom.getD d 0) - dom.getD d 0 ∧
        p.start.getD d 0 + p.shape.getD d 0 + dom.getD d 0 = min (c.start.getD d 0 + c.shape.getD d 0) (dom.getD d 0 + domShape.getD d 0) := by
      intro d hdn
      obtain ⟨h1, h2⟩ := hf d hdn
      rw [ps, psh, getD_subVec (by rw [l1, hd.len]), h1]
      refine ⟨rfl, ?_⟩
      rw [h1] at h2
      omega
    have hl1 : p.start.length = n := by rw [ps, length_subVec (by rw [l1, hd.len])]; exact l1
    have hl2 : p.shape.length = n := by rw [psh]; exact l2
    have hle : ∀ d < n, p.start.getD d 0 + p.shape.getD d 0 ≤ domShape.getD d 0 := fun d hdn => by have := hg d hdn; omega
    have hr : Range n p.start p.shape := ⟨hl1, hl2, fun d hdn => by have := hle d hdn; have := hd.lt d hdn; omega⟩
    refine ⟨hl1, hl2, hle, fun k => ?_⟩
    rw [inBox_range hr]
    constructor
    · rintro ⟨hl, hk⟩
      refine ⟨⟨by rw [hl, hd.len'], fun d hdn => ?_⟩, ?_⟩
      · rw [hd.len'] at hdn
        have h1 := hk d hdn
        have h2 := hle d hdn
        omega
      · rw [inBox_range hc]
        refine ⟨by rw [addVec_length (by rw [hl, hd.len])]; exact hd.len, fun d hdn => ?_⟩
        rw [getD_addVec (by rw [hl, hd.len])]
        have h1 := hk d hdn
        have h2 := hg d hdn
        omega
    · rintro ⟨hv, hk⟩
      have hl : k.length = n := by rw [hv.1, hd.len']
      refine ⟨hl, fun d hdn => ?_⟩
      have h1 := ((inBox_range hc).1 hk).2 d hdn
      rw [getD_addVec (by rw [hl, hd.len])] at h1
      have h2 := hg d hdn
      have h3 := hv.2 d (by rw [hd.len']; exact hdn)
      omega
  · rw [if_neg ho] at h; cases h

/-- **C54.** If the simulation chunks do not overlap and cover the storage domain, their stored parts divide the storage domain: no two overlap, and an index relative to
    the storage domain is valid exactly if it is in one of them. -/
theorem C54_stored_parts {n : Nat} {dom domShape : List Nat} (hd : Range n dom domShape) (chunks : List SimChunk) (hc : ∀ c ∈ chunks, Range n c.start c.shape)
    (hap : chunks.Pairwise fun c c' => DisjointBox c.start (addVec c.start c.shape) c'.start (addVec c'.start c'.shape))
    (hcov : ∀ i, InBox dom (addVec dom domShape) i → ∃ c ∈ chunks, InBox c.start (addVec c.start c.shape) i) :
    ((chunks.filterMap (setupChunk dom domShape)).Pairwise fun c c' => DisjointBox c.start (addVec c.start c.shape) c'.start (addVec c'.start c'.shape)) ∧
    ∀ k, ValidInd domShape k ↔ ∃ p ∈ chunks.filterMap (setupChunk dom domShape), InBox p.start (addVec p.start p.shape) k := by
  constructor
  · rw [List.pairwise_filterMap]
    refine hap.imp_of_mem fun {c c'} hm hm' hdis => ?_
    intro p hp p' hp' k hk
    have h1 := ((setup_some hd (hc c hm) hp).2.2.2 k).1 hk.1
    have h2 := ((setup_some hd (hc c' hm') hp').2.2.2 k).1 hk.2
    exact hdis _ ⟨h1.2, h2.2⟩
  · intro k
    constructor
    · intro hk
      have hl : k.length = n := by rw [hk.1, hd.len']
      have hin : InBox dom (addVec dom domShape) (addVec dom k) := by
        rw [inBox_range hd]
        refine ⟨by rw [addVec_length (by rw [hl, hd.len])]; exact hd.len, fun d hdn => ?_⟩
        rw [getD_addVec (by rw [hl, hd.len])]
        have := hk.2 d (by rw [hd.len']; exact hdn)
        omega
      obtain ⟨c, hcm, hci⟩ := hcov _ hin
      have ho := (C54_overlaps (hc c hcm) hd).1 ⟨_, hci, hin⟩
      obtain ⟨p, hp⟩ : ∃ p, setupChunk dom domShape c = some p := by unfold setupChunk; rw [if_pos ho]; exact ⟨_, rfl⟩
      exact ⟨p, List.mem_filterMap.2 ⟨c, hcm, hp⟩, ((setup_some hd (hc c hcm) hp).2.2.2 k).2 ⟨hk, hci⟩⟩
    · rintro ⟨p, hp, hk⟩
      obtain ⟨c, hcm, hp⟩ := List.mem_filterMap.1 hp
      exact (((setup_some hd (hc c hcm) hp).2.2.2 k).1 hk).1

namespace Ex54

/-- Three chunks side by side; the storage domain lies in the last two. -/
def chunks : List SimChunk := [⟨[0], [3]⟩, ⟨[3], [4]⟩, ⟨[7], [5]⟩]

example : (chunks.filterMap (setupChunk [4] [6])).map (fun c => (c.start, c.shape)) = [([0], [3]), ([3], [3])] := by decide +kernel

example : ∀ i, InBox [4] (addVec [4] [6]) i → ∃ c ∈ chunks, InBox c.start (addVec c.start c.shape) i := by
  intro i hi
  have h1 := mem_elemLoop.2 hi
  have h2 : ∀ i ∈ elemLoop [4] (addVec [4] [6]), ∃ c ∈ chunks, i ∈ elemLoop c.start (addVec c.start c.shape) := by decide +kernel
  obtain ⟨c, hc, h3⟩ := h2 i h1
  exact ⟨c, hc, mem_elemLoop.1 h3⟩

example : contains [4] [6] [3] = false ∧ contains [4] [6] [9] = true ∧ contains [4] [6] [10] = false := by decide +kernel

end Ex54

end Verif.Meep
