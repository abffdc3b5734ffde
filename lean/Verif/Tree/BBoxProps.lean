import Verif.Tree.BBox
import Verif.Iter.Props
import Verif.Array.Lemmas2
/-
C19 (bounding boxes) and C35 (chunk overlap).
-/
namespace Verif.Tree
open Verif Verif.ND

/-! ### Specification -/

/-- Start and end of a box of `d` directions: `start ≤ end`, all representable. -/
def IsBox (d : Nat) (s e : List Nat) : Prop :=
  s.length = d ∧ e.length = d ∧ ∀ i < d, s.getD i 0 ≤ e.getD i 0 ∧ e.getD i 0 < 2 ^ 64

/-- `[s, e)` lies inside `[s', e')`, by the coordinates of the corners. -/
def BoxLe (s e s' e' : List Nat) : Prop :=
  ∀ i < s.length, s'.getD i 0 ≤ s.getD i 0 ∧ e.getD i 0 ≤ e'.getD i 0

/-! ### Component lemmas -/

theorem getD_zipWith {f : Nat → Nat → Nat} : ∀ {a b : List Nat} {i : Nat}, i < a.length → i < b.length →
    (List.zipWith f a b).getD i 0 = f (a.getD i 0) (b.getD i 0)
  | [], _, _, h, _ => by simp at h
  | _ :: _, [], _, _, h => by simp at h
  | _ :: _, _ :: _, 0, _, _ => rfl
  | _ :: as, _ :: bs, i + 1, h1, h2 => by
      have := getD_zipWith (f := f) (a := as) (b := bs) (i := i) (by simpa using h1) (by simpa using h2)
      simpa using this

theorem wsub_lt_iff {p s e : Nat} (hp : p < U64) (he : e < U64) (hse : s ≤ e) : wsub p s < e - s ↔ s ≤ p ∧ p < e := by
  have hU : U64 = 2 ^ 64 := rfl
  by_cases h : s ≤ p
  · rw [wsub_eq h hp]; omega
  · have h1 : wsub p s = p + (U64 - s) := by
      unfold wsub; exact Nat.mod_eq_of_lt (by omega)
    rw [h1]; omega

theorem contains_iff {d : Nat} {s e p : List Nat} (h : IsBox d s e) (hp : p.length = d) (hps : Small p) :
    (Box.mk' s e).contains p = true ↔ InBox s e p := by
  obtain ⟨h1, h2, h3⟩ := h
  have key : (Box.mk' s e).contains p = true ↔
      ∀ i < s.length, wsub (p.getD i 0) (s.getD i 0) < (vsub e s).getD i 0 := by
    simp [Box.contains, Box.mk']
  rw [key, InBox]
  constructor
  · intro h
    refine ⟨by omega, by omega, fun i hi => ?_⟩
    have := h i (by omega)
    rw [vsub, getD_zipWith (by omega) (by omega), wsub_eq (h3 i (by omega)).1 (h3 i (by omega)).2] at this
    exact (wsub_lt_iff (hps.getD i) (h3 i (by omega)).2 (h3 i (by omega)).1).1 this
  · rintro ⟨_, _, h⟩ i hi
    rw [vsub, getD_zipWith (by omega) (by omega), wsub_eq (h3 i (by omega)).1 (h3 i (by omega)).2]
    exact (wsub_lt_iff (hps.getD i) (h3 i (by omega)).2 (h3 i (by omega)).1).2 (h i (by omega))

theorem exists_vec (d : Nat) (f : Nat → Nat) : ∃ l : List Nat, l.length = d ∧ ∀ i < d, l.getD i 0 = f i := by
  refine ⟨(List.range d).map f, by simp, fun i hi => ?_⟩
  rw [List.getD_eq_getElem?_getD, List.getElem?_map, List.getElem?_range hi]
  rfl

/-- **C19**  `contains` is membership in the half-open box. -/
theorem C19_contains {d : Nat} {s e p : List Nat} (h : IsBox d s e) (hp : p.length = d) (hps : Small p) :
    (Box.mk' s e).contains p = true ↔ InBox s e p := contains_iff h hp hps

/-- **C19**  `overlaps` decides the two inequalities in every direction, ... -/
theorem C19_overlaps {s e s' e' : List Nat} :
    (Box.mk' s e).overlaps (Box.mk' s' e') = true ↔ ∀ i < s.length, s.getD i 0 < e'.getD i 0 ∧ s'.getD i 0 < e.getD i 0 := by
  simp [Box.overlaps, Box.mk']

/-- **C19**  ... for boxes that contain a point it is true iff they have a common point. -/
theorem C19_overlaps_iff_common_point {d : Nat} {s e s' e' : List Nat} (h : IsBox d s e) (h' : IsBox d s' e')
    (hn : ∃ p, InBox s e p) (hn' : ∃ p, InBox s' e' p) :
    (Box.mk' s e).overlaps (Box.mk' s' e') = true ↔ ∃ p, InBox s e p ∧ InBox s' e' p := by
  obtain ⟨l1, l2, h3⟩ := h
  obtain ⟨l3, l4, h5⟩ := h'
  rw [C19_overlaps]
  constructor
  · intro ho
    obtain ⟨p, p1, p2, p3⟩ := hn
    obtain ⟨q, q1, q2, q3⟩ := hn'
    obtain ⟨l, hl, hv⟩ := exists_vec d fun i => max (s.getD i 0) (s'.getD i 0)
    refine ⟨l, ⟨by omega, by omega, fun i hi => ?_⟩, ⟨by omega, by omega, fun i hi => ?_⟩⟩
    all_goals
      have a := ho i (by omega)
      have b := p3 i (by omega)
      have c := q3 i (by omega)
      rw [hv i (by omega)]
      omega
  · rintro ⟨p, ⟨p1, p2, p3⟩, q1, q2, q3⟩ i hi
    have a := p3 i (by omega)
    have b := q3 i (by omega)
    omega

/-- **C19**  `extend` gives the smallest box containing both: it contains both, and every box containing both contains it. -/
theorem C19_extend {d : Nat} {s e s' e' : List Nat} (h : IsBox d s e) (h' : IsBox d s' e') :
    ∃ S E, (Box.mk' s e).extend (Box.mk' s' e') = Box.mk' S E ∧ IsBox d S E ∧ BoxLe s e S E ∧ BoxLe s' e' S E ∧
      ∀ T U, BoxLe s e T U → BoxLe s' e' T U → BoxLe S E T U := by
  obtain ⟨l1, l2, h3⟩ := h
  obtain ⟨l3, l4, h5⟩ := h'
  have hm : ∀ i < d, (vmin s s').getD i 0 = min (s.getD i 0) (s'.getD i 0) :=
    fun i hi => getD_zipWith (by omega) (by omega)
  have hM : ∀ i < d, (vmax e e').getD i 0 = max (e.getD i 0) (e'.getD i 0) :=
    fun i hi => getD_zipWith (by omega) (by omega)
  have hl : (vmin s s').length = d := by simp [vmin, l1, l3]
  have hL : (vmax e e').length = d := by simp [vmax, l2, l4]
  refine ⟨vmin s s', vmax e e', rfl, ⟨hl, hL, fun i hi => ?_⟩, fun i hi => ?_, fun i hi => ?_, fun T U a b i hi => ?_⟩
  · have a := h3 i hi; have b := h5 i hi
    rw [hm i hi, hM i hi]; omega
  · rw [hm i (by omega), hM i (by omega)]; omega
  · rw [hm i (by omega), hM i (by omega)]; omega
  · have a := a i (by omega); have b := b i (by omega)
    rw [hm i (by omega), hM i (by omega)]; omega

theorem foldl_mulmod (l : List Nat) : ∀ a, l.foldl (fun a x => a * x % U64) (a % U64) = (a * l.foldr (· * ·) 1) % U64 := by
  induction l with
  | nil => intro a; simp
  | cons x l ih =>
    intro a
    rw [List.foldl_cons, List.foldr_cons]
    have : a % U64 * x % U64 = (a * x) % U64 := by rw [Nat.mul_mod, Nat.mod_mod, ← Nat.mul_mod]
    rw [this, ih, Nat.mul_assoc]

/-- **C19**  `volume` is the number of points of the box (modulo 2^64). -/
theorem C19_volume {d : Nat} {s e : List Nat} (h : IsBox d s e) :
    ∃ L : List (List Nat), (∀ p, p ∈ L ↔ InBox s e p) ∧ L.Nodup ∧ (Box.mk' s e).volume = L.length % 2 ^ 64 := by
  obtain ⟨l1, l2, h3⟩ := h
  refine ⟨elemLoop s e, fun p => mem_elemLoop, elemLoop_nodup s e, ?_⟩
  rw [C01_number_of_calls s e (by omega)]
  have e1 : vsub e s = List.zipWith (fun x y => y - x) s e := by
    apply vec_ext
    · simp [vsub, l1, l2]
    · intro i hi
      have hi' : i < d := by simpa [vsub, l1, l2] using hi
      rw [vsub, getD_zipWith (by omega) (by omega), getD_zipWith (by omega) (by omega),
        wsub_eq (h3 i hi').1 (h3 i hi').2]
  show (vsub e s).foldl (fun a x => a * x % U64) (1 % U64) = _
  rw [foldl_mulmod, e1, Nat.one_mul]

theorem foldl_wadd : ∀ (l : List Nat) (a : Nat), l.foldl wadd (a % U64) = (a + l.sum) % U64
  | [], a => by simp
  | x :: l, a => by
    have e : wadd (a % U64) x = (a + x) % U64 := by unfold wadd; exact Nat.mod_add_mod _ _ _
    rw [List.foldl_cons, e, foldl_wadd l, List.sum_cons, Nat.add_assoc]

/-- **C19**  `margin` is the sum of the lengths of the edges (modulo 2^64). -/
theorem C19_margin {d : Nat} {s e : List Nat} (h : IsBox d s e) :
    (Box.mk' s e).margin = ((List.range d).map fun i => e.getD i 0 - s.getD i 0).sum % 2 ^ 64 := by
  obtain ⟨l1, l2, h3⟩ := h
  have e1 : vsub e s = (List.range d).map fun i => e.getD i 0 - s.getD i 0 := by
    apply vec_ext
    · simp [vsub, l1, l2]
    · intro i hi
      have hi' : i < d := by simpa [vsub, l1, l2] using hi
      rw [vsub, getD_zipWith (by omega) (by omega), wsub_eq (h3 i hi').1 (h3 i hi').2]
      simp [List.getD_eq_getElem?_getD, hi']
  show (vsub e s).foldl wadd (0 % U64) = _
  rw [foldl_wadd, e1, Nat.zero_add]

/-- **C19**  `compute_center` is the middle of the box, rounded down, if the sums of start and end do not overflow. -/
theorem C19_center {d : Nat} {s e : List Nat} (h : IsBox d s e) (hs : ∀ i < d, s.getD i 0 + e.getD i 0 < 2 ^ 64) :
    (Box.mk' s e).center.length = d ∧ ∀ i < d, (Box.mk' s e).center.getD i 0 = (s.getD i 0 + e.getD i 0) / 2 := by
  obtain ⟨l1, l2, h3⟩ := h
  refine ⟨by simp [Box.center, Box.mk', vadd, l1, l2], fun i hi => ?_⟩
  have e1 : wadd (s.getD i 0) (e.getD i 0) = s.getD i 0 + e.getD i 0 := by
    unfold wadd; exact Nat.mod_eq_of_lt (hs i hi)
  have e2 : (vadd s e).getD i 0 = s.getD i 0 + e.getD i 0 := by
    rw [vadd, getD_zipWith (by omega) (by omega), e1]
  have hl : i < (vadd s e).length := by simp [vadd, l1, l2, hi]
  show ((vadd s e).map (· / 2)).getD i 0 = _
  rw [← e2]
  simp [List.getD_eq_getElem?_getD, hl]

example : IsBox 2 [1, 2] [4, 9] ∧ (Box.mk' [1, 2] [4, 9]).margin = 10 ∧ (Box.mk' [1, 2] [4, 9]).center = [2, 5] := by
  unfold IsBox; decide +kernel

theorem overlapLoop_eq : ∀ (s e : List Nat) (a : Nat), s.length = e.length →
    Box.overlapLoop s e (a % U64) = (a * (List.zipWith (fun x y => y - x) s e).foldr (· * ·) 1) % U64
  | [], [], a, _ => by simp [Box.overlapLoop]
  | x :: s, y :: e, a, h => by
      rw [Box.overlapLoop, List.zipWith_cons_cons, List.foldr_cons]
      by_cases hxy : x < y
      · rw [if_pos hxy]
        have : a % U64 * (y - x) % U64 = (a * (y - x)) % U64 := by rw [Nat.mul_mod, Nat.mod_mod, ← Nat.mul_mod]
        rw [this, overlapLoop_eq s e _ (by simpa using h), Nat.mul_assoc]
      · have : y - x = 0 := by omega
        rw [if_neg hxy, this]; simp

/-- **C19**  The overlap volume is the number of common points (modulo 2^64). -/
theorem C19_overlap_volume {d : Nat} {s e s' e' : List Nat} (h : IsBox d s e) (h' : IsBox d s' e') :
    ∃ L : List (List Nat), (∀ p, p ∈ L ↔ InBox s e p ∧ InBox s' e' p) ∧ L.Nodup ∧
      (Box.mk' s e).overlapVolume (Box.mk' s' e') = L.length % 2 ^ 64 := by
  obtain ⟨l1, l2, h3⟩ := h
  obtain ⟨l3, l4, h5⟩ := h'
  have hM : ∀ i < d, (vmax s s').getD i 0 = max (s.getD i 0) (s'.getD i 0) :=
    fun i hi => getD_zipWith (by omega) (by omega)
  have hm : ∀ i < d, (vmin e e').getD i 0 = min (e.getD i 0) (e'.getD i 0) :=
    fun i hi => getD_zipWith (by omega) (by omega)
  have hl : (vmax s s').length = d := by simp [vmax, l1, l3]
  have hL : (vmin e e').length = d := by simp [vmin, l2, l4]
  refine ⟨elemLoop (vmax s s') (vmin e e'), fun p => ?_, elemLoop_nodup _ _, ?_⟩
  · rw [mem_elemLoop]
    constructor
    · rintro ⟨a, b, c⟩
      refine ⟨⟨by omega, by omega, fun i hi => ?_⟩, by omega, by omega, fun i hi => ?_⟩
      all_goals
        have := c i hi
        rw [hM i (by omega), hm i (by omega)] at this
        omega
    · rintro ⟨⟨a, b, c⟩, a', b', c'⟩
      refine ⟨by omega, by omega, fun i hi => ?_⟩
      have := c i hi; have := c' i hi
      rw [hM i (by omega), hm i (by omega)]; omega
  · rw [C01_number_of_calls _ _ (by omega)]
    show Box.overlapLoop (vmax s s') (vmin e e') (1 % U64) = _
    rw [overlapLoop_eq _ _ _ (by omega), Nat.one_mul]

/-! Boxes with a negative extent are outside of the theorems: `contains` of `[3,1)` accepts 5. -/
example : (Box.mk' [3] [1]).contains [5] = true := by decide +kernel
example : IsBox 2 [1, 2] [4, 2 ^ 64 - 1] := ⟨rfl, rfl, by decide⟩
example : (Box.mk' [1, 2] [4, 7]).contains [3, 6] = true ∧ (Box.mk' [1, 2] [4, 7]).contains [0, 6] = false := by decide +kernel
example : (Box.mk' [1, 2] [4, 7]).overlapVolume (Box.mk' [2, 5] [9, 9]) = 4 := by decide +kernel

/-! ### C35 -/

/-- **C35**  A chunk given by start and shape (end representable): `contains` is membership. -/
theorem C35_contains {d : Nat} {st sh p : List Nat} (h1 : st.length = d) (h2 : sh.length = d)
    (h3 : ∀ i < d, st.getD i 0 + sh.getD i 0 < 2 ^ 64) (hp : p.length = d) (hps : Small p) :
    ChunkUtils.contains st sh p = true ↔ InBox st (addVec st sh) p := by
  simp only [ChunkUtils.contains, List.all_eq_true, List.mem_range, decide_eq_true_eq, InBox]
  have hl : (addVec st sh).length = d := by rw [addVec_length (by omega)]; exact h1
  constructor
  · intro h
    refine ⟨by omega, by omega, fun i hi => ?_⟩
    rw [getD_addVec (by omega)]
    have := h i (by omega)
    have e : sh.getD i 0 = (st.getD i 0 + sh.getD i 0) - st.getD i 0 := by omega
    rw [e] at this
    exact (wsub_lt_iff (hps.getD i) (h3 i (by omega)) (by omega)).1 this
  · rintro ⟨_, _, h⟩ i hi
    have := h i (by omega)
    rw [getD_addVec (by omega)] at this
    have e : sh.getD i 0 = (st.getD i 0 + sh.getD i 0) - st.getD i 0 := by omega
    rw [e]
    exact (wsub_lt_iff (hps.getD i) (h3 i (by omega)) (by omega)).2 this

/-- **C35**  For chunks of positive extent `overlaps` is true iff there is a common index, and then `get_chunk_overlap` returns
    exactly the common indices (as a chunk of positive extent). -/
theorem C35_overlap {d : Nat} {sa ha sb hb : List Nat} (a1 : sa.length = d) (a2 : ha.length = d)
    (a3 : ∀ i < d, 0 < ha.getD i 0 ∧ sa.getD i 0 + ha.getD i 0 < 2 ^ 64) (b1 : sb.length = d) (b2 : hb.length = d)
    (b3 : ∀ i < d, 0 < hb.getD i 0 ∧ sb.getD i 0 + hb.getD i 0 < 2 ^ 64) :
    (ChunkUtils.overlaps sa ha sb hb = true ↔ ∃ p, InBox sa (addVec sa ha) p ∧ InBox sb (addVec sb hb) p) ∧
    (ChunkUtils.overlaps sa ha sb hb = true →
      (∀ i < d, 0 < (ChunkUtils.overlap sa ha sb hb).2.getD i 0) ∧
      ∀ p, InBox (ChunkUtils.overlap sa ha sb hb).1
          (addVec (ChunkUtils.overlap sa ha sb hb).1 (ChunkUtils.overlap sa ha sb hb).2) p ↔
        InBox sa (addVec sa ha) p ∧ InBox sb (addVec sb hb) p) := by
  have hva : vadd sa ha = addVec sa ha := vadd_eq (by omega) (fun i hi => (a3 i (by omega)).2)
  have hvb : vadd sb hb = addVec sb hb := vadd_eq (by omega) (fun i hi => (b3 i (by omega)).2)
  have la : (addVec sa ha).length = d := by rw [addVec_length (by omega)]; exact a1
  have lb : (addVec sb hb).length = d := by rw [addVec_length (by omega)]; exact b1
  have ga : ∀ i, (addVec sa ha).getD i 0 = sa.getD i 0 + ha.getD i 0 := fun i => getD_addVec (by omega) i
  have gb : ∀ i, (addVec sb hb).getD i 0 = sb.getD i 0 + hb.getD i 0 := fun i => getD_addVec (by omega) i
  have key : ChunkUtils.overlaps sa ha sb hb = true ↔
      ∀ i < d, sa.getD i 0 < sb.getD i 0 + hb.getD i 0 ∧ sb.getD i 0 < sa.getD i 0 + ha.getD i 0 := by
    simp only [ChunkUtils.overlaps, List.all_eq_true, List.mem_range, Bool.and_eq_true, decide_eq_true_eq, a1]
    constructor <;> intro h i hi <;> have := h i hi
    · rwa [wadd_eq (b3 i hi).2, wadd_eq (a3 i hi).2] at this
    · rwa [wadd_eq (b3 i hi).2, wadd_eq (a3 i hi).2]
  refine ⟨?_, fun ho => ?_⟩
  · rw [key]
    constructor
    · intro ho
      obtain ⟨l, hl, hv⟩ := exists_vec d fun i => max (sa.getD i 0) (sb.getD i 0)
      refine ⟨l, ⟨by omega, by omega, fun i hi => ?_⟩, ⟨by omega, by omega, fun i hi => ?_⟩⟩
      all_goals
        have x := ho i (by omega)
        have y := (a3 i (by omega)).1
        have z := (b3 i (by omega)).1
        rw [hv i (by omega)]
        first | rw [ga] | rw [gb]
        omega
    · rintro ⟨p, ⟨p1, p2, p3⟩, q1, q2, q3⟩ i hi
      have a := p3 i (by omega); have b := q3 i (by omega)
      rw [ga] at a; rw [gb] at b; omega
  · rw [key] at ho
    simp only [ChunkUtils.overlap, hva, hvb]
    have g1 : ∀ i < d, (vmin (addVec sa ha) (vmax sa sb)).getD i 0
        = min (sa.getD i 0 + ha.getD i 0) (max (sa.getD i 0) (sb.getD i 0)) := by
      intro i hi
      rw [vmin, getD_zipWith (by omega) (by simp [vmax, a1, b1]; omega), vmax, getD_zipWith (by omega) (by omega), ga]
    have g2 : ∀ i < d, (vmin (addVec sa ha) (addVec sb hb)).getD i 0
        = min (sa.getD i 0 + ha.getD i 0) (sb.getD i 0 + hb.getD i 0) := by
      intro i hi
      rw [vmin, getD_zipWith (by omega) (by omega), ga, gb]
    have l1 : (vmin (addVec sa ha) (vmax sa sb)).length = d := by simp [vmin, vmax, la, a1, b1]
    have l2 : (vmin (addVec sa ha) (addVec sb hb)).length = d := by simp [vmin, la, lb]
    have l3 : (vsub (vmin (addVec sa ha) (addVec sb hb)) (vmin (addVec sa ha) (vmax sa sb))).length = d := by simp [vsub, l1, l2]
    have g3 : ∀ i < d, (vsub (vmin (addVec sa ha) (addVec sb hb)) (vmin (addVec sa ha) (vmax sa sb))).getD i 0
        = min (sa.getD i 0 + ha.getD i 0) (sb.getD i 0 + hb.getD i 0)
          - min (sa.getD i 0 + ha.getD i 0) (max (sa.getD i 0) (sb.getD i 0)) := by
      intro i hi
      have x := ho i hi; have y := a3 i hi; have z := b3 i hi
      have hU : U64 = 2 ^ 64 := rfl
      rw [vsub, getD_zipWith (by omega) (by omega), g1 i hi, g2 i hi, wsub_eq (by omega) (by omega)]
    refine ⟨fun i hi => ?_, fun p => ?_⟩
    · have x := ho i hi; have y := (a3 i hi).1; have z := (b3 i hi).1
      rw [g3 i hi]; omega
    · have l4 := addVec_length (a := vmin (addVec sa ha) (vmax sa sb))
        (b := vsub (vmin (addVec sa ha) (addVec sb hb)) (vmin (addVec sa ha) (vmax sa sb))) (by omega)
      have g4 : ∀ i, _ = _ := fun i => getD_addVec (a := vmin (addVec sa ha) (vmax sa sb))
        (b := vsub (vmin (addVec sa ha) (addVec sb hb)) (vmin (addVec sa ha) (vmax sa sb))) (by omega) i
      constructor
      · rintro ⟨p1, p2, p3⟩
        refine ⟨⟨by omega, by omega, fun i hi => ?_⟩, by omega, by omega, fun i hi => ?_⟩
        all_goals
          have x := ho i (by omega); have y := (a3 i (by omega)).1; have z := (b3 i (by omega)).1
          have w := p3 i hi
          rw [g4 i, g1 i (by omega), g3 i (by omega)] at w
          first | rw [ga] | rw [gb]
          omega
      · rintro ⟨⟨p1, p2, p3⟩, q1, q2, q3⟩
        refine ⟨by omega, by omega, fun i hi => ?_⟩
        have x := ho i (by omega); have y := (a3 i (by omega)).1; have z := (b3 i (by omega)).1
        have w := p3 i hi; have v := q3 i hi
        rw [ga] at w; rw [gb] at v
        rw [g4 i, g1 i (by omega), g3 i (by omega)]
        omega

example : ChunkUtils.overlaps [0, 4] [3, 3] [2, 5] [5, 9] = true ∧ ChunkUtils.overlap [0, 4] [3, 3] [2, 5] [5, 9] = ([2, 5], [1, 2]) := by
  decide +kernel

end Verif.Tree
