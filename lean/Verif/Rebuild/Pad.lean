import Verif.Base
import Verif.Iter.Spec
/-
Signed index vectors (`Vector<int, dims>`) and the loop over the part of a padded chunk that lies outside of the array (C46).
-/
namespace Verif.Rebuild
open Verif

/-! ### The program -/

/-- Conversion to `int` (32 bits, two's complement). -/
def i32 (x : Int) : Int := (x + 2 ^ 31) % 2 ^ 32 - 2 ^ 31

/-- Conversion to `std::size_t`. -/
def u64 (x : Int) : Nat := (x % 2 ^ 64).toNat

/-- `n` values of a loop variable that starts at `b`. -/
def countZ : Nat → Int → List Int
  | 0, _ => []
  | n + 1, b => b :: countZ n (b + 1)

/-- IteratorUtils.hh 18: the values of the variable in `for(i = b; i < e; i++)`, for `int`. -/
def forRangeZ (b e : Int) : List Int := countZ (e - b).toNat b

/-- IteratorUtils.hh 12-45 `index_loop_over_elements`, for `Vector<int, dims>`: the arguments of the worker, in order. -/
def elemLoopZ : List Int → List Int → List (List Int)
  | [], [] => [[]]
  | b :: bs, e :: es => (forRangeZ b e).flatMap fun i => (elemLoopZ bs es).map (i :: ·)
  | _, _ => []

/-- Vector.hxx 86-98 `VectorUtils::max` of a vector of `size_t` and one of `int` (`std::cmp_greater` compares the values). -/
def vmaxU (a : List Nat) (b : List Int) : List Nat := List.zipWith (fun (a : Nat) (b : Int) => if (a : Int) > b then a else u64 b) a b

/-- Vector.hxx 60-71 `VectorUtils::min`. -/
def vminU (a : List Nat) (b : List Int) : List Nat := List.zipWith (fun (a : Nat) (b : Int) => if (a : Int) < b then a else u64 b) a b

/-- DistributedNDVecArray.hxx 1298-1328 `index_loop_over_penetrating_chunk_elements`: the arguments of the worker. -/
def penetrating (start stop : List Nat) (cs ce : List Int) : List (List Int) :=
  (List.range cs.length).flatMap fun d =>
    (if cs.getD d 0 < (start.getD d 0 : Int) then elemLoopZ cs (ce.set d (i32 ((vmaxU start cs).getD d 0))) else []) ++
    (if ce.getD d 0 > (stop.getD d 0 : Int) then elemLoopZ (cs.set d (i32 ((vminU stop ce).getD d 0))) ce else [])

/-! ### Specification -/

/-- `i` is in the box `[b, e)` of signed indices. -/
def InBoxZ (b e i : List Int) : Prop :=
  i.length = b.length ∧ i.length = e.length ∧ ∀ d < i.length, b.getD d 0 ≤ i.getD d 0 ∧ i.getD d 0 < e.getD d 0

/-- The index vector as signed numbers. -/
def signed (v : List Nat) : List Int := v.map fun (n : Nat) => (n : Int)

/-- The array `[start, stop)` and the padded chunk `[cs, ce)` have the same number of dimensions, all numbers fit into `int`, and the chunk meets the
    array (or touches it) along every axis: it neither ends before the array nor starts behind it. -/
structure Meets (start stop : List Nat) (cs ce : List Int) : Prop where
  len : start.length = cs.length ∧ stop.length = cs.length ∧ ce.length = cs.length
  i32 : ∀ d < cs.length, (start.getD d 0 : Int) < 2 ^ 31 ∧ (stop.getD d 0 : Int) < 2 ^ 31
  meets : ∀ d < cs.length, (start.getD d 0 : Int) ≤ ce.getD d 0 ∧ cs.getD d 0 ≤ (stop.getD d 0 : Int)

/-! ### Proof -/

theorem i32_eq {x : Int} (h : -2 ^ 31 ≤ x) (h' : x < 2 ^ 31) : i32 x = x := by unfold i32; omega

theorem u64_eq {x : Int} (h : 0 ≤ x) (h' : x < 2 ^ 64) : (u64 x : Int) = x := by unfold u64; omega

theorem mem_countZ : ∀ {n : Nat} {b i : Int}, i ∈ countZ n b ↔ b ≤ i ∧ i < b + n
  | 0, b, i => by simp only [countZ, List.not_mem_nil, false_iff]; omega
  | n + 1, b, i => by rw [countZ, List.mem_cons, mem_countZ]; omega

theorem mem_forRangeZ {b e i : Int} : i ∈ forRangeZ b e ↔ b ≤ i ∧ i < e := by
  unfold forRangeZ
  rw [mem_countZ]
  omega

theorem mem_elemLoopZ : ∀ {b e i : List Int}, i ∈ elemLoopZ b e ↔ InBoxZ b e i
  | [], [], i => by
      constructor
      · intro h; rw [elemLoopZ, List.mem_singleton] at h; subst h
        exact ⟨rfl, rfl, fun d hd => by simp at hd⟩
      · intro h; rw [List.length_eq_zero_iff.1 h.1]; simp [elemLoopZ]
  | [], e :: es, i => by
      constructor
      · intro h; simp [elemLoopZ] at h
      · intro h
        have h1 := h.1
        have h2 := h.2.1
        simp at h1 h2; subst h1; simp at h2
  | b :: bs, [], i => by
      constructor
      · intro h; simp [elemLoopZ] at h
      · intro h
        have h1 := h.1
        have h2 := h.2.1
        simp at h1 h2; subst h2; simp at h1
  | b :: bs, e :: es, i => by
      rw [elemLoopZ, List.mem_flatMap]
      constructor
      · rintro ⟨x, hx, h⟩
        obtain ⟨j, hj, rfl⟩ := List.mem_map.1 h
        obtain ⟨h1, h2, h3⟩ := mem_elemLoopZ.1 hj
        refine ⟨by simp [h1], by simp [h2], fun d hd => ?_⟩
        rcases d with _ | d
        · exact mem_forRangeZ.1 hx
        · exact h3 d (by simpa using hd)
      · rintro ⟨h1, h2, h3⟩
        match i, h1, h2, h3 with
        | x :: j, h1, h2, h3 =>
          refine ⟨x, mem_forRangeZ.2 (h3 0 (by simp)), List.mem_map.2 ⟨j, mem_elemLoopZ.2 ⟨by simpa using h1, by simpa using h2, fun d hd => h3 (d + 1) (by simpa using hd)⟩, rfl⟩⟩

theorem getD_zip {α β γ : Type} {f : α → β → γ} {a : List α} {b : List β} {d : Nat} (h : d < a.length) (h' : d < b.length) (x : α) (y : β) (z : γ) :
    (List.zipWith f a b).getD d z = f (a.getD d x) (b.getD d y) := by
  simp only [List.getD_eq_getElem?_getD]
  rw [List.getElem?_eq_getElem (by simp; omega), List.getElem?_eq_getElem h, List.getElem?_eq_getElem h']
  simp

theorem getD_setZ {l : List Int} {k : Nat} {x : Int} (h : k < l.length) (d : Nat) : (l.set k x).getD d 0 = if d = k then x else l.getD d 0 := by
  simp only [List.getD_eq_getElem?_getD]
  by_cases e : d = k
  · subst e; simp [h]
  · rw [List.getElem?_set_ne (fun h => e h.symm), if_neg e]

theorem inBoxZ_setHi {b e i : List Int} {k : Nat} {x : Int} (hk : k < b.length) (he : e.length = b.length) :
    InBoxZ b (e.set k x) i ↔ i.length = b.length ∧ (∀ d < b.length, d ≠ k → b.getD d 0 ≤ i.getD d 0 ∧ i.getD d 0 < e.getD d 0) ∧ b.getD k 0 ≤ i.getD k 0 ∧ i.getD k 0 < x := by
  constructor
  · rintro ⟨h1, h2, h3⟩
    refine ⟨h1, fun d hd hne => ?_, ?_⟩
    · have := h3 d (by omega); rwa [getD_setZ (by omega), if_neg hne] at this
    · have := h3 k (by omega); rwa [getD_setZ (by omega), if_pos rfl] at this
  · rintro ⟨h1, h2, h3⟩
    refine ⟨h1, by simp [h1, he], fun d hd => ?_⟩
    rw [getD_setZ (by omega)]
    split
    · next h => subst h; exact h3
    · next h => exact h2 d (by omega) h

theorem inBoxZ_setLo {b e i : List Int} {k : Nat} {x : Int} (hk : k < b.length) (he : e.length = b.length) :
    InBoxZ (b.set k x) e i ↔ i.length = b.length ∧ (∀ d < b.length, d ≠ k → b.getD d 0 ≤ i.getD d 0 ∧ i.getD d 0 < e.getD d 0) ∧ x ≤ i.getD k 0 ∧ i.getD k 0 < e.getD k 0 := by
  constructor
  · rintro ⟨h1, h2, h3⟩
    rw [List.length_set] at h1
    refine ⟨h1, fun d hd hne => ?_, ?_⟩
    · have := h3 d (by omega); rwa [getD_setZ (by omega), if_neg hne] at this
    · have := h3 k (by omega); rwa [getD_setZ (by omega), if_pos rfl] at this
  · rintro ⟨h1, h2, h3⟩
    refine ⟨by simp [h1], by omega, fun d hd => ?_⟩
    rw [getD_setZ (by omega)]
    split
    · next h => subst h; exact h3
    · next h => exact h2 d (by omega) h

theorem getD_signed (v : List Nat) (d : Nat) : (signed v).getD d 0 = (v.getD d 0 : Int) := by
  unfold signed
  simp only [List.getD_eq_getElem?_getD, List.getElem?_map]
  cases v[d]? <;> simp

/-- **C46.** The loop over the penetrating part of a padded chunk visits every index of the padded chunk that lies outside of the array, and no other
    index. -/
theorem C46_penetrating_exact (start stop : List Nat) (cs ce : List Int) (h : Meets start stop cs ce) (i : List Int) :
    i ∈ penetrating start stop cs ce ↔ InBoxZ cs ce i ∧ ¬ InBoxZ (signed start) (signed stop) i := by
  obtain ⟨l1, l2, l3⟩ := h.len
  unfold penetrating
  rw [List.mem_flatMap]
  have hlo : ∀ d < cs.length, cs.getD d 0 < (start.getD d 0 : Int) → i32 ((vmaxU start cs).getD d 0) = start.getD d 0 := by
    intro d hd hlt
    unfold vmaxU
    rw [getD_zip (by omega) (by omega) 0 0, if_pos hlt]
    have := h.i32 d hd
    exact i32_eq (by omega) (by omega)
  have hhi : ∀ d < cs.length, ce.getD d 0 > (stop.getD d 0 : Int) → i32 ((vminU stop ce).getD d 0) = stop.getD d 0 := by
    intro d hd hlt
    unfold vminU
    rw [getD_zip (by omega) (by omega) 0 0, if_pos hlt]
    have := h.i32 d hd
    exact i32_eq (by omega) (by omega)
  constructor
  · rintro ⟨d, hd, hi⟩
    rw [List.mem_range] at hd
    have hm := h.meets d hd
    rcases List.mem_append.1 hi with hi | hi
    · split at hi
      · next hlt =>
        rw [mem_elemLoopZ, hlo d hd hlt, inBoxZ_setHi hd (by omega)] at hi
        obtain ⟨h1, h2, h3⟩ := hi
        refine ⟨⟨h1, by omega, fun k hk => ?_⟩, fun hb => ?_⟩
        · by_cases e : k = d
          · subst e; omega
          · exact h2 k (by omega) e
        · have := (hb.2.2 d (by omega)).1
          rw [getD_signed] at this
          omega
      · cases hi
    · split at hi
      · next hlt =>
        rw [mem_elemLoopZ, hhi d hd hlt, inBoxZ_setLo hd (by omega)] at hi
        obtain ⟨h1, h2, h3⟩ := hi
        refine ⟨⟨h1, by omega, fun k hk => ?_⟩, fun hb => ?_⟩
        · by_cases e : k = d
          · subst e; omega
          · exact h2 k (by omega) e
        · have := (hb.2.2 d (by omega)).2
          rw [getD_signed] at this
          omega
      · cases hi
  · rintro ⟨hin, hout⟩
    have hex : ∃ d < cs.length, i.getD d 0 < (start.getD d 0 : Int) ∨ (stop.getD d 0 : Int) ≤ i.getD d 0 := by
      apply Classical.byContradiction
      intro hno
      apply hout
      refine ⟨by rw [hin.1]; simp [signed, l1], by rw [hin.1]; simp [signed, l2], fun d hd => ?_⟩
      rw [getD_signed, getD_signed]
      constructor
      · exact Int.not_lt.1 fun hlt => hno ⟨d, by rw [← hin.1]; exact hd, .inl hlt⟩
      · exact Int.not_le.1 fun hle => hno ⟨d, by rw [← hin.1]; exact hd, .inr hle⟩
    obtain ⟨d, hd, hcase⟩ := hex
    have hid := hin.2.2 d (by rw [hin.1]; exact hd)
    refine ⟨d, List.mem_range.2 hd, List.mem_append.2 ?_⟩
    rcases hcase with hlt | hle
    · left
      have hc : cs.getD d 0 < (start.getD d 0 : Int) := by omega
      rw [if_pos hc, mem_elemLoopZ, hlo d hd hc, inBoxZ_setHi hd (by omega)]
      exact ⟨hin.1, fun k hk _ => hin.2.2 k (by rw [hin.1]; exact hk), hid.1, hlt⟩
    · right
      have hc : ce.getD d 0 > (stop.getD d 0 : Int) := by omega
      rw [if_pos hc, mem_elemLoopZ, hhi d hd hc, inBoxZ_setLo hd (by omega)]
      exact ⟨hin.1, fun k hk _ => hin.2.2 k (by rw [hin.1]; exact hk), hle, hid.2⟩

/-- A chunk at the corner of the array with padding 1. -/
example : Meets [0, 0] [3, 4] [-1, 1] [3, 5] :=
  ⟨⟨rfl, rfl, rfl⟩, fun d hd => by
    have hd : d < 2 := hd
    rcases d with _ | _ | d
    · decide
    · decide
    · omega, fun d hd => by
    have hd : d < 2 := hd
    rcases d with _ | _ | d
    · decide
    · decide
    · omega⟩

example : penetrating [0, 0] [3, 4] [-1, 2] [2, 5] = [[-1, 2], [-1, 3], [-1, 4], [-1, 4], [0, 4], [1, 4]] := by
  decide +kernel

/-- **C46, boundary.** A chunk that ends before the array starts: the loop also visits an index that is not in the chunk. (`RebuildChunksPartial` on a region
    inside of the array never makes such a chunk.) -/
theorem C46_disjoint_chunk_overruns : [0] ∈ penetrating [2] [5] [-3] [0] ∧ ¬ InBoxZ [-3] [0] [0] := by
  refine ⟨by decide +kernel, fun h => ?_⟩
  have h := h.2.2 0 (by simp)
  have h2 : (0 : Int) < 0 := h.2
  omega

end Verif.Rebuild
