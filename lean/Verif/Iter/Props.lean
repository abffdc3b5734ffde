import Verif.Iter.Lemmas
/-!
Property theorems for C01 (element loops), C02 (chunk loops) and C50 (`empty_range`).
-/
namespace Verif

/-- **C01**  The element loop over `[b,e)` calls the worker on exactly the indices of the box, on each
    once, in lexicographic order (last dimension fastest). -/
theorem C01_element_loop_exact (b e : List Nat) :
    (∀ i, i ∈ elemLoop b e ↔ InBox b e i) ∧ (elemLoop b e).Nodup ∧ (elemLoop b e).Pairwise LexLt :=
  ⟨fun _ => mem_elemLoop, elemLoop_nodup b e, elemLoop_pairwise b e⟩

/-- **C01**  An empty extent in any dimension means that the worker is never called. -/
theorem C01_empty_range_no_calls (b e : List Nat) (d : Nat) (hd : d < b.length)
    (h : e.getD d 0 ≤ b.getD d 0) : elemLoop b e = [] := by
  rw [List.eq_nil_iff_forall_not_mem]
  intro i hi
  obtain ⟨h1, _, h3⟩ := mem_elemLoop.1 hi
  have := h3 d (by omega)
  omega

/-- **C01**  The number of worker calls is the product of the extents. -/
theorem C01_number_of_calls : ∀ (b e : List Nat), b.length = e.length →
    (elemLoop b e).length = (List.zipWith (fun x y => y - x) b e).foldr (· * ·) 1
  | [], [], _ => rfl
  | b :: bs, e :: es, h => by
      simp only [elemLoop, List.length_flatMap, List.length_map, List.zipWith_cons_cons, List.foldr_cons]
      rw [C01_number_of_calls bs es (by simpa using h), forRange_eq, List.map_const']
      simp [List.length_range']

/-- **C01**  The loop over a whole array visits exactly its valid indices, each once, in lexicographic order. -/
theorem C01_array_element_loop (shape : List Nat) :
    (∀ i, i ∈ arrayElemLoop shape ↔ ValidInd shape i) ∧ (arrayElemLoop shape).Nodup ∧ (arrayElemLoop shape).Pairwise LexLt := by
  refine ⟨fun i => ?_, elemLoop_nodup _ _, elemLoop_pairwise _ _⟩
  unfold arrayElemLoop
  rw [mem_elemLoop]
  constructor
  · rintro ⟨_, h2, h3⟩
    exact ⟨h2, fun d hd => (h3 d (by omega)).2⟩
  · rintro ⟨h1, h2⟩
    refine ⟨by simpa using h1, h1, fun d hd => ⟨?_, h2 d (by omega)⟩⟩
    rw [List.getD_eq_getElem?_getD, List.getElem?_map]
    cases shape[d]? <;> simp

example : elemLoop [1, 5] [3, 7] = [[1,5],[1,6],[2,5],[2,6]] := by simp [elemLoop, forRange]
example : InBox [1, 5] [3, 7] [2, 5] := by simp [InBox]; decide

/-- **C02**  For positive chunk sizes and no wrap-around (`Safe`), the chunk loop terminates (with any
    bound on the iterations larger than the extents), hands out non-empty boxes inside `[b,e)`, not
    larger than the chunk size, lying on the grid `b + k*c`, that cover `[b,e)` and are disjoint. -/
theorem C02_chunk_loop_partitions (b e c : List Nat) (h : Safe b e c) :
    ∃ boxes, (∀ fuel, (∀ x ∈ e, x < fuel) → chunkLoop fuel b e c = some boxes) ∧
      (∀ p ∈ boxes, BoxOK b e c p.1 p.2) ∧
      (∀ i, InBox b e i ↔ ∃ p ∈ boxes, InBox p.1 p.2 i) ∧
      boxes.Pairwise (fun p q => DisjointBox p.1 p.2 q.1 q.2) :=
  ⟨chunkSpec b e c, fun fuel hf => chunkLoop_eq fuel h hf, chunkSpec_boxOK h,
    fun _ => chunkSpec_cover h, chunkSpec_disjoint h⟩

theorem safe_array : ∀ (shape c : List Nat), shape.length = c.length →
    (∀ x ∈ c, 0 < x ∧ x < U64) → (∀ x ∈ shape, x < 2 ^ 63) → Safe (shape.map fun _ => 0) shape c
  | [], [], _, _, _ => trivial
  | s :: ss, c :: cs, hl, hc, hs => by
      refine ⟨Or.inr ⟨(hc c (by simp)).1, ?_⟩, safe_array ss cs (by simpa using hl)
        (fun x hx => hc x (by simp [hx])) (fun x hx => hs x (by simp [hx]))⟩
      have h1 := (hc c (by simp)).2
      have h2 := hs s (by simp)
      have h64 : U64 = 2 ^ 64 := rfl
      show s + c ≤ 2 ^ 64 ∨ (0 + c < 2 ^ 64 ∧ s ≤ 0 + c)
      omega

/-- **C02** for loops over a whole array (start at 0): with extents below `2^63`, *every* positive
    chunk size is fine, in particular the INFTY chunk size `2^64-1` used by the streamer. -/
theorem C02_array_chunk_loop_partitions (shape c : List Nat) (hl : shape.length = c.length)
    (hc : ∀ x ∈ c, 0 < x ∧ x < U64) (hs : ∀ x ∈ shape, x < 2 ^ 63) :
    ∃ boxes, (∀ fuel, (∀ x ∈ shape, x < fuel) → arrayChunkLoop fuel shape c = some boxes) ∧
      (∀ p ∈ boxes, BoxOK (shape.map fun _ => 0) shape c p.1 p.2) ∧
      (∀ i, InBox (shape.map fun _ => 0) shape i ↔ ∃ p ∈ boxes, InBox p.1 p.2 i) ∧
      boxes.Pairwise (fun p q => DisjointBox p.1 p.2 q.1 q.2) :=
  C02_chunk_loop_partitions _ _ _ (safe_array shape c hl hc hs)

example : Safe [0, 2] [5, 9] [2, 3] := by simp [Safe, SafeDim]
example : Safe [0, 0] [5, 9] [2, 2 ^ 64 - 1] := by simp [Safe, SafeDim]
example : chunkSpec [0, 2] [3, 6] [2, 3] =
    [([0,2],[2,5]), ([0,5],[2,6]), ([2,2],[3,5]), ([2,5],[3,6])] := by
  simp [chunkSpec, chunkDimSpec]

/-- **C02** boundary: chunk size 0 on a non-empty range never terminates. -/
theorem C02_chunk_size_zero_diverges (b e : Nat) (h : b < e) (he : e < U64) (fuel : Nat) :
    chunkLoop fuel [b] [e] [0] = none := by
  have : chunkDim fuel b e 0 = none := by
    induction fuel with
    | zero => rfl
    | succ n ih =>
      have hm : min ((b + 0) % U64) e = b := by
        rw [Nat.add_zero, Nat.mod_eq_of_lt (by omega)]; omega
      simp only [chunkDim, if_pos h, hm, ih, Option.map_none]
  simp [chunkLoop, this]

/-- **C02** boundary: a range not starting at 0 combined with the INFTY chunk size `2^64-1` wraps: the
    loop hands out the inverted box `[1,0)` and then `[0,e)`, which is not inside `[1,e)`. -/
theorem C02_infty_chunk_wraps (e : Nat) (he : 1 < e) (he' : e < U64) (fuel : Nat) :
    chunkLoop (fuel + 3) [1] [e] [U64 - 1] = some [([1], [0]), ([0], [e])] := by
  have h1 : min ((1 + (U64 - 1)) % U64) e = 0 := by
    have : 1 + (U64 - 1) = U64 := by decide
    rw [this]; simp
  have h2 : min ((0 + (U64 - 1)) % U64) e = e := by
    have : (0 + (U64 - 1)) % U64 = U64 - 1 := by decide
    rw [this]; omega
  have hz : (0 : Nat) < e := by omega
  simp only [chunkLoop, chunkDim, if_pos he, if_pos hz, h1, h2, Nat.lt_irrefl, if_false]
  rfl

/-! ### C50 -/

/-- **C50 (violated by the code)**: `empty_range` is *not* equivalent to "no index is visited":
    a range that is empty in one dimension only is reported as non-empty. -/
theorem C50_empty_range_wrong :
    ∃ b e : List Nat, elemLoop b e = [] ∧ emptyRange b e = false :=
  ⟨[3, 0], [3, 5], by simp [elemLoop, forRange], by decide⟩

theorem vecGe_iff : ∀ (b e : List Nat), b.length = e.length →
    (vecGe b e = true ↔ ∀ d < b.length, e.getD d 0 ≤ b.getD d 0)
  | [], [], _ => by simp [vecGe]
  | b :: bs, e :: es, h => by
      simp only [vecGe, Bool.and_eq_true, decide_eq_true_eq, vecGe_iff bs es (by simpa using h)]
      constructor
      · rintro ⟨h0, h1⟩ d hd
        cases d with
        | zero => simpa using h0
        | succ d => simpa using h1 d (by simpa using hd)
      · intro hh
        refine ⟨by simpa using hh 0 (by simp), fun d hd => ?_⟩
        simpa using hh (d+1) (by simpa using hd)

/-- **C50, the part that holds**: a `true` answer is right (no index is visited), and in one dimension
    the answer is exact.  Missing: the converse for `dims ≥ 2`, see `C50_empty_range_wrong`. -/
theorem C50_empty_range_partial (b e : List Nat) (hl : b.length = e.length) :
    (emptyRange b e = true → elemLoop b e = []) ∧
    (b.length = 1 → (emptyRange b e = true ↔ elemLoop b e = [])) := by
  have key : emptyRange b e = true → elemLoop b e = [] := by
    intro h
    simp only [emptyRange, List.any_eq_true, List.mem_range] at h
    obtain ⟨d, hd, hv⟩ := h
    exact C01_empty_range_no_calls b e d hd ((vecGe_iff b e hl).1 hv d hd)
  refine ⟨key, fun h1 => ⟨key, fun h => ?_⟩⟩
  match b, e, h1, hl with
  | [x], [y], _, _ =>
    have hxy : y ≤ x := by
      refine Nat.le_of_not_lt fun hlt => ?_
      have : [x] ∈ elemLoop [x] [y] := mem_elemLoop.2 (inBox_cons.2 ⟨⟨Nat.le_refl x, hlt⟩, inBox_nil⟩)
      rw [h] at this; simp at this
    simp [emptyRange, vecGe, hxy]

example : emptyRange [4] [4] = true ∧ emptyRange [3] [4] = false := by decide

end Verif
