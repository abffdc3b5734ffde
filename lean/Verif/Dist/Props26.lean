import Verif.Dist.LibInv
import Verif.Array.Props3
/-
C26: chunk metadata.
-/
namespace Verif.Dist
open Verif Verif.ND Verif.Tree Verif.Bytes

/-- What happens to the record of a chunk: it grows along an axis, two axes are exchanged, or it is written to the index file and read back. -/
inductive MOp where
  | grow (axis n : Nat)
  | swap (p q : Nat)
  | store (h : Host)

/-- The calls of the code. -/
def Meta.apply (dims : Nat) (m : Meta) : MOp → Res Meta
  | .grow axis n => .ok (m.grow axis n)
  | .swap p q => .ok (m.swap p q)
  | .store h => ((metaCodec h dims).deser ((metaCodec h dims).ser m)).bind fun r => .ok r.1

def Meta.applyAll (dims : Nat) : Meta → List MOp → Res Meta
  | m, [] => .ok m
  | m, op :: ops => (m.apply dims op).bind fun m' => m'.applyAll dims ops

/-! ### Specification -/

/-- Start and extents of the chunk, and what the operations do to them. -/
def specStep (s : List Nat × List Nat) : MOp → List Nat × List Nat
  | .grow axis n => (s.1, s.2.set axis (s.2.getD axis 0 + n))
  | .swap p q => (swapAt s.1 p q, swapAt s.2 p q)
  | .store _ => s

/-- The axes exist, and the end of the chunk stays representable. -/
def MOk (dims : Nat) (s : List Nat × List Nat) : MOp → Prop
  | .grow axis n => axis < dims ∧ s.1.getD axis 0 + s.2.getD axis 0 + n < 2 ^ 64
  | .swap p q => p < dims ∧ q < dims
  | .store _ => True

def AllMOk (dims : Nat) : List Nat × List Nat → List MOp → Prop
  | _, [] => True
  | s, op :: ops => MOk dims s op ∧ AllMOk dims (specStep s op) ops

def specRun : List Nat × List Nat → List MOp → List Nat × List Nat
  | s, [] => s
  | s, op :: ops => specRun (specStep s op) ops

/-- The record describes a chunk at `start` with extents `shape`: the end is start + shape, and `global index - loc_ind_offset` is the position of
    the index in the array with `overlap` elements of padding on each side, for every index of the padded box. -/
structure Describes (dims : Nat) (m : Meta) (start shape : List Nat) (overlap : Nat) : Prop where
  startEq : m.start = start
  shapeEq : m.shape = shape
  overlapEq : m.overlap = overlap
  stopEq : m.stop = addVec start shape
  local_ : ∀ i : List Nat, i.length = dims →
    (∀ d < dims, start.getD d 0 ≤ i.getD d 0 + overlap ∧ i.getD d 0 < start.getD d 0 + shape.getD d 0 + overlap ∧ i.getD d 0 + overlap < 2 ^ 64) →
    (vsub i m.offset).length = dims ∧
    ∀ d < dims, (vsub i m.offset).getD d 0 = i.getD d 0 + overlap - start.getD d 0 ∧ (vsub i m.offset).getD d 0 < shape.getD d 0 + 2 * overlap

/-! ### Proof -/

theorem wsub_offset {x s o : Nat} (hs : s < 2 ^ 64) (h : s ≤ x + o) (hx : x + o < 2 ^ 64) : wsub x (wsub s o) = x + o - s := by
  unfold wsub
  rw [show U64 = 18446744073709551616 from rfl]
  omega

/-- What is kept. -/
structure MInv (dims : Nat) (m : Meta) (start shape : List Nat) (overlap : Nat) (ct : CType) (path : List Nat) (id : Nat) : Prop where
  startLen : start.length = dims
  shapeLen : shape.length = dims
  lt : ∀ d < dims, start.getD d 0 + shape.getD d 0 < 2 ^ 64
  eq : m = ⟨ct, path, id, shape, start, addVec start shape, overlap, vsubS start overlap⟩

theorem MInv.describes {dims : Nat} {m : Meta} {start shape : List Nat} {overlap : Nat} {ct : CType} {path : List Nat} {id : Nat}
    (h : MInv dims m start shape overlap ct path id) : Describes dims m start shape overlap := by
  have h1 := h.startLen
  have hoff : m.offset = vsubS start overlap := by rw [h.eq]
  refine ⟨by rw [h.eq], by rw [h.eq], by rw [h.eq], by rw [h.eq], fun i hi hb => ?_⟩
  rw [hoff]
  have hol : (vsubS start overlap).length = dims := by simp [vsubS, h1]
  refine ⟨by simp [vsub, hi, hol], fun d hd => ?_⟩
  have e1 : (vsub i (vsubS start overlap)).getD d 0 = wsub (i.getD d 0) ((vsubS start overlap).getD d 0) := getD_zipWith (by omega) (by omega)
  have e2 : (vsubS start overlap).getD d 0 = wsub (start.getD d 0) overlap := by
    unfold vsubS
    rw [List.getD_eq_getElem?_getD, List.getD_eq_getElem?_getD, List.getElem?_map, List.getElem?_eq_getElem (by omega)]
    rfl
  have h5 := hb d hd
  have h6 := h.lt d hd
  rw [e1, e2, wsub_offset (by omega) h5.1 h5.2.2]
  omega

theorem mkMeta_inv {dims : Nat} {start shape : List Nat} (overlap : Nat) (ct : CType) (path : List Nat) (id : Nat) (h1 : start.length = dims) (h2 : shape.length = dims)
    (h3 : ∀ d < dims, start.getD d 0 + shape.getD d 0 < 2 ^ 64) : MInv dims (mkMeta ct path id start shape overlap) start shape overlap ct path id := by
  refine ⟨h1, h2, h3, ?_⟩
  unfold mkMeta
  have : vadd start shape = addVec start shape := vadd_eq (by omega) (fun d hd => by have := h3 d (by omega); have hU : U64 = 2 ^ 64 := rfl; omega)
  rw [this]

theorem addVec_set {a b : List Nat} {k x : Nat} (hl : a.length = b.length) (hk : k < a.length) : addVec a (b.set k x) = (addVec a b).set k (a.getD k 0 + x) := by
  have hll : (addVec a b).length = a.length := by simp [addVec, hl]
  apply vec_ext
  · simp [addVec, hl]
  · intro d _
    rw [getD_addVec (by rw [List.length_set]; exact hl), getD_set, getD_set, getD_addVec hl, hll]
    (repeat' split) <;> simp_all

theorem MInv.step {dims : Nat} {m : Meta} {start shape : List Nat} {overlap : Nat} {ct : CType} {path : List Nat} {id : Nat}
    (h : MInv dims m start shape overlap ct path id) (ho : overlap < 2 ^ 64) (hid : id < 2 ^ 64) (hp : path.length < 2 ^ 64) (op : MOp) (hop : MOk dims (start, shape) op) :
    ∃ m', m.apply dims op = .ok m' ∧ MInv dims m' (specStep (start, shape) op).1 (specStep (start, shape) op).2 overlap ct path id := by
  have hU : U64 = 2 ^ 64 := rfl
  have h1 := h.startLen
  have h2 := h.shapeLen
  have hal : (addVec start shape).length = dims := by simp [addVec, h1, h2]
  cases op with
  | grow axis n =>
    obtain ⟨ha, hn⟩ := hop
    refine ⟨_, rfl, h1, by simp [specStep, h2], fun d hd => ?_, ?_⟩
    · show start.getD d 0 + (shape.set axis _).getD d 0 < _
      rw [getD_set]
      have := h.lt d hd
      split
      · rename_i e
        obtain ⟨rfl, _⟩ := e
        have hn : start.getD axis 0 + shape.getD axis 0 + n < 2 ^ 64 := hn
        show start.getD axis 0 + (shape.getD axis 0 + n) < 2 ^ 64
        omega
      · exact this
    · rw [h.eq]
      have hn : start.getD axis 0 + shape.getD axis 0 + n < 2 ^ 64 := hn
      show Meta.mk _ _ _ (bump shape axis n) _ (bump (addVec start shape) axis n) _ _ = _
      unfold bump
      rw [wadd_eq (by omega), getD_addVec (by omega), wadd_eq (by omega)]
      simp only [specStep]
      rw [addVec_set (by omega) (by omega)]
      congr 2; omega
  | swap p q =>
    obtain ⟨hp', hq⟩ := hop
    refine ⟨_, rfl, by simp [specStep, length_swapAt, h1], by simp [specStep, length_swapAt, h2], fun d hd => ?_, ?_⟩
    · show (swapAt start p q).getD d 0 + (swapAt shape p q).getD d 0 < _
      rw [getD_swapAt (by omega) (by omega), getD_swapAt (by omega) (by omega)]
      exact h.lt _ (by (repeat' split) <;> omega)
    · rw [h.eq]
      show Meta.mk _ _ _ (swapAt shape p q) (swapAt start p q) (swapAt (addVec start shape) p q) _ (swapAt (vsubS start overlap) p q) = _
      have e1 : swapAt (addVec start shape) p q = addVec (swapAt start p q) (swapAt shape p q) := by
        apply vec_ext
        · simp [addVec, length_swapAt]
        · intro d _
          rw [getD_swapAt (by omega) (by omega), getD_addVec (by omega), getD_addVec (by simp only [length_swapAt]; omega), getD_swapAt (by omega) (by omega),
            getD_swapAt (by omega) (by omega)]
      have e2 : swapAt (vsubS start overlap) p q = vsubS (swapAt start p q) overlap := by
        unfold vsubS swapAt
        rw [List.map_set, List.map_set]
        have e : ∀ d, d < start.length → (start.map (wsub · overlap)).getD d 0 = wsub (start.getD d 0) overlap := fun d hd => by
          rw [List.getD_eq_getElem?_getD, List.getD_eq_getElem?_getD, List.getElem?_map, List.getElem?_eq_getElem hd]; rfl
        rw [e q (by omega), e p (by omega)]
      rw [e1, e2]; rfl
  | store hst =>
    have hct : ct.toNat < 2 ^ 64 := by cases ct <;> decide
    have r1 := (C10_u64 hst _ hct).2.1
    have r2 := C11_string hst path hp
    have r3 := (C10_u64 hst _ hid).2.1
    have r4 : RoundTrips (array dims (u64 hst)) start := C11_array _ _ _ h1 fun x hx => by
      obtain ⟨d, hd, rfl⟩ := List.getElem_of_mem hx
      refine (C10_u64 hst _ ?_).2.1
      have := h.lt d (by omega)
      rw [List.getD_eq_getElem?_getD (l := start), List.getElem?_eq_getElem hd, Option.getD_some] at this
      omega
    have r5 : RoundTrips (array dims (u64 hst)) shape := C11_array _ _ _ h2 fun x hx => by
      obtain ⟨d, hd, rfl⟩ := List.getElem_of_mem hx
      refine (C10_u64 hst _ ?_).2.1
      have := h.lt d (by omega)
      rw [List.getD_eq_getElem?_getD (l := shape), List.getElem?_eq_getElem hd, Option.getD_some] at this
      omega
    have r6 := (C10_u64 hst _ ho).2.1
    refine ⟨m, ?_, h⟩
    have hmk := mkMeta_inv (dims := dims) overlap ct path id h1 h2 h.lt
    unfold Meta.apply metaCodec
    simp only
    rw [h.eq]
    simp only [List.append_assoc]
    rw [r1]
    simp only [Res.ok_bind]
    rw [show ctypeOf ct.toNat = .ok ct by cases ct <;> rfl]
    simp only [Res.ok_bind]
    rw [r2]
    simp only [Res.ok_bind]
    rw [r3]
    simp only [Res.ok_bind]
    rw [r4]
    simp only [Res.ok_bind]
    rw [r5]
    simp only [Res.ok_bind]
    have := r6 []
    rw [List.append_nil] at this
    rw [this]
    simp only [Res.ok_bind]
    rw [hmk.eq]

theorem MInv.run {dims : Nat} {overlap : Nat} {ct : CType} {path : List Nat} {id : Nat} (ho : overlap < 2 ^ 64) (hid : id < 2 ^ 64) (hp : path.length < 2 ^ 64) :
    ∀ (ops : List MOp) {m : Meta} {s : List Nat × List Nat}, MInv dims m s.1 s.2 overlap ct path id → AllMOk dims s ops →
    ∃ m', m.applyAll dims ops = .ok m' ∧ MInv dims m' (specRun s ops).1 (specRun s ops).2 overlap ct path id
  | [], m, s, h, _ => ⟨m, rfl, h⟩
  | op :: ops, m, s, h, ha => by
      obtain ⟨m1, e1, h1⟩ := h.step ho hid hp op ha.1
      obtain ⟨m2, e2, h2⟩ := MInv.run ho hid hp ops h1 ha.2
      exact ⟨m2, by simp only [Meta.applyAll, e1, e2, Res.ok_bind], h2⟩

/-- **C26.** A chunk record made by the constructor, after any history of growing, exchanging axes and being stored and loaded, still has the same
    identity, and describes the chunk: end = start + shape, and the offset gives the position of every index of the padded box in the stored
    array. -/
theorem C26_metadata_consistent (dims : Nat) (ct : CType) (path : List Nat) (id : Nat) (start shape : List Nat) (overlap : Nat) (ops : List MOp)
    (h1 : start.length = dims) (h2 : shape.length = dims) (h3 : ∀ d < dims, start.getD d 0 + shape.getD d 0 < 2 ^ 64)
    (ho : overlap < 2 ^ 64) (hid : id < 2 ^ 64) (hp : path.length < 2 ^ 64) (hops : AllMOk dims (start, shape) ops) :
    ∃ m, (mkMeta ct path id start shape overlap).applyAll dims ops = .ok m ∧ m.ctype = ct ∧ m.path = path ∧ m.id = id ∧
      Describes dims m (specRun (start, shape) ops).1 (specRun (start, shape) ops).2 overlap := by
  obtain ⟨m, e, h⟩ := MInv.run ho hid hp ops (mkMeta_inv (dims := dims) overlap ct path id h1 h2 h3) hops
  exact ⟨m, e, by rw [h.eq], by rw [h.eq], by rw [h.eq], h.describes⟩

/-- **C26.** Storing a record and reading it returns the same record and leaves the stream right behind it, whatever follows. -/
theorem C26_metadata_roundtrip (h : Host) (dims : Nat) (ct : CType) (path : List Nat) (id : Nat) (start shape : List Nat) (overlap : Nat)
    (h1 : start.length = dims) (h2 : shape.length = dims) (h3 : ∀ d < dims, start.getD d 0 + shape.getD d 0 < 2 ^ 64)
    (ho : overlap < 2 ^ 64) (hid : id < 2 ^ 64) (hp : path.length < 2 ^ 64) : RoundTrips (metaCodec h dims) (mkMeta ct path id start shape overlap) := by
  intro rest
  have hct : ct.toNat < 2 ^ 64 := by cases ct <;> decide
  have hmem : ∀ {l : List Nat}, (∀ d < dims, l.getD d 0 < 2 ^ 64) → l.length = dims → ∀ x ∈ l, RoundTrips (u64 h) x := by
    intro l hl hll x hx
    obtain ⟨d, hd, rfl⟩ := List.getElem_of_mem hx
    refine (C10_u64 h _ ?_).2.1
    have := hl d (by omega)
    rwa [List.getD_eq_getElem?_getD, List.getElem?_eq_getElem hd, Option.getD_some] at this
  have r4 : RoundTrips (array dims (u64 h)) start := C11_array _ _ _ h1 (hmem (fun d hd => by have := h3 d hd; omega) h1)
  have r5 : RoundTrips (array dims (u64 h)) shape := C11_array _ _ _ h2 (hmem (fun d hd => by have := h3 d hd; omega) h2)
  unfold metaCodec mkMeta
  simp only [List.append_assoc]
  rw [(C10_u64 h _ hct).2.1]
  simp only [Res.ok_bind]
  rw [show ctypeOf ct.toNat = .ok ct by cases ct <;> rfl]
  simp only [Res.ok_bind]
  rw [C11_string h path hp]
  simp only [Res.ok_bind]
  rw [(C10_u64 h _ hid).2.1]
  simp only [Res.ok_bind]
  rw [r4]
  simp only [Res.ok_bind]
  rw [r5]
  simp only [Res.ok_bind]
  rw [(C10_u64 h _ ho).2.1]
  rfl

/-- A padded chunk at the border of the array (start 0: the offset wraps around), grown, swapped and reloaded. -/
example : ∃ m, (mkMeta .specified [65] 3 [0, 5] [4, 2] 1).applyAll 2 [.grow 0 3, .store .little, .swap 0 1] = .ok m ∧ m.ctype = .specified ∧ m.path = [65] ∧ m.id = 3 ∧
    Describes 2 m [5, 0] [2, 7] 1 :=
  C26_metadata_consistent 2 .specified [65] 3 [0, 5] [4, 2] 1 [.grow 0 3, .store .little, .swap 0 1] rfl rfl
    (fun d hd => by rcases d with _ | _ | d <;> first | decide | omega) (by decide) (by decide) (by decide) ⟨⟨by decide, by decide⟩, trivial, ⟨by decide, by decide⟩, trivial⟩

example : RoundTrips (metaCodec .little 2) (mkMeta .all_null [] 7 [0, 5] [4, 2] 1) :=
  C26_metadata_roundtrip .little 2 .all_null [] 7 [0, 5] [4, 2] 1 rfl rfl (fun d hd => by rcases d with _ | _ | d <;> first | decide | omega) (by decide) (by decide) (by decide)

end Verif.Dist
