import Verif.Meep.Padding
import Verif.Meep.Props56
import Verif.Meep.RechunkOne
import Mathlib.Data.List.Nodup
/-
A whole calculation: the choice of the stored region (C55), the stored parts of the simulation chunks of all processes (C54), and the jobs and the merging (C56).
-/
namespace Verif.Meep
open Verif Verif.ND Verif.Dist Verif.Tree Verif.Ops

/-! ### The program -/

/-- What is particular to a process: its directories, the names of new files, its MEEP simulation chunks (in the calculation domain) and the buffers with the field in the stored
    parts. -/
structure Proc where
  work : Nat
  out : Nat
  uuid : Nat → Nat → Nat → List Nat
  raw : List SimChunk
  fld : Nat → Nat → List Nat

/-- Lines 244-291 for all chunks of the process (line 580), for the padded storage domain `p`: chunks that do not overlap with it are skipped. -/
def Proc.job (P : Proc) (p : Padded) : Job := ⟨P.work, P.out, P.uuid, P.raw.filterMap (setupChunk p.start p.shape), P.fld⟩

/-! ### Specification -/

/-- The field of the simulation: at each step and each index in the calculation domain a vector of words. -/
abbrev SimField := Nat → List Nat → List Nat

/-- A calculation. `cal` is the extent of the calculation domain, `[start, start + shape)` is the domain to be stored, `ds` the downsampling factor, `p` the padded storage domain, `F` the field. The
    simulation chunks of all processes are not empty, do not overlap and cover the calculation domain; the buffers hold the field; directories and names are different and there is nothing in these
    directories; all sizes fit. -/
structure CalcOk (C : Cfg) (T L ds N : Nat) (cal start shape : List Nat) (p : Padded) (F : SimField) (out : Nat) (fs : FS) (procs : List Proc) : Prop where
  dims : C.dims = start.length + 1
  stream : C.chunk = 1 :: List.replicate start.length (2 ^ 64 - 1)
  posT : 0 < T
  posL : 0 < L
  dom : DomOk start.length cal start shape ds
  raw : ∀ P ∈ procs, ∀ c ∈ P.raw, c.start.length = start.length ∧ c.shape.length = start.length ∧
    ∀ d < start.length, 0 < c.shape.getD d 0 ∧ c.start.getD d 0 + c.shape.getD d 0 ≤ cal.getD d 0
  apart : (procs.flatMap fun P => P.raw).Pairwise fun c c' => DisjointBox c.start (addVec c.start c.shape) c'.start (addVec c'.start c'.shape)
  cover : ∀ i, ValidInd cal i → ∃ P ∈ procs, ∃ c ∈ P.raw, InBox c.start (addVec c.start c.shape) i
  data : ∀ P ∈ procs, ∀ n < N, ∀ r c, (P.job p).cs[r]? = some c → (P.fld n r).length = volume C.vd (1 :: c.shape) ∧ (∀ w ∈ P.fld n r, w < 2 ^ 32) ∧
    ∀ k, ValidInd c.shape k → read C.vd (mkHdr C.vd (1 :: c.shape)) (P.fld n r) (0 :: k) = .ok (F n (addVec p.start (addVec c.start k)))
  vol : T * L ^ start.length * C.vd < 2 ^ 62 ∧ max T L ^ start.length < 2 ^ 32 ∧ L < 2 ^ 62 ∧ T < 2 ^ 62
  name : ∀ P ∈ procs, ∀ n r b, P.uuid n r b ≠ [] ∧ (P.uuid n r b).length < 2 ^ 64
  inj : ∀ P ∈ procs, ∀ n r b n' r' b', P.uuid n r b = P.uuid n' r' b' → n = n' ∧ r = r' ∧ b = b'
  names : procs.Pairwise fun P P' => ∀ n r b n' r' b', P.uuid n r b ≠ P'.uuid n' r' b'
  dirs : procs.Pairwise fun P P' => P.work ≠ P'.work ∧ P.work ≠ P'.out ∧ P.out ≠ P'.work ∧ P.out ≠ P'.out
  own : ∀ P ∈ procs, P.work ≠ P.out ∧ P.out ≠ out ∧ out ≠ P.work
  clean : ∀ P ∈ procs, ∀ n, fs (P.work, .chunk n) = none ∧ fs (P.out, .chunk n) = none
  index : ∀ d, fs (d, .index) = none
  steps : N < 2 ^ 62
  total : N * prod cal + 1 < 2 ^ 64

/-- Element `i` of the merged array (time last) is the element `u` of the field: `i` stands for step `n` and the index `j` on the grid after downsampling, whose place in the padded storage domain
    is `ds * j`. -/
def Stored (ds N : Nat) (p : Padded) (F : SimField) (i u : List Nat) : Prop :=
  ∃ n j, n < N ∧ ValidInd p.shape (j.map (· * ds)) ∧ i = swapAt (n :: j) 0 p.shape.length ∧ u = F n (addVec p.start (j.map (· * ds)))

/-! ### Counting -/

theorem sum_boxes {n : Nat} {cs : List SimChunk} {cal : List Nat} (hc : cal.length = n)
    (hr : ∀ c ∈ cs, c.start.length = n ∧ c.shape.length = n ∧ ∀ d < n, c.start.getD d 0 + c.shape.getD d 0 ≤ cal.getD d 0)
    (hap : cs.Pairwise fun c c' => DisjointBox c.start (addVec c.start c.shape) c'.start (addVec c'.start c'.shape)) : (cs.map fun c => numElems c.shape).sum ≤ prod cal := by
  have hlen : ∀ c ∈ cs, (elemLoop c.start (addVec c.start c.shape)).length = numElems c.shape := by
    intro c hcs
    obtain ⟨l1, l2, _⟩ := hr c hcs
    rw [boxVolume_eq (by rw [addVec_length (by omega)]), numElems_eq]
    have h1 : List.zipWith (fun x y => y - x) c.start (addVec c.start c.shape) = c.shape := by
      apply ext_getD
      · rw [List.length_zipWith, addVec_length (by omega)]; omega
      · intro d hd
        rw [List.length_zipWith, addVec_length (by omega)] at hd
        rw [getD_zipN (by omega) (by rw [addVec_length (by omega)]; omega), getD_addVec (by omega)]
        omega
    unfold boxVolume
    rw [h1]
    clear h1
    generalize c.shape = s
    induction s with
    | nil => rfl
    | cons x s ih => rw [List.foldr_cons, ih]; rfl
  have hnd : (cs.flatMap fun c => elemLoop c.start (addVec c.start c.shape)).Nodup := by
    rw [List.nodup_flatMap]
    refine ⟨fun c _ => elemLoop_nodup _ _, hap.imp fun {c c'} h => ?_⟩
    intro i h1 h2
    exact h i ⟨mem_elemLoop.1 h1, mem_elemLoop.1 h2⟩
  have hsub : (cs.flatMap fun c => elemLoop c.start (addVec c.start c.shape)) ⊆ elemLoop (cal.map fun _ => 0) cal := by
    intro i hi
    obtain ⟨c, hcs, hi⟩ := List.mem_flatMap.1 hi
    obtain ⟨l1, l2, h3⟩ := hr c hcs
    have h4 := mem_elemLoop.1 hi
    rw [mem_elemLoop, inBox_zero_iff]
    refine ⟨by rw [h4.1]; omega, fun d hd => ?_⟩
    have h5 := h4.2.2 d (by rw [h4.1]; omega)
    rw [getD_addVec (by omega)] at h5
    have := h3 d (by omega)
    omega
  have h1 := (hnd.subperm hsub).length_le
  rw [Stream.length_elemLoop, List.length_flatMap] at h1
  have h2 : (cs.map fun c => (elemLoop c.start (addVec c.start c.shape)).length) = cs.map fun c => numElems c.shape := List.map_congr_left hlen
  rwa [h2] at h1

theorem sum_flat {α : Type} (N : Nat) (f : α → List Nat) : ∀ (l : List α), (l.map fun a => N * (f a).sum).sum = N * (l.flatMap f).sum
  | [] => by simp
  | a :: l => by
      rw [List.map_cons, List.sum_cons, List.flatMap_cons, List.sum_append, sum_flat N f l, Nat.mul_add]

theorem le_sum_mem : ∀ {l : List Nat} {x : Nat}, x ∈ l → x ≤ l.sum
  | y :: l, x, h => by
      rw [List.sum_cons]
      rcases List.mem_cons.1 h with rfl | h
      · omega
      · have := le_sum_mem h; omega

/-! ### Assumptions of C56 -/

section derive
variable {C : Cfg} {T L ds N : Nat} {cal start shape : List Nat} {p : Padded} {F : SimField} {out : Nat} {fs : FS} {procs : List Proc}

theorem onFine_const {j z : List Nat} {ds : Nat} (h : j.length = z.length) : onFine j (z.map fun _ => ds) = j.map (· * ds) := by
  apply ext_getD
  · rw [length_onFine (by simpa using h)]; simp [h]
  · intro d hd
    rw [length_onFine (by simpa using h)] at hd
    simp at hd
    unfold onFine
    rw [getD_zipN (by omega) (by simpa using hd), getD_mapN (f := fun _ => ds) (by omega), getD_mapN (f := (· * ds)) (by omega)]

/-- What is known about the padded domain. -/
theorem CalcOk.padded (h : CalcOk C T L ds N cal start shape p F out fs procs) {pad : Nat} (hp : padDomain cal start shape ds pad = .ok p) :
    p.start.length = start.length ∧ p.shape.length = start.length ∧ ∀ d < start.length, 0 < p.shape.getD d 0 ∧ p.start.getD d 0 + p.shape.getD d 0 ≤ cal.getD d 0 := by
  obtain ⟨r, e, _, _, l1, l2, h3, _⟩ := C55_padding h.dom pad
  rw [hp] at e
  cases e
  refine ⟨l1, l2, fun d hd => ?_⟩
  obtain ⟨_, _, h4, h5, h6⟩ := h3 d hd
  have := h.dom.ne d hd
  exact ⟨by omega, h6⟩

theorem CalcOk.range (h : CalcOk C T L ds N cal start shape p F out fs procs) {pad : Nat} (hp : padDomain cal start shape ds pad = .ok p) : Range start.length p.start p.shape := by
  obtain ⟨l1, l2, h3⟩ := h.padded hp
  refine ⟨l1, l2, fun d hd => ?_⟩
  have := (h3 d hd).2
  have := h.dom.lt d hd
  omega

theorem CalcOk.rawRange (h : CalcOk C T L ds N cal start shape p F out fs procs) {P : Proc} (hP : P ∈ procs) {c : SimChunk} (hc : c ∈ P.raw) : Range start.length c.start c.shape := by
  obtain ⟨l1, l2, h3⟩ := h.raw P hP c hc
  refine ⟨l1, l2, fun d hd => ?_⟩
  have := (h3 d hd).2
  have := h.dom.lt d hd
  omega

/-- The stored parts of all processes. -/
theorem CalcOk.parts (h : CalcOk C T L ds N cal start shape p F out fs procs) {pad : Nat} (hp : padDomain cal start shape ds pad = .ok p) :
    ((procs.flatMap fun P => (P.job p).cs).Pairwise fun c c' => DisjointBox c.start (addVec c.start c.shape) c'.start (addVec c'.start c'.shape)) ∧
    (∀ k, ValidInd p.shape k ↔ ∃ P ∈ procs, ∃ c ∈ (P.job p).cs, InBox c.start (addVec c.start c.shape) k) ∧
    (∀ P ∈ procs, ∀ c ∈ (P.job p).cs, c.start.length = start.length ∧ c.shape.length = start.length ∧
      ∀ d < start.length, 0 < c.shape.getD d 0 ∧ c.start.getD d 0 + c.shape.getD d 0 ≤ p.shape.getD d 0) := by
  have hr := h.range hp
  have hraw : ∀ c ∈ procs.flatMap fun P => P.raw, Range start.length c.start c.shape := by
    intro c hc
    obtain ⟨P, hP, hc⟩ := List.mem_flatMap.1 hc
    exact h.rawRange hP hc
  have hflat : (procs.flatMap fun P => (P.job p).cs) = (procs.flatMap fun P => P.raw).filterMap (setupChunk p.start p.shape) := by
    rw [List.filterMap_flatMap]; rfl
  obtain ⟨s1, s2⟩ := C54_stored_parts hr _ hraw h.apart (by
    intro i hi
    have hi' := (inBox_range hr).1 hi
    obtain ⟨P, hP, c, hc, hci⟩ := h.cover i ⟨by rw [hi'.1, h.dom.len.2.2], fun d hd => by
      rw [h.dom.len.2.2] at hd
      have := hi'.2 d hd
      have := ((h.padded hp).2.2 d hd).2
      omega⟩
    exact ⟨c, List.mem_flatMap.2 ⟨P, hP, hc⟩, hci⟩)
  rw [← hflat] at s1 s2
  refine ⟨s1, fun k => ?_, fun P hP c hc => ?_⟩
  · rw [s2 k]
    constructor
    · rintro ⟨c, hc, hk⟩
      obtain ⟨P, hP, hc⟩ := List.mem_flatMap.1 hc
      exact ⟨P, hP, c, hc, hk⟩
    · rintro ⟨P, hP, c, hc, hk⟩
      exact ⟨c, List.mem_flatMap.2 ⟨P, hP, hc⟩, hk⟩
  · obtain ⟨r, hrm, hset⟩ := List.mem_filterMap.1 hc
    have hrr := h.rawRange hP hrm
    obtain ⟨l1, l2, h3, h4⟩ := setup_some hr hrr hset
    refine ⟨l1, l2, fun d hd => ⟨?_, h3 d hd⟩⟩
    -- not empty
    have ho : overlaps r.start r.shape p.start p.shape = true := by
      unfold setupChunk at hset
      by_contra hne
      rw [if_neg hne] at hset
      cases hset
    obtain ⟨i, i1, i2⟩ := (C54_overlaps hrr hr).2 (fun d hd => by rw [hrr.len'] at hd; exact ((h.raw P hP r hrm).2.2 d hd).1) (fun d hd => by
      rw [hr.len'] at hd; exact ((h.padded hp).2.2 d hd).1) ho
    have j1 := (inBox_range hr).1 i2
    have hback : addVec p.start (subVec i p.start) = i := by
      apply ext_getD
      · rw [addVec_length (by rw [length_subVec (by rw [j1.1, hr.len]), j1.1, hr.len]), hr.len, j1.1]
      · intro e he
        have hl : (subVec i p.start).length = start.length := by rw [length_subVec (by rw [j1.1, hr.len])]; exact j1.1
        rw [addVec_length (by rw [hl, hr.len]), hr.len] at he
        rw [getD_addVec (by rw [hl, hr.len]), getD_subVec (by rw [j1.1, hr.len])]
        have := j1.2 e he
        omega
    have hk := (h4 (subVec i p.start)).2 ⟨⟨by rw [length_subVec (by rw [j1.1, hr.len]), j1.1, hr.len'], fun e he => by
      rw [hr.len'] at he
      rw [getD_subVec (by rw [j1.1, hr.len])]
      have := j1.2 e he
      omega⟩, by rw [hback]; exact i1⟩
    have h5 := hk.2.2 d (by rw [hk.1, l1]; exact hd)
    rw [getD_addVec (by omega)] at h5
    omega

/-- The assumptions of C56 hold. -/
theorem CalcOk.jobs (h : CalcOk C T L ds N cal start shape p F out fs procs) {pad : Nat} (hp : padDomain cal start shape ds pad = .ok p) :
    JobsOk C T L (start.map fun _ => ds) N out fs (procs.map fun P => P.job p) := by
  obtain ⟨p1, p2, p3⟩ := h.parts hp
  have hlen : (start.map fun _ => ds).length = start.length := by simp
  have gd : ∀ d < start.length, (start.map fun _ => ds).getD d 0 = ds := fun d hd => getD_mapN (f := fun _ => ds) hd
  have hpc : prod p.shape ≤ prod cal := by
    have hz : p.shape.length = cal.length := by rw [(h.padded hp).2.1, h.dom.len.2.2]
    exact prod_mono hz fun d hd => by
      have := (h.padded hp).2.2 d (by rw [← (h.padded hp).2.1]; exact hd)
      omega
  have hsum : ((procs.flatMap fun P => (P.job p).cs).map fun c => numElems c.shape).sum ≤ prod cal := by
    refine Nat.le_trans (sum_boxes (n := start.length) (h.padded hp).2.1 ?_ p1) hpc
    intro c hc
    obtain ⟨P, hP, hc⟩ := List.mem_flatMap.1 hc
    obtain ⟨l1, l2, h3⟩ := p3 P hP c hc
    exact ⟨l1, l2, fun d hd => (h3 d hd).2⟩
  have htot : ((procs.map fun P => P.job p).map fun j => N * (j.cs.map fun c => numElems c.shape).sum).sum ≤ N * prod cal := by
    rw [List.map_map]
    have h1 := sum_flat N (fun P : Proc => (P.job p).cs.map fun c => numElems c.shape) procs
    have h2 : ((fun j : Job => N * (j.cs.map fun c => numElems c.shape).sum) ∘ fun P : Proc => P.job p) = fun P : Proc => N * ((P.job p).cs.map fun c => numElems c.shape).sum := rfl
    rw [h2, h1]
    refine Nat.mul_le_mul_left _ ?_
    rw [List.map_flatMap] at hsum
    exact hsum
  have hap := List.pairwise_flatMap.1 p1
  have hmem : ∀ {Q : Job}, Q ∈ (procs.map fun P => P.job p) → ∃ P ∈ procs, P.job p = Q := fun hQ => List.mem_map.1 hQ
  obtain ⟨v1, v2, v3, v4⟩ := h.vol
  refine ⟨?_, ?_, ?_, ?_, ?_, ?_, h.index, by rw [hlen]; exact v2, by have := h.total; omega⟩
  · intro Q hQ
    obtain ⟨P, hP, rfl⟩ := hmem hQ
    have hone : N * ((P.job p).cs.map fun c => numElems c.shape).sum ≤ N * prod cal := by
      refine Nat.le_trans ?_ htot
      have : N * ((P.job p).cs.map fun c => numElems c.shape).sum ∈ ((procs.map fun P => P.job p).map fun j => N * (j.cs.map fun c => numElems c.shape).sum) :=
        List.mem_map.2 ⟨P.job p, hQ, rfl⟩
      exact le_sum_mem this
    refine ⟨by rw [hlen]; exact h.dims, by rw [hlen]; exact h.stream, h.posT, h.posL, fun c hc => ?_, fun c hc d hd => ?_, hap.1 P hP, fun n hn r c hr => ?_, ?_, h.name P hP, h.inj P hP, h.steps, ?_⟩
    · obtain ⟨l1, l2, h3⟩ := p3 P hP c hc
      refine ⟨by rw [hlen]; exact l2, ⟨by omega, by omega⟩, fun d hd => ?_, fun d hd => ?_, fun d hd => ?_⟩
      · rw [gd d (by omega)]; exact h.dom.pos
      · rw [gd d (by omega)]
        have := h3 d (by omega)
        have := (h.padded hp).2.2 d (by omega)
        have := h.dom.lt d (by omega)
        omega
      · have := h3 d (by omega)
        omega
    · rw [hlen] at hd
      obtain ⟨l1, l2, h3⟩ := p3 P hP c hc
      have := h3 d hd
      have := (h.padded hp).2.2 d hd
      have := h.dom.lt d hd
      omega
    · obtain ⟨d1, d2, _⟩ := h.data P hP n hn r c hr
      exact ⟨d1, d2⟩
    · rw [hlen]
      refine ⟨v1, ?_, v3, v4⟩
      exact Nat.lt_of_le_of_lt (Nat.pow_le_pow_left (Nat.le_max_right T L) _) v2
    · have := h.total; omega
  · rw [List.pairwise_map]; exact hap.2
  · rw [List.pairwise_map]; exact h.names
  · rw [List.pairwise_map]; exact h.dirs
  · intro Q hQ
    obtain ⟨P, hP, rfl⟩ := hmem hQ
    exact h.own P hP
  · intro Q hQ
    obtain ⟨P, hP, rfl⟩ := hmem hQ
    exact h.clean P hP

/-- The elements of all jobs are those of the field. -/
theorem CalcOk.fields (h : CalcOk C T L ds N cal start shape p F out fs procs) {pad : Nat} (hp : padDomain cal start shape ds pad = .ok p) (i u : List Nat) :
    (∃ j ∈ procs.map fun P => P.job p, FieldAt C (start.map fun _ => ds) N j i u) ↔ Stored ds N p F i u := by
  obtain ⟨p1, p2, p3⟩ := h.parts hp
  have hlen : (start.map fun _ => ds).length = start.length := by simp
  have lp : p.shape.length = start.length := (h.padded hp).2.1
  -- the value
  have hval : ∀ P ∈ procs, ∀ n < N, ∀ r c, (P.job p).cs[r]? = some c → ∀ f, InBox c.start (addVec c.start c.shape) f →
      read C.vd (mkHdr C.vd (1 :: c.shape)) (P.fld n r) (0 :: subVec f c.start) = .ok (F n (addVec p.start f)) := by
    intro P hP n hn r c hr f hf
    obtain ⟨l1, l2, h3⟩ := p3 P hP c (List.mem_of_getElem? hr)
    have hfl : f.length = start.length := by rw [hf.1]; exact l1
    have hls : (subVec f c.start).length = start.length := by rw [length_subVec (by omega)]; exact hfl
    have hd : ∀ d < start.length, c.start.getD d 0 ≤ f.getD d 0 ∧ f.getD d 0 < c.start.getD d 0 + c.shape.getD d 0 := fun d hd => by
      have := hf.2.2 d (by omega)
      rw [getD_addVec (by omega)] at this
      exact this
    have h4 := (h.data P hP n hn r c hr).2.2 (subVec f c.start) ⟨by omega, fun d hdd => by
      rw [getD_subVec (by omega)]
      have := hd d (by omega)
      omega⟩
    rw [h4]
    have : addVec c.start (subVec f c.start) = f := by
      apply ext_getD
      · rw [addVec_length (by omega)]; omega
      · intro d hdd
        rw [addVec_length (by omega)] at hdd
        rw [getD_addVec (by omega), getD_subVec (by omega)]
        have := hd d (by omega)
        omega
    rw [this]
  constructor
  · rintro ⟨Q, hQ, n, r, c, j, hn, hr, hl, hj, rfl, hu⟩
    obtain ⟨P, hP, rfl⟩ := List.mem_map.1 hQ
    rw [hlen] at hl
    rw [onFine_const hl] at hj hu
    have h1 : read C.vd (mkHdr C.vd (1 :: c.shape)) (P.fld n r) (0 :: subVec (j.map (· * ds)) c.start) = .ok u := hu
    rw [hval P hP n hn r c hr _ hj] at h1
    cases h1
    exact ⟨n, j, hn, (p2 _).2 ⟨P, hP, c, List.mem_of_getElem? hr, hj⟩, by rw [hlen, lp], rfl⟩
  · rintro ⟨n, j, hn, hv, rfl, rfl⟩
    have hl : j.length = start.length := by have := hv.1; simp at this; omega
    obtain ⟨P, hP, c, hc, hj⟩ := (p2 _).1 hv
    obtain ⟨r, hr⟩ := List.getElem?_of_mem hc
    refine ⟨P.job p, List.mem_map.2 ⟨P, hP, rfl⟩, n, r, c, j, hn, hr, by omega, by rw [onFine_const hl]; exact hj, by rw [hlen, lp], ?_⟩
    rw [onFine_const hl]
    exact hval P hP n hn r c hr _ hj

end derive

end Verif.Meep
