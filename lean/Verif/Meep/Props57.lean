import Verif.Meep.Whole
/-
C57 (a whole parallel calculation, from the MEEP chunks to the merged array).
-/
namespace Verif.Meep
open Verif Verif.ND Verif.Dist Verif.Tree Verif.Ops

variable {C : Cfg} {S : Sorter} {Z : SlabSize}

/-! ### The box of the merged array -/

/-- Extent of the merged array: the downsampled extents of the padded storage domain, and the number of steps; time comes last. -/
def mergedShape (ds N : Nat) (p : Padded) : List Nat := swapAt (N :: p.shape.map fun x => (x + ds - 1) / ds) 0 p.shape.length

theorem hull_of_cover {ps : List Piece} {n : Nat} {ge : List Nat} (hl : ge.length = n) (hpos : ∀ d < n, 0 < ge.getD d 0)
    (hbox : ∀ p ∈ ps, p.start.length = n ∧ p.stop.length = n ∧ ∀ d < n, p.start.getD d 0 < p.stop.getD d 0)
    (hcov : ∀ i, InBox (List.replicate n 0) ge i ↔ Covered ps i) : IsHull n ps (List.replicate n 0) ge ∧ Filled ps (List.replicate n 0) ge := by
  have hencl : ∀ p ∈ ps, ∀ d < n, p.stop.getD d 0 ≤ ge.getD d 0 := by
    intro p hp d hd
    obtain ⟨l1, l2, h3⟩ := hbox p hp
    have hin : InBox p.start p.stop (p.stop.map (· - 1)) := ⟨by simp; omega, by simp, fun e he => by
      simp at he
      have := h3 e (by omega)
      rw [getD_mapN (f := (· - 1)) he]
      omega⟩
    have h4 := ((hcov _).2 ⟨p, hp, hin⟩).2.2 d (by simp; omega)
    rw [getD_mapN (f := (· - 1)) (by omega)] at h4
    have := h3 d hd
    omega
  refine ⟨⟨by simp, hl, fun d hd p hp => ?_, fun d hd => ?_, fun d hd => ?_⟩, fun i hi => (hcov i).1 hi⟩
  · rw [zeros_getD]
    exact ⟨Nat.zero_le _, hencl p hp d hd⟩
  · obtain ⟨p, hp, hi⟩ := (hcov (List.replicate n 0)).1 ⟨rfl, by simp; omega, fun d hd => by
      rw [List.length_replicate] at hd
      have := hpos d hd
      rw [zeros_getD]; omega⟩
    refine ⟨p, hp, ?_⟩
    have := hi.2.2 d (by simpa using hd)
    rw [zeros_getD] at this ⊢
    omega
  · obtain ⟨p, hp, hi⟩ := (hcov (ge.map (· - 1))).1 ⟨by simp; omega, by simp, fun d hd => by
      rw [List.length_map] at hd
      have := hpos d (by omega)
      rw [zeros_getD, getD_mapN (f := (· - 1)) hd]
      omega⟩
    refine ⟨p, hp, ?_⟩
    have h5 := hi.2.2 d (by simp; omega)
    have h6 := hencl p hp d hd
    have := hpos d hd
    rw [getD_mapN (f := (· - 1)) (by omega)] at h5
    omega

section calculation
variable {T L ds N : Nat} {cal start shape : List Nat} {p : Padded} {F : SimField} {out : Nat} {fs : FS} {procs : List Proc}

theorem lt_ceil {x ds j : Nat} (h : 0 < ds) : j < (x + ds - 1) / ds ↔ j * ds < x := by
  rw [Nat.lt_iff_add_one_le, Nat.le_div_iff_mul_le h, Nat.add_mul]
  omega

theorem inBox_zeros {n : Nat} {e i : List Nat} (he : e.length = n) : InBox (List.replicate n 0) e i ↔ i.length = n ∧ ∀ d < n, i.getD d 0 < e.getD d 0 := by
  constructor
  · rintro ⟨h1, h2, h3⟩
    refine ⟨by simpa using h1, fun d hd => (h3 d (by omega)).2⟩
  · rintro ⟨h1, h2⟩
    refine ⟨by simpa using h1, by omega, fun d hd => ⟨?_, h2 d (by omega)⟩⟩
    rw [zeros_getD]; omega

theorem length_mergedShape (ds N : Nat) (p : Padded) : (mergedShape ds N p).length = p.shape.length + 1 := by simp [mergedShape, length_swapAt]

/-- The indices of the stored elements are those of the box. -/
theorem stored_box (hd : 0 < ds) (i : List Nat) : InBox (List.replicate (p.shape.length + 1) 0) (mergedShape ds N p) i ↔ ∃ u, Stored ds N p F i u := by
  rw [inBox_zeros (length_mergedShape ds N p)]
  have hsw : ∀ d < p.shape.length + 1, (mergedShape ds N p).getD d 0 = (N :: p.shape.map fun x => (x + ds - 1) / ds).getD (if d = 0 then p.shape.length else if d = p.shape.length then 0 else d) 0 :=
    fun d _ => getD_swapAt (by simp) (by simp) d
  constructor
  · rintro ⟨h1, h2⟩
    generalize hi' : swapAt i 0 p.shape.length = i'
    have hl' : i'.length = p.shape.length + 1 := by rw [← hi', length_swapAt]; exact h1
    have hb : ∀ d < p.shape.length + 1, i'.getD d 0 < (N :: p.shape.map fun x => (x + ds - 1) / ds).getD d 0 := by
      intro d hdd
      rw [← hi', getD_swapAt (by omega) (by omega)]
      have h3 := h2 (if d = 0 then p.shape.length else if d = p.shape.length then 0 else d) (by split <;> [omega; split <;> omega])
      rw [hsw _ (by split <;> [omega; split <;> omega])] at h3
      have : (if (if d = 0 then p.shape.length else if d = p.shape.length then 0 else d) = 0 then p.shape.length
          else if (if d = 0 then p.shape.length else if d = p.shape.length then 0 else d) = p.shape.length then 0 else (if d = 0 then p.shape.length else if d = p.shape.length then 0 else d)) = d := by
        split <;> split <;> (try split) <;> (try split) <;> omega
      rwa [this] at h3
    match i', hl', hi', hb with
    | n :: j, hl', hi', hb =>
      have hj : j.length = p.shape.length := by simpa using hl'
      refine ⟨F n (addVec p.start (j.map (· * ds))), n, j, ?_, ⟨by simpa using hj, fun d hdd => ?_⟩, ?_, rfl⟩
      · simpa using hb 0 (by omega)
      · have h3 := hb (d + 1) (by omega)
        simp only [List.getD_cons_succ] at h3
        rw [getD_mapN (f := fun x => (x + ds - 1) / ds) hdd, lt_ceil hd] at h3
        rw [getD_mapN (f := (· * ds)) (by omega)]
        exact h3
      · rw [← hi', swapAt_swapAt (by omega) (by omega)]
  · rintro ⟨u, n, j, hn, hv, rfl, _⟩
    have hj : j.length = p.shape.length := by have := hv.1; simpa using this
    refine ⟨by rw [length_swapAt]; simp [hj], fun d hdd => ?_⟩
    rw [hsw d hdd, getD_swapAt (by simp) (by simp [hj])]
    generalize hk : (if d = 0 then p.shape.length else if d = p.shape.length then 0 else d) = k
    have hkl : k < p.shape.length + 1 := by rw [← hk]; split <;> [omega; split <;> omega]
    cases k with
    | zero => simpa using hn
    | succ k =>
      simp only [List.getD_cons_succ]
      have h3 := hv.2 k (by omega)
      rw [getD_mapN (f := (· * ds)) (by omega)] at h3
      rw [getD_mapN (f := fun x => (x + ds - 1) / ds) (by omega), lt_ceil hd]
      exact h3

/-- The number of elements of the merged array. -/
theorem merged_volume (h : CalcOk C T L ds N cal start shape p F out fs procs) {pad : Nat} (hp : padDomain cal start shape ds pad = .ok p) :
    prod (mergedShape ds N p) ≤ N * prod cal := by
  have hds := h.dom.pos
  have hz : (p.shape.map fun x => (x + ds - 1) / ds).length = cal.length := by simp [(h.padded hp).2.1, h.dom.len.2.2]
  have h1 : prod (p.shape.map fun x => (x + ds - 1) / ds) ≤ prod cal := prod_mono hz fun d hd => by
    have hd' : d < p.shape.length := by simpa using hd
    rw [getD_mapN (f := fun x => (x + ds - 1) / ds) hd']
    have h2 := (h.padded hp).2.2 d (by rw [← (h.padded hp).2.1]; exact hd')
    have h3 : (p.shape.getD d 0 + ds - 1) / ds ≤ p.shape.getD d 0 := ceil_small hds
    omega
  have h2 : prod (mergedShape ds N p) = prod (N :: p.shape.map fun x => (x + ds - 1) / ds) := by
    unfold mergedShape
    cases hk : p.shape.length with
    | zero =>
      have : p.shape = [] := List.eq_nil_of_length_eq_zero hk
      rw [this]; rfl
    | succ k => rw [swapAt_cons, prod, prod_set (by simp; omega)]; rfl
  rw [h2, prod]
  exact Nat.mul_le_mul_left _ h1

/-- After all processes have finished and the results are merged. -/
theorem merged_calc (hC : C.Ok) (h : CalcOk C T L ds N cal start shape p F out fs procs) {pad : Nat} (hp : padDomain cal start shape ds pad = .ok p) (init : List Nat) (proc chunk : Arr) :
    ∃ st1 st2 w ps, runLoop (job C S T L (start.map fun _ => ds) N init proc chunk) (procs.map fun P => P.job p) ⟨none, fs⟩ = .ok st1 ∧
      mergeJobs C S init out (procs.map fun P => P.out) st1 = .ok st2 ∧ WInv C S Z st2 w ∧ w.cur = none ∧ w.disk out = some ps ∧ Stores ps (Stored ds N p F) ∧
      ps.length < 2 ^ 64 ∧ (∀ q ∈ ps, q.Plain) ∧
      (0 < N → IsHull C.dims ps (List.replicate C.dims 0) (mergedShape ds N p) ∧ Filled ps (List.replicate C.dims 0) (mergedShape ds N p)) := by
  obtain ⟨st1, st2, w, l, a1, a2, a3, a4, a5, a6, a7, a8⟩ := merged_ok (S := S) (Z := Z) hC init proc chunk (h.jobs hp)
  have hst : Stores l.pieces (Stored ds N p F) := by
    refine ⟨fun i u hu => a6.stores.has i u ((h.fields hp i u).2 hu), fun q hq i hi => ?_⟩
    obtain ⟨u, hu⟩ := a6.stores.only q hq i hi
    exact ⟨u, (h.fields hp i u).1 hu⟩
  have hdims : C.dims = p.shape.length + 1 := by rw [h.dims, (h.padded hp).2.1]
  refine ⟨st1, st2, w, l.pieces, a1, ?_, a3, a4, a5, hst, a7, a8, fun hN => ?_⟩
  · rw [List.map_map] at a2
    exact a2
  · obtain ⟨cs, c1, c2, _⟩ := a3.disk _ _ a5
    have hds := h.dom.pos
    refine hull_of_cover (by rw [length_mergedShape, hdims]) (fun d hd => ?_) (fun q hq => ?_) fun i => ?_
    · unfold mergedShape
      rw [getD_swapAt (by simp) (by simp)]
      generalize hk : (if d = 0 then p.shape.length else if d = p.shape.length then 0 else d) = k
      have hkl : k < p.shape.length + 1 := by rw [← hk]; split <;> [omega; split <;> omega]
      cases k with
      | zero => simpa using hN
      | succ k =>
        simp only [List.getD_cons_succ]
        rw [getD_mapN (f := fun x => (x + ds - 1) / ds) (by omega), lt_ceil hds]
        have := (h.padded hp).2.2 k (by rw [← (h.padded hp).2.1]; omega)
        omega
    · obtain ⟨c, hc, r⟩ := c2.rightMem hq
      have hpl := c1.chunky.placed c hc
      refine ⟨by rw [← r.start]; exact hpl.startLen, by rw [← r.stop]; exact hpl.stopLen, fun d hd => ?_⟩
      rw [← r.start, ← r.stop, hpl.stop, getD_addVec (by rw [hpl.startLen, hpl.shapeLen])]
      have := hpl.pos d hd
      omega
    · rw [hdims, stored_box (F := F) hds]
      constructor
      · rintro ⟨u, hu⟩
        obtain ⟨q, hq, hin, _⟩ := hst.has i u hu
        exact ⟨q, hq, hin⟩
      · rintro ⟨q, hq, hin⟩
        exact hst.only q hq i hin

end calculation

/-- **C57.** A parallel calculation stores the field in the requested domain, whatever the division of the calculation domain into simulation chunks and processes. Let the simulation chunks of
    all processes divide the calculation domain, let `p` be the padded storage domain and let the buffers hold the field `F`. Then all jobs and the merging succeed, and in the merged array,
    opened again:
    * the element at radial and axial index `j` and time `n` (the first and last axis are exchanged) is the field at step `n` at the index `p.start + ds * j` of the calculation domain, for every
      `n < N` and every `j` for which `ds * j` is in the padded domain;
    * every iteration calls exactly for these elements, once for each, with the right values;
    * the shape is the number of steps and the extents of the padded domain divided by `ds`, rounded up. -/
theorem C57_calculation (C : Cfg) (hC : C.Ok) (S : Sorter) (Z : SlabSize) (fs : FS) (T L ds N pad out : Nat) (cal start shape : List Nat) (p : Padded) (F : SimField) (procs : List Proc)
    (init : List Nat) (proc chunk : Arr) (hp : padDomain cal start shape ds pad = .ok p) (h : CalcOk C T L ds N cal start shape p F out fs procs) :
    ∃ st1 st2 st3, runLoop (job C S T L (start.map fun _ => ds) N init proc chunk) (procs.map fun P => P.job p) ⟨none, fs⟩ = .ok st1 ∧
      mergeJobs C S init out (procs.map fun P => P.out) st1 = .ok st2 ∧ MState.step C S st2 (.open out init) = .ok (st3, .unit) ∧
      (∀ n j, n < N → ValidInd p.shape (j.map (· * ds)) →
        ∃ st v, st3.step C S (.get (swapAt (n :: j) 0 start.length)) = .ok (st, .vec v) ∧ VEq (F n (addVec p.start (j.map (· * ds)))) v) ∧
      (∀ lo hi, RegOkay C lo hi → ∃ st calls, st3.step C S (.loop lo hi) = .ok (st, .calls calls) ∧ (calls.map Prod.fst).Nodup ∧
        (∀ i, i ∈ calls.map Prod.fst ↔ InBox lo hi i ∧ ∃ n j, n < N ∧ ValidInd p.shape (j.map (· * ds)) ∧ i = swapAt (n :: j) 0 start.length) ∧
        ∀ c ∈ calls, ∀ n j, n < N → ValidInd p.shape (j.map (· * ds)) → c.1 = swapAt (n :: j) 0 start.length → VEq (F n (addVec p.start (j.map (· * ds)))) c.2) ∧
      (0 < N → ∃ st s, st3.step C S (.query .shape) = .ok (st, .ind (swapAt (N :: s) 0 start.length)) ∧ s.length = start.length ∧ ∀ d < start.length, IsCeil (p.shape.getD d 0) ds (s.getD d 0)) := by
  obtain ⟨st1, st2, w, ps, a1, a2, a3, a4, a5, a6, a7, a8, a9⟩ := merged_calc (S := S) (Z := Z) hC h hp init proc chunk
  have hlp : p.shape.length = start.length := (h.padded hp).2.1
  obtain ⟨st3, r, g1, g2, g3⟩ := stepW_ok (S := S) (Z := Z) hC a3 (.open out init) ⟨a4, by rw [a5]; exact a7⟩
  have hr : r = .unit := g2
  subst hr
  have hc4 : (w.next C (.open out init)).cur = some ⟨out, 0, ps⟩ := by
    show some (⟨out, 0, (w.disk out).getD []⟩ : LibSpec) = _
    rw [a5]; rfl
  refine ⟨st1, st2, st3, a1, a2, g1, ?_, ?_, ?_⟩
  · intro n j hn hv
    have hs : Stored ds N p F (swapAt (n :: j) 0 start.length) (F n (addVec p.start (j.map (· * ds)))) := ⟨n, j, hn, hv, by rw [hlp], rfl⟩
    obtain ⟨q, hq, hin, hval⟩ := a6.has _ _ hs
    obtain ⟨st, o, k1, k2, _⟩ := stepW_ok hC g3 (.get (swapAt (n :: j) 0 start.length)) ⟨_, q, hc4, hq, hin, a8 q hq⟩
    cases o with
    | vec v =>
      have := k2 _ hc4 q hq hin
      rw [hval] at this
      exact ⟨st, v, k1, this⟩
    | unit => exact k2.elim
    | buf b => exact k2.elim
    | ind b => exact k2.elim
    | num b => exact k2.elim
    | calls b => exact k2.elim
  · intro lo hi hreg
    obtain ⟨st, o, k1, k2, _⟩ := stepW_ok hC g3 (.loop lo hi) ⟨_, hc4, hreg, a8⟩
    cases o with
    | calls calls =>
      obtain ⟨b1, b2, b3⟩ := k2 _ hc4
      refine ⟨st, calls, k1, b1, fun i => ?_, ?_⟩
      · rw [b2]
        constructor
        · rintro ⟨h1, q, hq, hin⟩
          obtain ⟨u, n, j, hn, hv, e, _⟩ := a6.only q hq i hin
          exact ⟨h1, n, j, hn, hv, by rw [← hlp]; exact e⟩
        · rintro ⟨h1, n, j, hn, hv, rfl⟩
          obtain ⟨q, hq, hin, _⟩ := a6.has _ _ (⟨n, j, hn, hv, by rw [hlp], rfl⟩ : Stored ds N p F (swapAt (n :: j) 0 start.length) (F n (addVec p.start (j.map (· * ds)))))
          exact ⟨h1, q, hq, hin⟩
      · intro c hc n j hn hv e
        obtain ⟨q, hq, hin, hval⟩ := a6.has c.1 _ (⟨n, j, hn, hv, by rw [hlp]; exact e, rfl⟩ : Stored ds N p F c.1 (F n (addVec p.start (j.map (· * ds)))))
        have := b3 c hc q hq hin
        rwa [hval] at this
    | vec v => exact k2.elim
    | unit => exact k2.elim
    | buf b => exact k2.elim
    | ind b => exact k2.elim
    | num b => exact k2.elim
  · intro hN
    obtain ⟨hh, hf⟩ := a9 hN
    have hdims : C.dims = p.shape.length + 1 := by rw [h.dims, hlp]
    have hne : ps ≠ [] := by
      obtain ⟨q, hq, _⟩ := hh.loAtt 0 (by omega)
      intro e; rw [e] at hq; cases hq
    have huni : ∀ lo hi, IsHull C.dims ps lo hi → lo = List.replicate C.dims 0 ∧ hi = mergedShape ds N p := by
      intro lo hi h1
      have hlen := h1.loLen
      have hlen' := h1.hiLen
      refine ⟨ext_getD (by simpa using hlen) fun d hd => ?_, ext_getD (by rw [length_mergedShape]; omega) fun d hd => ?_⟩
      · obtain ⟨q, hq, e⟩ := hh.loAtt d (by omega)
        have := (h1.encl d (by omega) q hq).1
        rw [zeros_getD] at e ⊢
        omega
      · obtain ⟨q, hq, e⟩ := hh.hiAtt d (by omega)
        obtain ⟨q', hq', e'⟩ := h1.hiAtt d (by omega)
        have := (h1.encl d (by omega) q hq).2
        have := (hh.encl d (by omega) q' hq').2
        omega
    have hsub : subVec (mergedShape ds N p) (List.replicate C.dims 0) = mergedShape ds N p := by
      apply ext_getD
      · rw [length_subVec (by rw [length_mergedShape, hdims]; simp)]
      · intro d _
        rw [getD_subVec (by rw [length_mergedShape, hdims]; simp), zeros_getD]; omega
    obtain ⟨st, o, k1, k2, _⟩ := stepW_ok hC g3 (.query .shape) ⟨_, hc4, fun lo hi h1 => by
      obtain ⟨rfl, rfl⟩ := huni lo hi h1
      have h2 := merged_volume h hp
      have h3 := h.total
      have h4 : boxVolume (List.replicate C.dims 0) (mergedShape ds N p) = prod (mergedShape ds N p) := by
        rw [← boxVolume_eq (by rw [length_mergedShape, hdims]; simp)]
        have e : (mergedShape ds N p).map (fun _ => 0) = List.replicate C.dims 0 := by rw [List.map_const', length_mergedShape, hdims]
        rw [← e, Stream.length_elemLoop]
      omega⟩
    cases o with
    | ind v =>
      obtain ⟨_, k3⟩ := k2 _ hc4
      obtain ⟨lo, hi, k4, k5, _⟩ := k3 hne
      obtain ⟨rfl, rfl⟩ := huni lo hi k4
      have hv := k5 hf
      refine ⟨st, p.shape.map fun x => (x + ds - 1) / ds, ?_, by simpa using hlp, fun d hd => ?_⟩
      · rw [k1, hv, hsub]
        unfold mergedShape
        rw [hlp]
      · rw [getD_mapN (f := fun x => (x + ds - 1) / ds) (by omega)]
        exact ceil_isCeil h.dom.pos
    | calls v => exact (k2 _ hc4).elim
    | vec v => exact (k2 _ hc4).elim
    | unit => exact (k2 _ hc4).elim
    | buf b => exact (k2 _ hc4).elim
    | num b => exact (k2 _ hc4).elim

/-! ### The hypotheses are met -/

namespace Ex57

/-- The field: the step and the place can be read off. -/
def F : SimField := fun n i => [n, 10 * i.getD 0 0 + i.getD 1 0]

/-- A calculation domain of 6 x 7 elements; 3 x 4 of them from (1, 2) on are asked for; downsampling by 2, one element of padding, for which there is room only at the end. -/
def pd : Padded := ⟨[0, 1], [1, 0], [1, 0], [5, 6]⟩

theorem padded : padDomain [6, 7] [1, 2] [3, 4] 2 1 = .ok pd := by
  have h : (match padDomain [6, 7] [1, 2] [3, 4] 2 1 with
    | .ok r => decide (r.pre = [0, 1] ∧ r.post = [1, 0] ∧ r.start = [1, 0] ∧ r.shape = [5, 6])
    | _ => false) = true := by decide +kernel
  revert h
  cases padDomain [6, 7] [1, 2] [3, 4] 2 1 with
  | ok r =>
    obtain ⟨a, b, c, d⟩ := r
    intro h
    have h := of_decide_eq_true h
    simp only at h
    obtain ⟨rfl, rfl, rfl, rfl⟩ := h
    rfl
  | _ => intro h; cases h

/-- The buffer for a stored part. -/
def buffer (n : Nat) (c : SimChunk) : List Nat := (elemLoop (c.shape.map fun _ => 0) c.shape).flatMap fun k => F n (addVec pd.start (addVec c.start k))

/-- Two processes; the second one has two simulation chunks. -/
def parts1 : List SimChunk := [⟨[0, 0], [5, 3]⟩]
def parts2 : List SimChunk := [⟨[0, 3], [1, 3]⟩, ⟨[1, 3], [4, 3]⟩]
def procs : List Proc := [⟨1, 2, fun n r b => [0, n, r, b], [⟨[0, 0], [6, 3]⟩], fun n r => buffer n (parts1.getD r ⟨[], []⟩)⟩,
  ⟨3, 4, fun n r b => [1, n, r, b], [⟨[0, 3], [2, 4]⟩, ⟨[2, 3], [4, 4]⟩], fun n r => buffer n (parts2.getD r ⟨[], []⟩)⟩]

theorem parts_eq : ∀ P ∈ procs, ((P.job pd).cs = parts1 ∧ ∀ n r, P.fld n r = buffer n (parts1.getD r ⟨[], []⟩)) ∨ ((P.job pd).cs = parts2 ∧ ∀ n r, P.fld n r = buffer n (parts2.getD r ⟨[], []⟩)) := by
  intro P hP
  rcases (by simpa [procs] using hP : P = _ ∨ P = _) with rfl | rfl
  · refine Or.inl ⟨?_, fun _ _ => rfl⟩
    have h : ((Proc.job (procs.getD 0 ⟨0, 0, fun _ _ _ => [], [], fun _ _ => []⟩) pd).cs.map fun c => (c.start, c.shape)) = parts1.map fun c => (c.start, c.shape) := by decide +kernel
    exact List.map_injective_iff.2 (fun a b e => by cases a; cases b; simp at e; simp [e]) h
  · refine Or.inr ⟨?_, fun _ _ => rfl⟩
    have h : ((Proc.job (procs.getD 1 ⟨0, 0, fun _ _ _ => [], [], fun _ _ => []⟩) pd).cs.map fun c => (c.start, c.shape)) = parts2.map fun c => (c.start, c.shape) := by decide +kernel
    exact List.map_injective_iff.2 (fun a b e => by cases a; cases b; simp at e; simp [e]) h

theorem data_ok : ∀ n < 2, ∀ c ∈ parts1 ++ parts2, (buffer n c).length = volume 2 (1 :: c.shape) ∧ (∀ w ∈ buffer n c, w < 2 ^ 32) ∧
    ∀ k, ValidInd c.shape k → read 2 (mkHdr 2 (1 :: c.shape)) (buffer n c) (0 :: k) = .ok (F n (addVec pd.start (addVec c.start k))) := by
  have h : ∀ n < 2, ∀ c ∈ parts1 ++ parts2, (buffer n c).length = volume 2 (1 :: c.shape) ∧ (∀ w ∈ buffer n c, w < 2 ^ 32) ∧
      ∀ k ∈ elemLoop (c.shape.map fun _ => 0) c.shape, (match read 2 (mkHdr 2 (1 :: c.shape)) (buffer n c) (0 :: k) with
        | .ok v => decide (v = F n (addVec pd.start (addVec c.start k)))
        | _ => false) = true := by decide +kernel
  intro n hn c hc
  obtain ⟨h1, h2, h3⟩ := h n hn c hc
  refine ⟨h1, h2, fun k hk => ?_⟩
  have h4 := h3 k (mem_elemLoop.2 (inBox_zero_iff.2 hk))
  revert h4
  cases read 2 (mkHdr 2 (1 :: c.shape)) (buffer n c) (0 :: k) with
  | ok v => intro h4; rw [of_decide_eq_true h4]
  | _ => intro h4; cases h4

theorem ok : CalcOk Ex45.cfg 2 2 2 2 [6, 7] [1, 2] [3, 4] pd F 0 (fun _ => none) procs := by
  refine ⟨rfl, rfl, by decide, by decide, ⟨⟨rfl, rfl, rfl⟩, by decide, by decide, by decide, by decide⟩, by decide, ?_, ?_, ?_, by decide, ?_, ?_, ?_, by decide, by decide, fun _ _ _ => ⟨rfl, rfl⟩,
    fun _ => rfl, by decide, by decide⟩
  · have h : (procs.flatMap fun P => P.raw).Pairwise fun c c' => ∀ i ∈ elemLoop c.start (addVec c.start c.shape), i ∉ elemLoop c'.start (addVec c'.start c'.shape) := by decide +kernel
    exact h.imp fun {c c'} h1 i hi => h1 i (mem_elemLoop.2 hi.1) (mem_elemLoop.2 hi.2)
  · have h : ∀ i ∈ elemLoop [0, 0] [6, 7], ∃ P ∈ procs, ∃ c ∈ P.raw, i ∈ elemLoop c.start (addVec c.start c.shape) := by decide +kernel
    intro i hi
    obtain ⟨P, hP, c, hc, h1⟩ := h i (mem_elemLoop.2 (inBox_zero_iff (s := [6, 7]).2 hi))
    exact ⟨P, hP, c, hc, mem_elemLoop.1 h1⟩
  · intro P hP n hn r c hr
    rcases parts_eq P hP with ⟨h1, h2⟩ | ⟨h1, h2⟩
    · rw [h1] at hr
      have e : parts1.getD r ⟨[], []⟩ = c := by rw [List.getD_eq_getElem?_getD, hr]; rfl
      rw [h2, e]
      exact data_ok n hn c (List.mem_append_left _ (List.mem_of_getElem? hr))
    · rw [h1] at hr
      have e : parts2.getD r ⟨[], []⟩ = c := by rw [List.getD_eq_getElem?_getD, hr]; rfl
      rw [h2, e]
      exact data_ok n hn c (List.mem_append_right _ (List.mem_of_getElem? hr))
  · intro P hP n r b
    rcases (by simpa [procs] using hP : P = _ ∨ P = _) with rfl | rfl <;> exact ⟨by simp, by simp⟩
  · intro P hP n r b n' r' b' he
    rcases (by simpa [procs] using hP : P = _ ∨ P = _) with rfl | rfl <;> simpa using he
  · refine List.Pairwise.cons ?_ (List.pairwise_singleton _ _)
    intro P hP n r b n' r' b' he
    simp at hP
    subst hP
    simp at he

end Ex57

end Verif.Meep
