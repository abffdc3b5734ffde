import Verif.Green.ResampleProof
import Verif.Green.Bridge
import Verif.Green.Props38
/-
C42: `fill_array` resamples the Green's function.

The property does not hold as stated: the search for the chunks excludes the (truncated) end index, so that the samples in chunks that begin there are left out
(`C42_left_out`).  What holds is `C42_resample_partial`.
-/
namespace Verif.Green
open Verif Verif.ND Verif.Dist Verif.Tree Verif.NullSup

set_option linter.unusedSectionVars false

variable {K : Type} [Field K] [LinearOrder K] [IsStrictOrderedRing K] [FloorRing K]

/-- The chunk library as `fill_array` uses it (see `libOf`): `search` is `m_index.GetChunks`. -/
def rangeLibOf (C : Cfg) (val : Nat → K) : RangeLibrary (Lib × FS) K where
  toLibrary := libOf C val
  search s lo hi := s.1.idx.getChunks lo hi

/-! ### Specification -/

/-- Coordinate number `i` of `num` equidistant coordinates from `a` to `b`, both included. -/
def coordAt (a b : K) (num i : Nat) : K := a + i * ((b - a) / ((num : K) - 1))

/-- The call makes sense: the requested box has positive extents, lies in the domain of the Green's function and is sampled at least twice along every axis; sampling intervals are positive
    and no number overflows. -/
structure CallOk (G : GMeta K) (gend start stop : RZT K) (num : RZT Nat) : Prop where
  intervals : 0 < G.dr ∧ 0 < G.dz ∧ 0 < G.dt
  lo : G.r0 ≤ start.r ∧ G.z0 ≤ start.z ∧ G.t0 ≤ start.t
  lt : start.r < stop.r ∧ start.z < stop.z ∧ start.t < stop.t
  hi : stop.r ≤ gend.r ∧ stop.z ≤ gend.z ∧ stop.t ≤ gend.t
  small : G.x stop.r < 2 ^ 62 ∧ G.y stop.z < 2 ^ 62 ∧ G.t stop.t < 2 ^ 62
  two : 2 ≤ num.r ∧ 2 ≤ num.z ∧ 2 ≤ num.t
  many : num.r < 2 ^ 62 ∧ num.z < 2 ^ 62 ∧ num.t < 2 ^ 62

/-- The point lies in the closed box the chunk covers. -/
def Covers (G : GMeta K) (m : Meta) (r z t : K) : Prop :=
  ((m.start.getD 0 0 : K) ≤ G.x r ∧ G.x r ≤ (m.stop.getD 0 0 : K)) ∧ ((m.start.getD 1 0 : K) ≤ G.y z ∧ G.y z ≤ (m.stop.getD 1 0 : K)) ∧
  ((m.start.getD 2 0 : K) ≤ G.t t ∧ G.t t ≤ (m.stop.getD 2 0 : K))

/-- The chunk's padding suffices to interpolate at the point; on the far faces of the chunk one more layer than the kernel's support is needed. -/
def Padded (G : GMeta K) (kn : Kern K) (m : Meta) (r z t : K) : Prop :=
  kn.support ≤ m.overlap ∧ (G.x r = (m.stop.getD 0 0 : K) ∨ G.y z = (m.stop.getD 1 0 : K) ∨ G.t t = (m.stop.getD 2 0 : K) → kn.support < m.overlap)

/-- The chunk begins before the cell in which the requested box ends, and ends after the one in which it begins. -/
def Searched (G : GMeta K) (m : Meta) (start stop : RZT K) : Prop :=
  (⌊G.x start.r⌋ < (m.stop.getD 0 0 : Int) ∧ (m.start.getD 0 0 : Int) < ⌊G.x stop.r⌋) ∧
  (⌊G.y start.z⌋ < (m.stop.getD 1 0 : Int) ∧ (m.start.getD 1 0 : Int) < ⌊G.y stop.z⌋) ∧
  (⌊G.t start.t⌋ < (m.stop.getD 2 0 : Int) ∧ (m.start.getD 2 0 : Int) < ⌊G.t stop.t⌋)

/-! ### Proofs -/

variable {C : Cfg} {S : Sorter} {Z : SlabSize}

theorem toIndex_r (G : GMeta K) (p : RZT K) : (toIndex G p).r = G.x p.r := rfl
theorem toIndex_z (G : GMeta K) (p : RZT K) : (toIndex G p).z = G.y p.z := rfl
theorem toIndex_t (G : GMeta K) (p : RZT K) : (toIndex G p).t = G.t p.t := rfl

theorem CallOk.range {G : GMeta K} {gend start stop : RZT K} {num : RZT Nat} (h : CallOk G gend start stop num) : RangeOk (toIndex G start) (toIndex G stop) num := by
  obtain ⟨i1, i2, i3⟩ := h.intervals
  obtain ⟨l1, l2, l3⟩ := h.lo
  obtain ⟨t1, t2, t3⟩ := h.lt
  exact ⟨⟨div_nonneg (by linarith) i1.le, (div_lt_div_iff_of_pos_right i1).2 (by linarith), h.small.1, h.two.1, h.many.1⟩,
    ⟨div_nonneg (by linarith) i2.le, (div_lt_div_iff_of_pos_right i2).2 (by linarith), h.small.2.1, h.two.2.1, h.many.2.1⟩,
    ⟨div_nonneg (by linarith) i3.le, (div_lt_div_iff_of_pos_right i3).2 (by linarith), h.small.2.2, h.two.2.2, h.many.2.2⟩⟩

theorem index_coord {a b o d : K} (hd : d ≠ 0) {num : Nat} (hn : (num : K) - 1 ≠ 0) (i : Nat) :
    samplePos ((a - o) / d) ((b - o) / d) num i = (coordAt a b num i - o) / d := by
  unfold samplePos coordAt
  field_simp
  ring

section
variable {G : GMeta K} {gend start stop : RZT K} {num : RZT Nat} (h : CallOk G gend start stop num)
include h

theorem CallOk.posR (i : Nat) : posR (toIndex G start) (toIndex G stop) num i = G.x (coordAt start.r stop.r num.r i) := index_coord h.intervals.1.ne' h.range.r.den.ne' i
theorem CallOk.posZ (i : Nat) : posZ (toIndex G start) (toIndex G stop) num i = G.y (coordAt start.z stop.z num.z i) := index_coord h.intervals.2.1.ne' h.range.z.den.ne' i
theorem CallOk.posT (i : Nat) : posT (toIndex G start) (toIndex G stop) num i = G.t (coordAt start.t stop.t num.t i) := index_coord h.intervals.2.2.ne' h.range.t.den.ne' i

theorem CallOk.onSample {m : Meta} {i j k : Nat} : OnSample (toIndex G start) (toIndex G stop) num m i j k ↔
    Covers G m (coordAt start.r stop.r num.r i) (coordAt start.z stop.z num.z j) (coordAt start.t stop.t num.t k) := by
  unfold OnSample OnAxis Covers
  rw [h.posR, h.posZ, h.posT]

end

/-- The search of the library, whenever its state satisfies `I`, gives the chunks among `ms` that overlap with the given box. -/
def Searches {σ : Type} (L : RangeLibrary σ K) (I : σ → Prop) (ms : List Meta) : Prop :=
  ∀ s lo hi, I s → lo.length = 3 → hi.length = 3 → ∃ r, L.search s lo hi = .ok r ∧ ∀ m, m ∈ r ↔ m ∈ ms ∧ Overlap lo hi m.start m.stop

theorem rangeLib_searches (hC : C.Ok) (hd : C.dims = 3) (val : Nat → K) (cs : List (Meta × Arr)) : Searches (rangeLibOf C val) (fun s => LInv C S Z s.1 s.2 cs) (cs.map Prod.fst) := by
  intro s lo hi h hl _
  obtain ⟨r, g1, g2⟩ := h.idx.getChunks_ok hC (lo := lo) (hi := hi) (by rw [hd]; exact hl)
  refine ⟨r, g1, fun m => ?_⟩
  rw [g2.mem_iff, List.mem_filter, decide_eq_true_eq]

open Classical in
/-- What `fill_array` computes, exactly: the interpolated Green's function at the samples that lie in one of the stored chunks the search has found, zero at all other samples. (For samples whose interpolation
    uses only points that satisfy `Q`.) -/
theorem fillArray_ok {σ : Type} {L : RangeLibrary σ K} {I : σ → Prop} {ms : List Meta} {A : Nat → Int → Int → Int → K} {Q : Int → Int → Int → Prop} (hL : Serves L.toLibrary I ms A Q) (hS : Searches L I ms)
    {kn : Kern K} (hk : kn.Usable) {G : GMeta K} {gend start stop : RZT K} {num : RZT Nat} (hcall : CallOk G gend start stop num)
    (roomy : ∀ m ∈ ms, m.ctype = .specified → Searched G m start stop → ∀ i j k, i < num.r → j < num.z → k < num.t →
      Covers G m (coordAt start.r stop.r num.r i) (coordAt start.z stop.z num.z j) (coordAt start.t stop.t num.t k) →
      Padded G kn m (coordAt start.r stop.r num.r i) (coordAt start.z stop.z num.z j) (coordAt start.t stop.t num.t k))
    {ha : Hdr} (hown : ha.owns = true) (arr : List K) (junk : Nat → K) {st : σ} (hI : I st) :
    ∃ st' buf, fillArray L G gend kn start stop num ha arr junk st = .ok (st', mkHdr 2 [num.r, num.z, num.t], buf) ∧ I st' ∧ buf.length = volume 2 [num.r, num.z, num.t] ∧
      ∀ i j k c, i < num.r → j < num.z → k < num.t → c < 2 →
        StencilIn kn Q (G.x (coordAt start.r stop.r num.r i)) (G.y (coordAt start.z stop.z num.z j)) (G.t (coordAt start.t stop.t num.t k)) →
        component 2 (mkHdr 2 [num.r, num.z, num.t]) buf c i j k =
        if ∃ m ∈ ms, m.ctype = .specified ∧ Searched G m start stop ∧ Covers G m (coordAt start.r stop.r num.r i) (coordAt start.z stop.z num.z j) (coordAt start.t stop.t num.t k)
        then greenAt G kn A c (coordAt start.r stop.r num.r i) (coordAt start.z stop.z num.z j) (coordAt start.t stop.t num.t k) else 0 := by
  have hR := hcall.range
  set s := toIndex G start with hs
  set e := toIndex G stop with he
  have hU : U64 = 2 ^ 64 := rfl
  obtain ⟨l1, l2, l3⟩ := hcall.lo
  obtain ⟨t1, t2, t3⟩ := hcall.lt
  obtain ⟨u1, u2, u3⟩ := hcall.hi
  have r1 : isInRange start ⟨G.r0, G.z0, G.t0⟩ gend = true := by
    simp [isInRange]
    exact ⟨⟨⟨by linarith, by linarith⟩, by linarith, by linarith⟩, by linarith, by linarith⟩
  have r2 : isInRange stop ⟨G.r0, G.z0, G.t0⟩ gend = true := by
    simp [isInRange]
    exact ⟨⟨⟨by linarith, by linarith⟩, by linarith, by linarith⟩, by linarith, by linarith⟩
  have cv : ∀ {x : K}, 0 ≤ x → x < 2 ^ 62 → toSize (modf x).1 = .ok ⌊x⌋.toNat := by
    intro x h0 h1
    have := lt62 h1
    have := Int.floor_nonneg.2 h0
    rw [modf_nonneg h0]
    exact toSize_ok (by simpa using this) (by simp only; omega)
  have c1 := cv hR.r.lo (lt_trans hR.r.lt hR.r.hi)
  have c2 := cv hR.z.lo (lt_trans hR.z.lt hR.z.hi)
  have c3 := cv hR.t.lo (lt_trans hR.t.lt hR.t.hi)
  have c4 := cv (le_trans hR.r.lo hR.r.lt.le) hR.r.hi
  have c5 := cv (le_trans hR.z.lo hR.z.lt.le) hR.z.hi
  have c6 := cv (le_trans hR.t.lo hR.t.lt.le) hR.t.hi
  obtain ⟨r, g1, g2⟩ := hS st [⌊s.r⌋.toNat, ⌊s.z⌋.toNat, ⌊s.t⌋.toNat] [⌊e.r⌋.toNat, ⌊e.z⌋.toNat, ⌊e.t⌋.toNat] hI rfl rfl
  have hit : ∀ m, m ∈ r ↔ m ∈ ms ∧ Searched G m start stop := by
    intro m
    rw [g2]
    apply and_congr_right
    intro _
    have n1 := Int.floor_nonneg.2 hR.r.lo
    have n2 := Int.floor_nonneg.2 hR.z.lo
    have n3 := Int.floor_nonneg.2 hR.t.lo
    constructor
    · intro h
      have h0 := h 0 (by simp)
      have h1 := h 1 (by simp)
      have h2 := h 2 (by simp)
      simp only [List.getD_cons_zero, List.getD_cons_succ] at h0 h1 h2
      unfold Searched
      rw [← toIndex_r, ← toIndex_r, ← toIndex_z, ← toIndex_z, ← toIndex_t, ← toIndex_t, ← hs, ← he]
      exact ⟨⟨by omega, by omega⟩, ⟨by omega, by omega⟩, by omega, by omega⟩
    · intro h
      unfold Searched at h
      rw [← toIndex_r, ← toIndex_r, ← toIndex_z, ← toIndex_z, ← toIndex_t, ← toIndex_t, ← hs, ← he] at h
      intro d hd
      have : d < 3 := hd
      match d, this with
      | 0, _ => simp only [List.getD_cons_zero]; omega
      | 1, _ => simp only [List.getD_cons_zero, List.getD_cons_succ]; omega
      | 2, _ => simp only [List.getD_cons_zero, List.getD_cons_succ]; omega
  obtain ⟨st', k1, k2, k3, k4⟩ := chunksLoop_ok hL hk hR r (fun m hm => by
      have := (hit m).1 hm
      exact ⟨this.1, ⟨this.2.1, this.2.2.1, this.2.2.2⟩⟩)
    (fun m hm hsp i j k hi hj hk' hon => by
      have := (hit m).1 hm
      have hp := roomy m this.1 hsp this.2 i j k hi hj hk' (hcall.onSample.1 hon)
      unfold Padded at hp
      rw [hcall.posR, hcall.posZ, hcall.posT]
      exact ⟨⟨hp.1, fun h => hp.2 (.inl h)⟩, ⟨hp.1, fun h => hp.2 (.inr (.inl h))⟩, ⟨hp.1, fun h => hp.2 (.inr (.inr h))⟩⟩)
    (st, (List.range (volume 2 [num.r, num.z, num.t])).map fun _ => (0 : K)) hI (by simp)
  have hlen : st'.2.length = volume 2 [num.r, num.z, num.t] := by rw [k3]; simp
  refine ⟨st'.1, st'.2, ?_, k2, hlen, ?_⟩
  · unfold fillArray
    rw [r1, r2]
    simp only [Res.assert_true, Res.ok_bind, ← hs, ← he]
    have hres : resize 2 ha arr [num.r, num.z, num.t] junk =
        .ok (mkHdr 2 [num.r, num.z, num.t], (List.range (volume 2 [num.r, num.z, num.t])).map fun k => arr.getD k (junk k)) := by
      simp [resize, hown, mkHdr]
    rw [hres]
    simp only [Res.ok_bind]
    rw [c1, c2, c3, c4, c5, c6]
    simp only [Res.ok_bind]
    rw [g1]
    simp only [Res.ok_bind]
    have e1 : ((List.range (volume 2 [num.r, num.z, num.t])).map fun k => arr.getD k (junk k)).map (fun _ => (0 : K)) =
        (List.range (volume 2 [num.r, num.z, num.t])).map fun _ => (0 : K) := by rw [List.map_map]; rfl
    rw [e1]
    rw [k1]
    rfl
  · intro i j k c hi hj hk' hc hQ
    rw [component_eq hlen hi hj hk' hc]
    rw [← hcall.posR, ← hcall.posZ, ← hcall.posT] at hQ
    have := k4 i j k c hi hj hk' hc hQ
    unfold outPos at this
    rw [this]
    have e0 : ((st, (List.range (volume 2 [num.r, num.z, num.t])).map fun _ => (0 : K)) : σ × List K).2.getD (((i * num.z + j) * num.t + k) * 2 + c) 0 = 0 := by
      simp only
      rw [List.getD_eq_getElem?_getD, List.getElem?_map]
      cases (List.range (volume 2 [num.r, num.z, num.t]))[((i * num.z + j) * num.t + k) * 2 + c]? <;> rfl
    rw [e0]
    have e2 : (∃ m ∈ r, m.ctype = .specified ∧ OnSample s e num m i j k) ↔
        ∃ q ∈ ms, q.ctype = .specified ∧ Searched G q start stop ∧ Covers G q (coordAt start.r stop.r num.r i) (coordAt start.z stop.z num.z j) (coordAt start.t stop.t num.t k) := by
      constructor
      · rintro ⟨m, h1, h2, h3⟩
        have := (hit m).1 h1
        exact ⟨m, this.1, h2, this.2, hcall.onSample.1 h3⟩
      · rintro ⟨q, h1, h2, h3, h4⟩
        exact ⟨q, (hit q).2 ⟨h1, h3⟩, h2, hcall.onSample.2 h4⟩
    simp only [e2]
    unfold greenAt
    rw [hcall.posR, hcall.posZ, hcall.posT]

/-- As `fillArray_ok`, for the samples that lie in a chunk the search finds. -/
theorem fillArray_covered {σ : Type} {L : RangeLibrary σ K} {I : σ → Prop} {ms : List Meta} {A : Nat → Int → Int → Int → K} {Q : Int → Int → Int → Prop} (hL : Serves L.toLibrary I ms A Q) (hS : Searches L I ms)
    {kn : Kern K} (hk : kn.Usable) {G : GMeta K} {gend start stop : RZT K} {num : RZT Nat} (hcall : CallOk G gend start stop num)
    (roomy : ∀ m ∈ ms, m.ctype = .specified → Searched G m start stop → ∀ i j k, i < num.r → j < num.z → k < num.t →
      Covers G m (coordAt start.r stop.r num.r i) (coordAt start.z stop.z num.z j) (coordAt start.t stop.t num.t k) →
      Padded G kn m (coordAt start.r stop.r num.r i) (coordAt start.z stop.z num.z j) (coordAt start.t stop.t num.t k))
    {ha : Hdr} (hown : ha.owns = true) (arr : List K) (junk : Nat → K) {st : σ} (hI : I st) :
    ∃ st' buf, fillArray L G gend kn start stop num ha arr junk st = .ok (st', mkHdr 2 [num.r, num.z, num.t], buf) ∧ I st' ∧ buf.length = volume 2 [num.r, num.z, num.t] ∧
      ∀ i j k c, i < num.r → j < num.z → k < num.t → c < 2 →
        StencilIn kn Q (G.x (coordAt start.r stop.r num.r i)) (G.y (coordAt start.z stop.z num.z j)) (G.t (coordAt start.t stop.t num.t k)) →
        (∃ m ∈ ms, Searched G m start stop ∧ Covers G m (coordAt start.r stop.r num.r i) (coordAt start.z stop.z num.z j) (coordAt start.t stop.t num.t k) ∧
          Padded G kn m (coordAt start.r stop.r num.r i) (coordAt start.z stop.z num.z j) (coordAt start.t stop.t num.t k)) →
        component 2 (mkHdr 2 [num.r, num.z, num.t]) buf c i j k =
          greenAt G kn A c (coordAt start.r stop.r num.r i) (coordAt start.z stop.z num.z j) (coordAt start.t stop.t num.t k) := by
  classical
  obtain ⟨st', buf, h1, h2, h2', h3⟩ := fillArray_ok hL hS hk hcall roomy hown arr junk hI
  refine ⟨st', buf, h1, h2, h2', fun i j k c hi hj hk' hc hQ covered => ?_⟩
  rw [h3 i j k c hi hj hk' hc hQ]
  obtain ⟨q, g1, g2, g3, g4⟩ := covered
  by_cases hsp : ∃ q ∈ ms, q.ctype = .specified ∧ Searched G q start stop ∧ Covers G q (coordAt start.r stop.r num.r i) (coordAt start.z stop.z num.z j) (coordAt start.t stop.t num.t k)
  · rw [if_pos hsp]
  · rw [if_neg hsp]
    have hz : q.ctype = .all_null := by
      cases hq : q.ctype with
      | all_null => rfl
      | specified => exact absurd ⟨q, g1, hq, g2, g3⟩ hsp
    unfold greenAt
    rw [← interpAt_zero (kn := kn) (x := G.x (coordAt start.r stop.r num.r i)) (y := G.y (coordAt start.z stop.z num.z j)) (t := G.t (coordAt start.t stop.t num.t k))]
    symm
    apply interpAt_congr
    intro a b d ha' hb' hd' _
    exact hL.null q g1 hz c _ _ _ hc (sample_in (kn := kn) g3.1 g3.2.1 g3.2.2 ⟨g4.1, fun h => g4.2 (.inl h)⟩ ⟨g4.1, fun h => g4.2 (.inr (.inl h))⟩ ⟨g4.1, fun h => g4.2 (.inr (.inr h))⟩ ha' hb' hd')
      (hQ a b d ha' hb' hd')

/-- C42 (partial). Let the library hold chunks that are parts of one sampled field `A` (at the positions that satisfy `Q`), and let the padding of the stored chunks suffice for all samples in them. Then `fill_array`
    gives at every output index the interpolated Green's function at the corresponding coordinate, provided that the sample lies in a chunk that begins before the grid cell in which the requested box ends
    (`Searched`); on all-zero chunks this is zero. The contents of the library do not change.
    Missing with respect to the property: samples in chunks that begin exactly at the truncated end index are left out (`C42_left_out`), and samples on the far faces of a chunk need
    more padding than the kernel's support. -/
theorem C42_resample_partial (hC : C.Ok) (hd : C.dims = 3) (hv : C.vd = 2) {val : Nat → K} (hval : ∀ x, FloatIsZero x → val x = 0) {cs : List (Meta × Arr)} (hne : cs ≠ [])
    {A : Nat → Int → Int → Int → K} {Q : Int → Int → Int → Prop} (hA : PartsOf val cs A Q) (lib : Lib) (fs : FS) (hI : LInv C S Z lib fs cs) {kn : Kern K} (hk : kn.Usable)
    {G : GMeta K} {gend start stop : RZT K} {num : RZT Nat} (hcall : CallOk G gend start stop num)
    (roomy : ∀ c ∈ cs, c.1.ctype = .specified → Searched G c.1 start stop → ∀ i j k, i < num.r → j < num.z → k < num.t →
      Covers G c.1 (coordAt start.r stop.r num.r i) (coordAt start.z stop.z num.z j) (coordAt start.t stop.t num.t k) →
      Padded G kn c.1 (coordAt start.r stop.r num.r i) (coordAt start.z stop.z num.z j) (coordAt start.t stop.t num.t k))
    {ha : Hdr} (hown : ha.owns = true) (arr : List K) (junk : Nat → K) :
    ∃ lib' fs' buf, fillArray (rangeLibOf C val) G gend kn start stop num ha arr junk (lib, fs) = .ok ((lib', fs'), mkHdr 2 [num.r, num.z, num.t], buf) ∧ LInv C S Z lib' fs' cs ∧
      buf.length = volume 2 [num.r, num.z, num.t] ∧
      ∀ i j k c, i < num.r → j < num.z → k < num.t → c < 2 →
        StencilIn kn Q (G.x (coordAt start.r stop.r num.r i)) (G.y (coordAt start.z stop.z num.z j)) (G.t (coordAt start.t stop.t num.t k)) →
        (∃ q ∈ cs, Searched G q.1 start stop ∧ Covers G q.1 (coordAt start.r stop.r num.r i) (coordAt start.z stop.z num.z j) (coordAt start.t stop.t num.t k) ∧
          Padded G kn q.1 (coordAt start.r stop.r num.r i) (coordAt start.z stop.z num.z j) (coordAt start.t stop.t num.t k)) →
        component 2 (mkHdr 2 [num.r, num.z, num.t]) buf c i j k =
          greenAt G kn A c (coordAt start.r stop.r num.r i) (coordAt start.z stop.z num.z j) (coordAt start.t stop.t num.t k) := by
  obtain ⟨st', buf, h1, h2, h2', h3⟩ := fillArray_covered (L := rangeLibOf C val) (lib_serves hC hd hv hval hne hA (s0 := (lib, fs)) hI) (rangeLib_searches hC hd val cs) hk hcall
    (fun m hm => by obtain ⟨c, hc, rfl⟩ := List.mem_map.1 hm; exact roomy c hc) hown arr junk (st := (lib, fs)) hI
  refine ⟨st'.1, st'.2, buf, h1, h2, h2', fun i j k c hi hj hk' hc hQ ⟨q, hq, g⟩ => h3 i j k c hi hj hk' hc hQ ⟨q.1, List.mem_map_of_mem hq, g⟩⟩

/-- C42 fails: if every chunk that contains a sample begins at or after the truncated end of the request along some axis, the sample is left out: the output is zero there,
    whatever the Green's function is. -/
theorem C42_left_out (hC : C.Ok) (hd : C.dims = 3) (hv : C.vd = 2) {val : Nat → K} (hval : ∀ x, FloatIsZero x → val x = 0) {cs : List (Meta × Arr)} (hne : cs ≠ [])
    {A : Nat → Int → Int → Int → K} {Q : Int → Int → Int → Prop} (hA : PartsOf val cs A Q) (lib : Lib) (fs : FS) (hI : LInv C S Z lib fs cs) {kn : Kern K} (hk : kn.Usable)
    {G : GMeta K} {gend start stop : RZT K} {num : RZT Nat} (hcall : CallOk G gend start stop num)
    (roomy : ∀ c ∈ cs, c.1.ctype = .specified → Searched G c.1 start stop → ∀ i j k, i < num.r → j < num.z → k < num.t →
      Covers G c.1 (coordAt start.r stop.r num.r i) (coordAt start.z stop.z num.z j) (coordAt start.t stop.t num.t k) →
      Padded G kn c.1 (coordAt start.r stop.r num.r i) (coordAt start.z stop.z num.z j) (coordAt start.t stop.t num.t k))
    {ha : Hdr} (hown : ha.owns = true) (arr : List K) (junk : Nat → K) :
    ∃ lib' fs' buf, fillArray (rangeLibOf C val) G gend kn start stop num ha arr junk (lib, fs) = .ok ((lib', fs'), mkHdr 2 [num.r, num.z, num.t], buf) ∧
      ∀ i j k c, i < num.r → j < num.z → k < num.t → c < 2 →
        StencilIn kn Q (G.x (coordAt start.r stop.r num.r i)) (G.y (coordAt start.z stop.z num.z j)) (G.t (coordAt start.t stop.t num.t k)) →
        (∀ q ∈ cs, Covers G q.1 (coordAt start.r stop.r num.r i) (coordAt start.z stop.z num.z j) (coordAt start.t stop.t num.t k) →
          ⌊G.x stop.r⌋ ≤ (q.1.start.getD 0 0 : Int) ∨ ⌊G.y stop.z⌋ ≤ (q.1.start.getD 1 0 : Int) ∨ ⌊G.t stop.t⌋ ≤ (q.1.start.getD 2 0 : Int)) →
        component 2 (mkHdr 2 [num.r, num.z, num.t]) buf c i j k = 0 := by
  classical
  obtain ⟨st', buf, h1, h2, _, h3⟩ := fillArray_ok (L := rangeLibOf C val) (lib_serves hC hd hv hval hne hA (s0 := (lib, fs)) hI) (rangeLib_searches hC hd val cs) hk hcall
    (fun m hm => by obtain ⟨c, hc, rfl⟩ := List.mem_map.1 hm; exact roomy c hc) hown arr junk (st := (lib, fs)) hI
  refine ⟨st'.1, st'.2, buf, h1, fun i j k c hi hj hk' hc hQ hout => ?_⟩
  rw [h3 i j k c hi hj hk' hc hQ, if_neg]
  rintro ⟨m, g0, g2, g3, g4⟩
  obtain ⟨q, g1, rfl⟩ := List.mem_map.1 g0
  have := hout q g1 g4
  have := g3.1.2
  have := g3.2.1.2
  have := g3.2.2.2
  omega

namespace Ex42
open Ex38

/-- A library given by a list of chunks with their data (see `listLib`). -/
def listRange (cs : List (Meta × List K)) : RangeLibrary Unit K where
  toLibrary := listLib cs
  search _ lo hi := .ok ((cs.filter fun c => decide (Overlap lo hi c.1.start c.1.stop)).map Prod.fst)

/-- A chunk of extents (2, 2, 2) with padding 1 whose first component is `t + 1` and whose second component is 3. -/
def block (id : Nat) (start : Nat) : Meta × List Rat :=
  (mkMeta .specified [1] id [0, 0, start] [2, 2, 2] 1, (List.range 16).flatMap fun _ => [start, 3, start + 1, 3, start + 2, 3, start + 3, 3])

/-- The values of component 0 in the output along the time axis, for the first row. -/
def firstRow (n : Nat) (r : Res (Unit × Hdr × List Rat)) : Option (List Rat) :=
  match r with
  | .ok q => some ((List.range n).map fun k => q.2.2.getD (2 * k) 0)
  | _ => none

/-- All samples are filled if the request ends inside of a chunk ... -/
example : firstRow 4 (fillArray (listRange [block 0 0, block 1 2]) unit ⟨2, 2, 4⟩ linear ⟨0, 0, 1/2⟩ ⟨3/2, 3/2, 7/2⟩ ⟨2, 2, 4⟩ (mkHdr 2 []) [] (fun _ => 9) ()) =
    some [3/2, 5/2, 7/2, 9/2] := by decide +kernel

/-- ... but not if it ends in the first cell of one: the last sample, at time 5/2, should be 7/2. -/
theorem C42_last_missing : firstRow 3 (fillArray (listRange [block 0 0, block 1 2]) unit ⟨2, 2, 4⟩ linear ⟨0, 0, 1/2⟩ ⟨3/2, 3/2, 5/2⟩ ⟨2, 2, 3⟩ (mkHdr 2 []) [] (fun _ => 9) ()) =
    some [3/2, 5/2, 0] := by decide +kernel

/-- A request within the first radial cell gives zeros everywhere. -/
theorem C42_slice_zero : firstRow 4 (fillArray (listRange [block 0 0, block 1 2]) unit ⟨2, 2, 4⟩ linear ⟨0, 0, 1/2⟩ ⟨1/2, 3/2, 7/2⟩ ⟨2, 2, 4⟩ (mkHdr 2 []) [] (fun _ => 9) ()) =
    some [0, 0, 0, 0] := by decide +kernel

/-- A sample on the far radial face of a chunk makes the interpolation read past the end of the chunk's data, if the padding is only as large as the kernel's support. -/
theorem C42_far_face : fillArray (listRange [block 0 0, block 1 2]) unit ⟨2, 2, 4⟩ linear ⟨0, 0, 1/2⟩ ⟨2, 3/2, 7/2⟩ ⟨2, 2, 4⟩ (mkHdr 2 []) [] (fun _ => 9) () = .ub := by decide +kernel

/-! The hypotheses of `C42_resample_partial` hold for a library with two padded chunks of extents (2, 2, 2). -/

/-- The data of such a chunk: a ramp in time and a constant. -/
def cube (s : Nat) : Arr := ⟨[4, 4, 4], (List.range 16).flatMap fun _ => [s, 3, s + 1, 3, s + 2, 3, s + 3, 3]⟩

theorem cube_ok {s : Nat} (hs : s < 1000) : (cube s).Ok cfg := by
  refine ⟨⟨rfl, by show ∀ x ∈ [4, 4, 4], x < 2 ^ 62; decide, by show volume 2 [4, 4, 4] < 2 ^ 62; decide +kernel, ⟨4, rfl⟩, ?_, by show 1 * numElems [4, 4] < 2 ^ 32; decide +kernel⟩, ?_, ?_⟩
  · intro d h0 hd
    have hd : d < 3 := hd
    left
    interval_cases d
    · show 4 ≤ 2 ^ 64 - 1; decide
    · show 4 ≤ 2 ^ 64 - 1; decide
  · show ((List.range 16).flatMap fun _ => [s, 3, s + 1, 3, s + 2, 3, s + 3, 3]).length = volume 2 [4, 4, 4]
    simp [List.length_flatMap, volume, numElems]
  · intro w hw
    obtain ⟨_, _, hw⟩ := List.mem_flatMap.1 hw
    simp only [List.mem_cons, List.not_mem_nil, or_false] at hw
    omega

theorem cubeReg {cs : List (Meta × Arr)} {s : Nat} {u : List Nat} (hs : s < 1000) (hu : u ≠ [] ∧ u.length < 2 ^ 64 ∧ ∀ c ∈ cs, c.1.path ≠ u)
    (hd : ∀ c ∈ cs, DisjointBox c.1.start c.1.stop [0, 0, s] [2, 2, s + 2]) : RegOk cfg cs u (cube s) [0, 0, s] [2, 2, s + 2] 1 false := by
  refine ⟨cube_ok hs, rfl, rfl, ?_, by decide, ?_, hd, hu, fun h => by cases h⟩
  · intro d hd
    have hd : d < 3 := hd
    interval_cases d
    · show 0 < 2 ∧ 2 < 2 ^ 62; decide
    · show 0 < 2 ∧ 2 < 2 ^ 62; decide
    · show s < s + 2 ∧ s + 2 < 2 ^ 62; omega
  · show [4, 4, 4] = [2 - 0 + 2 * 1, 2 - 0 + 2 * 1, s + 2 - s + 2 * 1]
    congr 3
    omega

theorem cubeParts {m : Meta} {s : Nat} (hs : s = 0 ∨ s = 2) (h1 : m.start = [0, 0, s]) (h2 : m.stop = [2, 2, s + 2]) (h3 : m.overlap = 1) {c : Nat} {i j k : Int} (hc : c < 2)
    (hp : InPadded m i j k) :
    ∃ v, (cube s).get 2 [(i - m.start.getD 0 0 + m.overlap).toNat, (j - m.start.getD 1 0 + m.overlap).toNat, (k - m.start.getD 2 0 + m.overlap).toNat] = .ok v ∧
      val (v.getD c 0) = ramp c i j k := by
  unfold InPadded at hp
  rw [h1, h2, h3] at hp
  rw [h1, h3]
  have e1 : ([0, 0, s] : List Nat).getD 0 0 = 0 := rfl
  have e2 : ([0, 0, s] : List Nat).getD 1 0 = 0 := rfl
  have e3 : ([0, 0, s] : List Nat).getD 2 0 = s := rfl
  have f1 : ([2, 2, s + 2] : List Nat).getD 0 0 = 2 := rfl
  have f2 : ([2, 2, s + 2] : List Nat).getD 1 0 = 2 := rfl
  have f3 : ([2, 2, s + 2] : List Nat).getD 2 0 = s + 2 := rfl
  rw [e1, e2, e3, f1, f2, f3] at hp
  rw [e1, e2, e3]
  obtain ⟨⟨a1, a2⟩, ⟨b1, b2⟩, c1, c2⟩ := hp
  have all : ∀ s : Nat, s = 0 ∨ s = 2 → ∀ i < 4, ∀ j < 4, ∀ k < 4, (cube s).get 2 [i, j, k] = .ok [s + k, 3] := by
    rintro s (rfl | rfl) <;> decide +kernel
  refine ⟨_, all s hs _ (by omega) _ (by omega) _ (by omega), ?_⟩
  have ek : ∃ n : Nat, n < 6 ∧ k = (n : Int) - 1 ∧ s + (k - (s : Int) + (1 : Nat)).toNat = n := ⟨(k + 1).toNat, by omega, by omega, by omega⟩
  obtain ⟨n, hn, rfl, en⟩ := ek
  rw [en]
  clear c1 c2 en
  have er : ∀ c k, ramp c i j k = ramp c 0 0 k := fun _ _ => rfl
  rw [er]
  interval_cases c <;> interval_cases n <;> decide +kernel

/-- A library with two padded chunks, `[0, 2)` and `[2, 4)` in time. -/
theorem cubeLib : ∃ (l : Lib) (fs : FS) (m1 m2 : Meta), LInv cfg Tree.Ex.S Tree.Ex.Z l fs [(m1, cube 0), (m2, cube 2)] ∧ (m1.start = [0, 0, 0] ∧ m1.stop = [2, 2, 2] ∧ m1.overlap = 1 ∧ m1.ctype = .specified) ∧
    m2.start = [0, 0, 2] ∧ m2.stop = [2, 2, 4] ∧ m2.overlap = 1 ∧ m2.ctype = .specified := by
  obtain ⟨l0, _, i0, n0, I0⟩ := open_new (C := cfg) (S := Tree.Ex.S) (Z := Tree.Ex.Z) (fs := fun _ => none) (dir := 0) rfl [1, 1, 1]
  obtain ⟨l1, fs1, m1, _, I1, s1, t1, o1, c1, p1, id1, nx1, d1, _⟩ := register_ok cfg_ok I0 (cubeReg (s := 0) (u := [65]) (by decide) (by decide) (fun c h => by cases h)) (by simp) (by omega)
  have hn1 : l1.idx.nextId = 1 := by rw [nx1, n0]; decide +kernel
  obtain ⟨l2, fs2, m2, _, I2, s2, t2, o2, c2, p2, id2, nx2, d2, _⟩ := register_ok cfg_ok I1 (cubeReg (s := 2) (u := [66]) (by decide)
      ⟨by decide, by decide, fun c h => by
        simp only [List.nil_append, List.mem_singleton] at h
        subst h; rw [p1]; decide⟩
      (fun c h => by
        simp only [List.nil_append, List.mem_singleton] at h
        subst h
        intro i hi
        have b1 := hi.1
        have b2 := hi.2
        simp only [s1, t1] at b1
        have l : i.length = 3 := b1.1
        have h1 := (b1.2.2 2 (by omega)).2
        have h2 := (b2.2.2 2 (by omega)).1
        have h1 : i.getD 2 0 < 2 := h1
        have h2 : 2 ≤ i.getD 2 0 := h2
        omega)) (by
        simp only [List.nil_append, List.map_cons, List.map_nil, List.mem_singleton]
        rw [id1, n0, hn1]; decide) (by omega)
  simp only [List.nil_append, List.cons_append] at I2
  simp only [Bool.false_and, Bool.false_eq_true, if_false] at c1 c2
  exact ⟨l2, fs2, m1, m2, I2, ⟨s1, t1, o1, c1⟩, s2, t2, o2, c2⟩

/-- A request of 2 x 2 x 4 samples. -/
theorem call_ok : CallOk unit (⟨2, 2, 4⟩ : RZT Rat) ⟨0, 0, 1/2⟩ ⟨3/2, 3/2, 7/2⟩ ⟨2, 2, 4⟩ := by
  refine ⟨by decide +kernel, by decide +kernel, by decide +kernel, by decide +kernel, by decide +kernel, by decide, by decide⟩

theorem cover {m : Meta} {s : Nat} (hs : s = 0 ∨ s = 2) (h1 : m.start = [0, 0, s]) (h2 : m.stop = [2, 2, s + 2]) (h3 : m.overlap = 1) {i j k : Nat} (hi : i < 2) (hj : j < 2) (hk : k < 4) :
    (s = 2 * (k / 2) → Searched (unit : GMeta Rat) m ⟨0, 0, 1/2⟩ ⟨3/2, 3/2, 7/2⟩ ∧ Covers (unit : GMeta Rat) m (coordAt 0 (3/2) 2 i) (coordAt 0 (3/2) 2 j) (coordAt (1/2) (7/2) 4 k)) ∧
    Padded (unit : GMeta Rat) linear m (coordAt 0 (3/2) 2 i) (coordAt 0 (3/2) 2 j) (coordAt (1/2) (7/2) 4 k) := by
  unfold Searched Covers Padded
  rw [h1, h2, h3]
  rcases hs with rfl | rfl <;> interval_cases i <;> interval_cases j <;> interval_cases k <;> decide +kernel

/-- The library can be built and resampled: 2 x 2 x 4 samples of `t + 1` at the times 1/2, 3/2, 5/2, 7/2. -/
example : ∃ lib fs lib' fs' buf, fillArray (rangeLibOf cfg val) unit ⟨2, 2, 4⟩ linear ⟨0, 0, 1/2⟩ ⟨3/2, 3/2, 7/2⟩ ⟨2, 2, 4⟩ (mkHdr 2 []) [] (fun _ => 9) (lib, fs) =
      .ok ((lib', fs'), mkHdr 2 [2, 2, 4], buf) ∧ ∀ i j k : Nat, i < 2 → j < 2 → k < 4 → component 2 (mkHdr 2 [2, 2, 4]) buf 0 i j k = k + 3/2 := by
  obtain ⟨l2, fs2, m1, m2, I2, ⟨s1, t1, o1, c1⟩, s2, t2, o2, c2⟩ := cubeLib
  have hcs : ∀ c ∈ [(m1, cube 0), (m2, cube 2)], c = (m1, cube 0) ∨ c = (m2, cube 2) := fun c h => by simpa using h
  obtain ⟨lib', fs', buf, g1, g2, _, g3⟩ := C42_resample_partial cfg_ok rfl rfl (val := val) (fun x h => if_pos h) (cs := [(m1, cube 0), (m2, cube 2)]) (by simp)
    (A := ramp) (Q := fun _ _ _ => True) ⟨fun q hq hs c i j k hc hp _ => by
        rcases hcs q hq with rfl | rfl
        · exact cubeParts (s := 0) (.inl rfl) s1 t1 o1 hc hp
        · exact cubeParts (s := 2) (.inr rfl) s2 t2 o2 hc hp,
      fun q hq hs => by
        rcases hcs q hq with rfl | rfl
        · rw [c1] at hs; cases hs
        · rw [c2] at hs; cases hs⟩ l2 fs2 I2 (kn := linear) linear_usable call_ok
    (fun q hq _ _ i j k hi hj hk _ => by
      rcases hcs q hq with rfl | rfl
      · exact (cover (.inl rfl) s1 t1 o1 hi hj hk).2
      · exact (cover (.inr rfl) s2 t2 o2 hi hj hk).2)
    (ha := mkHdr 2 []) rfl [] (fun _ => 9)
  refine ⟨l2, fs2, lib', fs', buf, g1, fun i j k hi hj hk => ?_⟩
  rw [g3 i j k 0 hi hj hk (by decide) (fun _ _ _ _ _ _ => trivial) (by
      by_cases h : k < 2
      · have := cover (.inl rfl) s1 t1 o1 hi hj hk
        exact ⟨_, List.mem_cons_self, (this.1 (by omega)).1, (this.1 (by omega)).2, this.2⟩
      · have := cover (.inr rfl) s2 t2 o2 hi hj hk
        exact ⟨_, List.mem_cons_of_mem _ List.mem_cons_self, (this.1 (by omega)).1, (this.1 (by omega)).2, this.2⟩)]
  interval_cases i <;> interval_cases j <;> interval_cases k <;> decide +kernel

end Ex42

end Verif.Green
