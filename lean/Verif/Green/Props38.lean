import Verif.Green.Bridge
import Verif.Green.Props36
/-
C37: interpolation in a chunk reads only inside of the chunk.  C38: `accumulate_inner_product`.
-/
namespace Verif.Green
open Verif Verif.ND Verif.Dist Verif.Tree Verif.NullSup

set_option linter.unusedSectionVars false

variable {K : Type} [Field K] [LinearOrder K] [IsStrictOrderedRing K] [FloorRing K]

/-! ### C37 -/

/-- Interpolation in the chunk `m` with data `buf`: GreensFunction.hxx 414-422 (and likewise 177-185), with an output buffer that is large enough and cleared. -/
def chunkInterp (kn : Kern K) (m : Meta) (buf : List K) (x y t dt : K) (n : Nat) : Res (List K) :=
  (toLocal x (m.offset.getD 0 0)).bind fun lx =>
  (toLocal y (m.offset.getD 1 0)).bind fun ly =>
  (toLocal t (m.offset.getD 2 0)).bind fun lt =>
  (interpolate kn 2 (mkHdr 2 (m.shape.map (· + 2 * m.overlap))) buf (mkHdr 2 [n]) (List.replicate (n * 2) 0) lx ly lt dt n (fun _ => 0)).bind fun r => .ok r.2

/-- The field value number `c` the chunk `m` with data `buf` has at the grid point with the global indices `(i, j, k)`. -/
def chunkValue (m : Meta) (buf : List K) (c : Nat) (i j k : Int) : K :=
  component 2 (mkHdr 2 (m.shape.map (· + 2 * m.overlap))) buf c (i - m.start.getD 0 0 + m.overlap) (j - m.start.getD 1 0 + m.overlap) (k - m.start.getD 2 0 + m.overlap)

/-- C37. Let the padding of a chunk be at least the support of the kernel, and let the sample positions lie in the chunk (global coordinates in units of the grid). Then all
    accesses are inside of the stored array: the interpolation is neither undefined nor stopped by an assertion, and its result is the weighted sum of elements of the
    chunk including its padding.
    A sample exactly on the end of the chunk is also fine, if the padding is larger than the support or if the position is not in the last cell along both other axes. (Partial:
    otherwise memory after the end of the array is read, see `C37_over_read`.) -/
theorem C37_reads_in_bounds_partial {kn : Kern K} (hk : kn.Usable) {m : Meta} (hM : MetaOk m) (hov : kn.support ≤ m.overlap) {buf : List K}
    (hbuf : buf.length = volume 2 (m.shape.map (· + 2 * m.overlap))) {x y t dt : K} {n : Nat} (hn : 0 < n)
    (hx : ((m.start.getD 0 0 : Nat) : K) ≤ x ∧ x < ((m.stop.getD 0 0 : Nat) : K)) (hy : ((m.start.getD 1 0 : Nat) : K) ≤ y ∧ y < ((m.stop.getD 1 0 : Nat) : K))
    (ht : ∀ k : Nat, k < n → ((m.start.getD 2 0 : Nat) : K) ≤ t + k * dt ∧ t + k * dt ≤ ((m.stop.getD 2 0 : Nat) : K))
    (hend : ∀ k : Nat, k < n → t + k * dt = ((m.stop.getD 2 0 : Nat) : K) → kn.support < m.overlap ∨ x < ((m.stop.getD 0 0 : Nat) : K) - 1 ∨ y < ((m.stop.getD 1 0 : Nat) : K) - 1) :
    ∃ d, chunkInterp kn m buf x y t dt n = .ok d ∧ d.length = n * 2 ∧
      ∀ k c : Nat, k < n → c < 2 → d.getD (2 * k + c) 0 = interpAt kn (chunkValue m buf c) x y (t + k * dt) ∧
      (∀ i j l : Int, ¬ InPadded m i j l → ∀ v, interpAt kn (fun a b e => if a = i ∧ b = j ∧ e = l then v else chunkValue m buf c a b e) x y (t + k * dt) =
        interpAt kn (chunkValue m buf c) x y (t + k * dt)) := by
  have fl : ∀ {a : Nat} {u : K}, ((a : Nat) : K) ≤ u → (a : Int) ≤ ⌊u⌋ := fun {a u} h => Int.le_floor.2 (by simpa using h)
  have fl' : ∀ {a : Nat} {u : K}, u < ((a : Nat) : K) → ⌊u⌋ < (a : Int) := fun {a u} h => Int.floor_lt.2 (by simpa using h)
  have hat : PartAt kn m x y t dt n := by
    refine ⟨⟨fl hx.1, fl' hx.2⟩, ⟨fl hy.1, fl' hy.2⟩, fun i hi => ⟨fl (ht i hi).1, (ht i hi).2⟩, ?_, hov⟩
    intro _ ho ⟨i, hi, he⟩
    rcases hend i hi he with h | h | h
    · omega
    · left
      have : ⌊x⌋ < (m.stop.getD 0 0 : Int) - 1 := by
        rw [Int.floor_lt]; push_cast; exact h
      omega
    · right
      have : ⌊y⌋ < (m.stop.getD 1 0 : Int) - 1 := by
        rw [Int.floor_lt]; push_cast; exact h
      omega
  have hp := hk.support
  have hU : U64 = 2 ^ 64 := rfl
  have st0 := hM.getD_stop 0
  have st1 := hM.getD_stop 1
  have st2 := hM.getD_stop 2
  have lt0 := hM.lt 0 (by decide)
  have lt1 := hM.lt 1 (by decide)
  have lt2 := hM.lt 2 (by decide)
  have hovl := hM.ovl
  have hxx := hat.inx
  have hyy := hat.iny
  have ht0 := hat.int 0 hn
  simp only [Nat.cast_zero, zero_mul, add_zero] at ht0
  have floorle : ∀ u : K, u ≤ ((m.stop.getD 2 0 : Nat) : K) → ⌊u⌋ ≤ (m.stop.getD 2 0 : Int) := by
    intro u hu
    have := Int.floor_le_floor hu
    simpa using this
  have ht0' := floorle _ ht0.2
  unfold chunkInterp
  rw [hM.getD_offset (d := 0) (by decide), hM.getD_offset (d := 1) (by decide), hM.getD_offset (d := 2) (by decide)]
  rw [toLocal_ok lt0 hovl hxx.1 (by omega), toLocal_ok lt1 hovl hyy.1 (by omega), toLocal_ok lt2 hovl ht0.1 ht0']
  simp only [Res.ok_bind]
  set ox : Int := (m.start.getD 0 0 : Int) - (m.overlap : Int) with hox
  set oy : Int := (m.start.getD 1 0 : Int) - (m.overlap : Int) with hoy
  set ot : Int := (m.start.getD 2 0 : Int) - (m.overlap : Int) with hot
  have hsh := hM.shape3
  have ix := inside_local (g := x) hp st0 hov hxx.1 hxx.2
  have iy := inside_local (g := y) hp st1 hov hyy.1 hyy.2
  have it : ∀ i : Nat, i < n → Inside kn.support (m.shape.getD 2 0 + 2 * m.overlap) (t - (ot : K) + i * dt) ∨
      AtEnd kn.support (m.shape.getD 0 0 + 2 * m.overlap) (m.shape.getD 1 0 + 2 * m.overlap) (m.shape.getD 2 0 + 2 * m.overlap) (x - (ox : K)) (y - (oy : K)) (t - (ot : K) + i * dt) := by
    intro i hi
    obtain ⟨q1, q2⟩ := hat.int i hi
    have e : t - (ot : K) + i * dt = (t + i * dt) - (ot : K) := by ring
    rw [e]
    have q3 := floorle _ q2
    by_cases hlt : ⌊t + i * dt⌋ < (m.stop.getD 2 0 : Int)
    · left; exact inside_local hp st2 hov q1 hlt
    · have e1 : (((m.stop.getD 2 0 : Nat) : Int) : K) ≤ t + i * dt := Int.le_floor.1 (by omega)
      have e' : t + i * dt = (((m.stop.getD 2 0 : Nat) : Int) : K) := by
        apply le_antisymm _ e1
        simpa using q2
      have f0 : Int.fract (t + i * dt) = 0 := by rw [e', Int.fract_intCast]
      have f1 : ⌊t + i * dt⌋ = (m.stop.getD 2 0 : Int) := by rw [e', Int.floor_intCast]
      by_cases ho : m.overlap = kn.support
      · right
        have h3 := hend i hi (by rw [e']; simp)
        unfold AtEnd
        rw [Int.floor_sub_intCast, Int.fract_sub_intCast, Int.floor_sub_intCast, Int.floor_sub_intCast]
        refine ⟨by omega, f0, by omega, ?_⟩
        rcases h3 with h | h | h
        · omega
        · left
          have : ⌊x⌋ < (m.stop.getD 0 0 : Int) - 1 := by rw [Int.floor_lt]; push_cast; exact h
          omega
        · right
          have : ⌊y⌋ < (m.stop.getD 1 0 : Int) - 1 := by rw [Int.floor_lt]; push_cast; exact h
          omega
      · left
        unfold Inside
        rw [Int.floor_sub_intCast]
        omega
  have hb := hbuf
  rw [hsh] at hb ⊢
  obtain ⟨d, e1, e2, e3⟩ := interpolate_ok hk (vd := 2) (by decide) hb (by omega) (by omega) (by omega) (hr := mkHdr 2 [n]) rfl
    (List.replicate (n * 2) (0 : K)) (x - (ox : K)) (y - (oy : K)) (t - (ot : K)) dt n (fun _ => 0) ix iy it
  rw [e1]
  simp only [Res.ok_bind]
  refine ⟨d, rfl, e2, fun k c hkn hc => ⟨?_, ?_⟩⟩
  · rw [e3 k c hkn hc]
    have hz : (List.replicate (n * 2) (0 : K)).getD (2 * k + c) 0 = 0 := by
      rw [List.getD_eq_getElem?_getD, List.getElem?_replicate]
      split <;> rfl
    rw [hz, zero_add]
    have e : t - (ot : K) + (k : K) * dt = (t + (k : K) * dt) - (ot : K) := by ring
    rw [e, ← interpAt_shift]
    unfold chunkValue
    rw [hsh]
    congr 1
    funext i j l
    congr 1 <;> omega
  · intro i j l hno v
    apply interpAt_congr
    intro a b e ha hb he hw
    have hin := stencil_in hk hat hkn ha hb he hw
    rw [if_neg]
    rintro ⟨rfl, rfl, rfl⟩
    exact hno hin

/-- C37, the missing case: with padding equal to the support, a sample exactly on the end of the chunk in its last cell along the two other axes reads past the end of the
    array. (Chunk of extents 1 x 1 x 1 at the origin with padding 1, linear kernel, sample at the time 1, which `accumulate_inner_product` does request from this chunk.) -/
theorem C37_over_read : chunkInterp (linear (K := Rat)) (mkMeta .specified [] 0 [0, 0, 0] [1, 1, 1] 1) (List.replicate 54 0) 0 0 1 1 1 = .ub := by
  decide +kernel

/-- Also outside of the domain: the Keys kernel at the very first grid point of an unpadded chunk does not fail, but returns zero, because the loop over the columns starts at
    `2^64 - 1` and ends at once. (The caller's assertion on the padding excludes this case.) -/
theorem C37_silent_zero : chunkInterp (keys (3 : Rat)) (mkMeta .specified [] 0 [0, 0, 0] [4, 4, 4] 0) (List.replicate 128 5) 0 0 2 1 1 = .ok [0, 0] := by
  decide +kernel

/-- The hypotheses of `C37_reads_in_bounds_partial` hold for a chunk of extents 2 x 1 x 2 with padding 2 and the Keys kernel, with samples up to the very end of the chunk. -/
example : ∃ d, chunkInterp (keys (3 : Rat)) (mkMeta .specified [] 0 [1, 0, 4] [2, 1, 2] 2) (List.replicate 360 1) (3/2) (1/2) 4 (1/2) 5 = .ok d ∧ d.length = 5 * 2 := by
  have e1 : (mkMeta .specified [] 0 [1, 0, 4] [2, 1, 2] 2).stop = [3, 1, 6] := by decide +kernel
  obtain ⟨d, h1, h2, _⟩ := C37_reads_in_bounds_partial (keys_usable (3 : Rat)) (m := mkMeta .specified [] 0 [1, 0, 4] [2, 1, 2] 2)
    ⟨rfl, rfl, by decide +kernel, by rw [e1]; decide, by decide +kernel, rfl⟩ (Nat.le_refl _) (buf := List.replicate 360 1) (by decide +kernel) (x := 3/2) (y := 1/2) (t := 4) (dt := 1/2)
    (n := 5) (by decide) (by rw [e1]; show ((1 : Nat) : Rat) ≤ _ ∧ _ < ((3 : Nat) : Rat); norm_num) (by rw [e1]; show ((0 : Nat) : Rat) ≤ _ ∧ _ < ((1 : Nat) : Rat); norm_num)
    (fun k hk => by
      rw [e1]; show ((4 : Nat) : Rat) ≤ _ ∧ _ ≤ ((6 : Nat) : Rat)
      interval_cases k <;> norm_num)
    (fun k hk he => by
      rw [e1]; right; left
      show _ < ((3 : Nat) : Rat) - 1
      norm_num)
  exact ⟨d, h1, h2⟩

/-! ### C38 -/

/-- The index coordinates of a point of time and space. -/
def GMeta.x (G : GMeta K) (r : K) : K := (r - G.r0) / G.dr
def GMeta.y (G : GMeta K) (z : K) : K := (z - G.z0) / G.dz
def GMeta.t (G : GMeta K) (t : K) : K := (t - G.t0) / G.dt

/-- The Green's function (component `c`) at a point, interpolated from the sampled field `A`. -/
def greenAt (G : GMeta K) (kn : Kern K) (A : Nat → Int → Int → Int → K) (c : Nat) (r z t : K) : K := interpAt kn (A c) (G.x r) (G.y z) (G.t t)

/-- What is proved of C38: for every library serving chunks of one sampled field. `P` is the position of the iterator `result` in the output vector. -/
theorem accumulate_ok {σ : Type} {L : Library σ K} {I : σ → Prop} {ms : List Meta} {A : Nat → Int → Int → Int → K} {Q : Int → Int → Int → Prop} (hL : Serves L I ms A Q) {kn : Kern K} (hk : kn.Usable)
    {grow : K → K} (hg : grow 0 = 0) (G : GMeta K) (hdt : 0 < G.dt) (junk : Nat → K) (r z t_start t_samp : K) (n : Nat) (source : List K) (weight : K) (oob : OOB)
    (hR : Request kn ms (G.x r) (G.y z) (G.t t_start) (t_samp / G.dt) n) (hZ : ZerosLast ms (G.x r) (G.y z) (G.t t_start) (t_samp / G.dt) n)
    (hQ : ∀ k : Nat, k < n → StencilIn kn Q (G.x r) (G.y z) (G.t (t_start + k * t_samp)))
    (out : List K) (P : Nat) (hout : P + n ≤ out.length)
    (hcov : oob = .raise → ∀ k : Nat, k < n → ∃ m ∈ ms, InBox m.start m.stop (cell (G.x r) (G.y z) (G.t (t_start + k * t_samp)))) (s : σ) (hs : I s) :
    ∃ s' out' e, accumulate L G kn grow junk r z t_start t_samp n source out P weight oob s = .ok (s', out') ∧ I s' ∧ out'.length = out.length ∧ e ≤ n ∧
      (e < n → ∀ m ∈ ms, ¬ InBox m.start m.stop (cell (G.x r) (G.y z) (G.t (t_start + e * t_samp)))) ∧
      (∀ p, out'.getD p 0 = out.getD p 0 + if P ≤ p ∧ p < P + e then
        (greenAt G kn A 0 r z (t_start + ((p - P : Nat) : K) * t_samp) * source.getD 0 0 + greenAt G kn A 1 r z (t_start + ((p - P : Nat) : K) * t_samp) * source.getD 1 0) * weight else 0) ∧
      ∀ k, k < e → OnChunk ms (G.x r) (G.y z) (G.t (t_start + (k : K) * t_samp)) := by
  have hidx : ∀ k : Nat, G.t t_start + (k : K) * (t_samp / G.dt) = G.t (t_start + k * t_samp) := by
    intro k; unfold GMeta.t; field_simp; ring
  obtain ⟨b, e, h1, h2, h3, h4, h5, h6, h7, h8⟩ := accLoop_ok hL hk hg hR hZ (fun k hk' => by rw [hidx]; exact hQ k hk') source weight (P := P) (oob := oob) (fun h k hk' => by rw [hidx]; exact hcov h k hk') (n + 1)
    ⟨s, (List.range (n * 2)).map junk, n * 2, out, P, 0⟩ (by simp only; omega) (by simp only; omega) hs
    ⟨by simp, Nat.le_refl _, fun k hk' => by
      rw [List.getD_eq_getElem?_getD, List.getElem?_eq_none (by simpa using hk')]; rfl⟩ hout (Or.inl rfl)
  refine ⟨b.lib, b.out, e, ?_, h2, h6, h4, ?_, ?_, fun k hk' => by rw [← hidx]; exact h8 k (Nat.zero_le _) hk'⟩
  · unfold accumulate
    change (accLoop L kn grow oob (G.x r) (G.y z) (G.t t_start) (t_samp / G.dt) n source weight (n + 1) _).bind _ = _
    rw [h1]; rfl
  · intro hlt m hm; rw [← hidx]; exact h5 hlt m hm
  · intro p
    have := h7 p
    simp only [Nat.add_zero] at this
    rw [this]
    unfold sampleValue greenAt
    rw [hidx]

/-- C38 (partial). Let the library (cache and files, in any state it can get into) hold chunks that are all parts of one sampled field `A`, and let all samples lie in the chunks. Then
    `accumulate_inner_product` adds to output number `k` the weight times the inner product of the source with the Green's function at time `t_start + k * t_samp`, and changes no other
    element of the output; with the mode `Ignore`, samples may lie outside, and then all samples before the first of these (number `e`) are added (all of these lie in chunks, or exactly on the end of a chunk).
    Missing with respect to the property: (1) `ZerosLast` - if a stored chunk follows on an all-zero chunk, its contributions are added at the wrong places
    (`C38_misplaced`); (2) `Request.edge` - a sample exactly on the end of a chunk, see C37; (3) `hg` - the interpolation buffer grows over uninitialised memory
    (`C38_uninitialised`). -/
theorem C38_inner_product_partial {C : Cfg} {S : Sorter} {Z : SlabSize} (hC : C.Ok) (hd : C.dims = 3) (hv : C.vd = 2) {val : Nat → K} (hval : ∀ x, FloatIsZero x → val x = 0)
    {cs : List (Meta × Arr)} (hne : cs ≠ []) {A : Nat → Int → Int → Int → K} (hA : PartsOf val cs A) (lib : Lib) (fs : FS) (hI : LInv C S Z lib fs cs) {kn : Kern K} (hk : kn.Usable)
    {grow : K → K} (hg : grow 0 = 0) (G : GMeta K) (hdt : 0 < G.dt) (junk : Nat → K) (r z t_start t_samp : K) (n : Nat) (source : List K) (weight : K) (oob : OOB)
    (hR : Request kn (cs.map Prod.fst) (G.x r) (G.y z) (G.t t_start) (t_samp / G.dt) n)
    (hZ : ZerosLast (cs.map Prod.fst) (G.x r) (G.y z) (G.t t_start) (t_samp / G.dt) n)
    (out : List K) (P : Nat) (hout : P + n ≤ out.length)
    (hcov : oob = .raise → ∀ k : Nat, k < n → ∃ c ∈ cs, InBox c.1.start c.1.stop (cell (G.x r) (G.y z) (G.t (t_start + k * t_samp)))) :
    ∃ lib' fs' out' e, accumulate (libOf C val) G kn grow junk r z t_start t_samp n source out P weight oob (lib, fs) = .ok ((lib', fs'), out') ∧ LInv C S Z lib' fs' cs ∧
      out'.length = out.length ∧ e ≤ n ∧ (oob = .raise → e = n) ∧
      (e < n → ∀ c ∈ cs, ¬ InBox c.1.start c.1.stop (cell (G.x r) (G.y z) (G.t (t_start + e * t_samp)))) ∧
      (∀ p, out'.getD p 0 = out.getD p 0 + if P ≤ p ∧ p < P + e then
        (greenAt G kn A 0 r z (t_start + ((p - P : Nat) : K) * t_samp) * source.getD 0 0 + greenAt G kn A 1 r z (t_start + ((p - P : Nat) : K) * t_samp) * source.getD 1 0) * weight else 0) ∧
      ∀ k, k < e → OnChunk (cs.map Prod.fst) (G.x r) (G.y z) (G.t (t_start + (k : K) * t_samp)) := by
  have hL := lib_serves hC hd hv hval hne hA (s0 := (lib, fs)) hI
  obtain ⟨s', out', e, h1, h2, h3, h4, h5, h6, h7⟩ := accumulate_ok hL hk hg G hdt junk r z t_start t_samp n source weight oob hR hZ (fun _ _ _ _ _ _ _ _ => trivial) out P hout
    (fun h k hk' => by
      obtain ⟨c, hc, hin⟩ := hcov h k hk'
      exact ⟨c.1, List.mem_map_of_mem hc, hin⟩) (lib, fs) hI
  refine ⟨s'.1, s'.2, out', e, h1, h2, h3, h4, ?_, fun hlt c hc => h5 hlt c.1 (List.mem_map_of_mem hc), h6, h7⟩
  intro ho
  by_contra hne'
  obtain ⟨c, hc, hin⟩ := hcov ho e (by omega)
  exact h5 (by omega) c.1 (List.mem_map_of_mem hc) hin

/-- With the mode `RaiseError`, a sample outside of all chunks makes the function dereference a null pointer (there is no check); here for the first sample. -/
theorem C38_outside_is_undefined {σ : Type} {L : Library σ K} {I : σ → Prop} {ms : List Meta} {A : Nat → Int → Int → Int → K} (hL : Serves L I ms A) {kn : Kern K}
    {grow : K → K} (G : GMeta K) (hdt : 0 < G.dt) (junk : Nat → K) (r z t_start t_samp : K) (n : Nat) (hn : 0 < n) (source : List K) (weight : K)
    (hR : Request kn ms (G.x r) (G.y z) (G.t t_start) (t_samp / G.dt) n) (out : List K) (P : Nat)
    (hno : ∀ m ∈ ms, ¬ InBox m.start m.stop (cell (G.x r) (G.y z) (G.t t_start))) (s : σ) (hs : I s) :
    accumulate L G kn grow junk r z t_start t_samp n source out P weight .raise s = .ub := by
  have hU : U64 = 2 ^ 64 := rfl
  unfold accumulate
  change (accLoop L kn grow .raise (G.x r) (G.y z) (G.t t_start) (t_samp / G.dt) n source weight (n + 1) _).bind _ = _
  have ft := hR.t1 0 hn
  simp only [Nat.cast_zero, zero_mul, add_zero] at ft
  have fx := floor_lt62 hR.x1
  have fy := floor_lt62 hR.y1
  have ft := floor_lt62 ft
  have nx := Int.floor_nonneg.2 hR.x0
  have ny := Int.floor_nonneg.2 hR.y0
  have nt := Int.floor_nonneg.2 hR.t0
  unfold accLoop
  rw [if_pos hn]
  simp only [Nat.cast_zero, zero_mul, add_zero]
  rw [modf_nonneg hR.x0, modf_nonneg hR.y0, modf_nonneg hR.t0]
  simp only
  rw [toSize_ok nx (by omega), toSize_ok ny (by omega), toSize_ok nt (by omega)]
  simp only [Res.ok_bind]
  obtain ⟨s', g1, g2⟩ := hL.missing s (cell (G.x r) (G.y z) (G.t t_start)) hs rfl (by
    intro d hd
    match d, hd with
    | 0, _ => show ⌊G.x r⌋.toNat < _; omega
    | 1, _ => show ⌊G.y z⌋.toNat < _; omega
    | 2, _ => show ⌊G.t t_start⌋.toNat < _; omega) hno
  unfold cell at g1
  rw [g1]
  rfl

/-! ### Examples and counterexamples -/

/-- A simple library: a list of chunks with their data. -/
def listLib (cs : List (Meta × List K)) : Library Unit K where
  find _ p := .ok ((), (cs.find? fun c => (List.range 3).all fun d => decide (c.1.start.getD d 0 ≤ p.getD d 0) && decide (p.getD d 0 < c.1.stop.getD d 0)).map Prod.fst)
  load _ m := match cs.find? fun c => decide (c.1.id = m.id) with
    | some c => .ok ((), m.shape.map (· + 2 * m.overlap), c.2)
    | none => .ub

namespace Ex38

/-- The data of a chunk of extents (1, 1, 2) with padding 1 whose values depend on the time index only (component 0; component 1 is zero). -/
def dataOf (f : Int → Rat) (start : Int) : List Rat :=
  (List.range 9).flatMap fun _ => [f (start - 1), 0, f start, 0, f (start + 1), 0, f (start + 2), 0]

def chunkAt (id : Nat) (start : Nat) (null : Bool) : Meta := mkMeta (if null then .all_null else .specified) (if null then [] else [1]) id [0, 0, start] [1, 1, 2] 1

/-- Unit sampling intervals, origin at 0. -/
def unit : GMeta Rat := ⟨0, 0, 0, 1, 1, 1⟩

/-- A field that is 1 up to the time index 0 and from the time index 5 on. -/
def pulse (k : Int) : Rat := if k ≤ 0 ∨ 5 ≤ k then 1 else 0

/-- Three chunks along the time axis; the field vanishes on the middle one and its padding, which is stored as an all-zero chunk or as an ordinary one. -/
def three (null : Bool) : List (Meta × List Rat) :=
  [(chunkAt 0 0 false, dataOf pulse 0), (chunkAt 1 2 null, dataOf pulse 2), (chunkAt 2 4 false, dataOf pulse 4)]

/-- With all chunks stored, the values appear in the right places: samples at 1/4, 3/4, ..., 21/4. -/
theorem stored : accumulate (listLib (three false)) unit linear id (fun _ => 9) 0 0 (1/4) (1/2) 11 [1, 0] (List.replicate 11 0) 0 1 .raise () =
    .ok ((), [3/4, 1/4, 0, 0, 0, 0, 0, 0, 1/4, 3/4, 1]) := by decide +kernel

/-- C38 fails: if the middle chunk is marked as all-zero, which describes the same field, the contributions of the last chunk are added four places too early. -/
theorem C38_misplaced : accumulate (listLib (three true)) unit linear id (fun _ => 9) 0 0 (1/4) (1/2) 11 [1, 0] (List.replicate 11 0) 0 1 .raise () =
    .ok ((), [3/4, 1/4, 0, 0, 1/4, 3/4, 1, 0, 0, 0, 0]) := by decide +kernel

/-- C38 rests on the contents of uninitialised memory: the first chunk provides one sample and the second one four; the interpolation buffer then grows from one to four elements without
    initialisation. If these read as 7 instead of the zeros that were there before, the output is wrong. -/
theorem C38_uninitialised :
    accumulate (listLib (three false)) unit linear id (fun _ => 9) 0 0 (7/4) (1/2) 5 [1, 0] (List.replicate 5 0) 0 1 .raise () = .ok ((), [0, 0, 0, 0, 0]) ∧
    accumulate (listLib (three false)) unit linear (fun _ => 7) (fun _ => 9) 0 0 (7/4) (1/2) 5 [1, 0] (List.replicate 5 0) 0 1 .raise () = .ok ((), [0, 0, 7, 7, 7]) := by
  decide +kernel

/-! The hypotheses of `C38_inner_product_partial` hold for a library with two padded chunks along the time axis. -/

def cfg : Cfg := ⟨.little, 2, 3, [1, 2 ^ 64 - 1, 2 ^ 64 - 1], 1, fun _ => 77⟩

theorem cfg_ok : cfg.Ok := by
  refine ⟨by decide, by decide, rfl, ?_, ?_, by show 1 < 2 ^ 63; decide⟩
  · show ∀ x ∈ [1, 2 ^ 64 - 1, 2 ^ 64 - 1], x < 2 ^ 64
    decide
  · show ∀ x ∈ [1, 2 ^ 64 - 1, 2 ^ 64 - 1], 0 < x
    decide

/-- What the words stand for in this example: themselves, but `-0` is zero. -/
def val (w : Nat) : Rat := if w = 0 ∨ w = 2 ^ 31 then 0 else w

/-- A ramp in time and a constant. -/
def ramp (c : Nat) (_ _ k : Int) : Rat := if c = 0 then k + 1 else 3

/-- The data of the chunk of extents (1, 1, 2) with padding 1 that starts at the time index `s`. -/
def rampArr (s : Nat) : Arr := ⟨[3, 3, 4], (List.range 9).flatMap fun _ => [s, 3, s + 1, 3, s + 2, 3, s + 3, 3]⟩

theorem rampArr_ok {s : Nat} (hs : s < 1000) : (rampArr s).Ok cfg := by
  refine ⟨⟨rfl, by show ∀ x ∈ [3, 3, 4], x < 2 ^ 62; decide, by show volume 2 [3, 3, 4] < 2 ^ 62; decide +kernel, ⟨3, rfl⟩, ?_, by show 1 * numElems [3, 4] < 2 ^ 32; decide +kernel⟩, ?_, ?_⟩
  · intro d h0 hd
    have hd : d < 3 := hd
    left
    interval_cases d
    · show 3 ≤ 2 ^ 64 - 1; decide
    · show 4 ≤ 2 ^ 64 - 1; decide
  · show ((List.range 9).flatMap fun _ => [s, 3, s + 1, 3, s + 2, 3, s + 3, 3]).length = volume 2 [3, 3, 4]
    rw [List.length_flatMap]
    show _ = 72
    rfl
  · intro w hw
    obtain ⟨_, _, hw⟩ := List.mem_flatMap.1 hw
    simp only [List.mem_cons, List.not_mem_nil, or_false] at hw
    omega

theorem rampReg {cs : List (Meta × Arr)} {s : Nat} {u : List Nat} (hs : s < 1000) (hu : u ≠ [] ∧ u.length < 2 ^ 64 ∧ ∀ c ∈ cs, c.1.path ≠ u)
    (hd : ∀ c ∈ cs, DisjointBox c.1.start c.1.stop [0, 0, s] [1, 1, s + 2]) : RegOk cfg cs u (rampArr s) [0, 0, s] [1, 1, s + 2] 1 false := by
  refine ⟨rampArr_ok hs, rfl, rfl, ?_, by decide, ?_, hd, hu, fun h => by cases h⟩
  · intro d hd
    have hd : d < 3 := hd
    interval_cases d
    · show 0 < 1 ∧ 1 < 2 ^ 62; decide
    · show 0 < 1 ∧ 1 < 2 ^ 62; decide
    · show s < s + 2 ∧ s + 2 < 2 ^ 62; omega
  · show [3, 3, 4] = [1 - 0 + 2 * 1, 1 - 0 + 2 * 1, s + 2 - s + 2 * 1]
    congr 3
    omega

theorem rampParts {m : Meta} {s : Nat} (hs : s = 0 ∨ s = 2) (h1 : m.start = [0, 0, s]) (h2 : m.stop = [1, 1, s + 2]) (h3 : m.overlap = 1) {c : Nat} {i j k : Int} (hc : c < 2)
    (hp : InPadded m i j k) :
    ∃ v, (rampArr s).get 2 [(i - m.start.getD 0 0 + m.overlap).toNat, (j - m.start.getD 1 0 + m.overlap).toNat, (k - m.start.getD 2 0 + m.overlap).toNat] = .ok v ∧
      val (v.getD c 0) = ramp c i j k := by
  unfold InPadded at hp
  rw [h1, h2, h3] at hp
  rw [h1, h3]
  have e1 : ([0, 0, s] : List Nat).getD 0 0 = 0 := rfl
  have e2 : ([0, 0, s] : List Nat).getD 1 0 = 0 := rfl
  have e3 : ([0, 0, s] : List Nat).getD 2 0 = s := rfl
  have f1 : ([1, 1, s + 2] : List Nat).getD 0 0 = 1 := rfl
  have f2 : ([1, 1, s + 2] : List Nat).getD 1 0 = 1 := rfl
  have f3 : ([1, 1, s + 2] : List Nat).getD 2 0 = s + 2 := rfl
  rw [e1, e2, e3, f1, f2, f3] at hp
  rw [e1, e2, e3]
  obtain ⟨⟨a1, a2⟩, ⟨b1, b2⟩, c1, c2⟩ := hp
  have q1 : i = -1 ∨ i = 0 ∨ i = 1 := by omega
  have q2 : j = -1 ∨ j = 0 ∨ j = 1 := by omega
  rcases hs with rfl | rfl
  · have q3 : k = -1 ∨ k = 0 ∨ k = 1 ∨ k = 2 := by omega
    have q4 : c = 0 ∨ c = 1 := by omega
    rcases q4 with rfl | rfl <;> rcases q1 with rfl | rfl | rfl <;> rcases q2 with rfl | rfl | rfl <;> rcases q3 with rfl | rfl | rfl | rfl <;>
      exact ⟨_, rfl, by decide +kernel⟩
  · have q3 : k = 1 ∨ k = 2 ∨ k = 3 ∨ k = 4 := by omega
    have q4 : c = 0 ∨ c = 1 := by omega
    rcases q4 with rfl | rfl <;> rcases q1 with rfl | rfl | rfl <;> rcases q2 with rfl | rfl | rfl <;> rcases q3 with rfl | rfl | rfl | rfl <;>
      exact ⟨_, rfl, by decide +kernel⟩

/-- A library with two padded chunks, `[0, 2)` and `[2, 4)` in time. -/
theorem rampLib : ∃ (l : Lib) (fs : FS) (m1 m2 : Meta), LInv cfg Tree.Ex.S Tree.Ex.Z l fs [(m1, rampArr 0), (m2, rampArr 2)] ∧ (m1.start = [0, 0, 0] ∧ m1.stop = [1, 1, 2] ∧ m1.overlap = 1 ∧ m1.ctype = .specified) ∧
    m2.start = [0, 0, 2] ∧ m2.stop = [1, 1, 4] ∧ m2.overlap = 1 ∧ m2.ctype = .specified := by
  obtain ⟨l0, _, i0, n0, I0⟩ := open_new (C := cfg) (S := Tree.Ex.S) (Z := Tree.Ex.Z) (fs := fun _ => none) (dir := 0) rfl [1, 1, 1]
  obtain ⟨l1, fs1, m1, _, I1, s1, t1, o1, c1, p1, id1, nx1, d1, _⟩ := register_ok cfg_ok I0 (rampReg (s := 0) (u := [65]) (by decide) (by decide) (fun c h => by cases h)) (by simp) (by omega)
  have hn1 : l1.idx.nextId = 1 := by rw [nx1, n0]; decide +kernel
  obtain ⟨l2, fs2, m2, _, I2, s2, t2, o2, c2, p2, id2, nx2, d2, _⟩ := register_ok cfg_ok I1 (rampReg (s := 2) (u := [66]) (by decide)
      ⟨by decide, by decide, fun c h => by
        simp only [List.nil_append, List.mem_singleton] at h
        subst h; rw [p1]; decide⟩
      (fun c h => by
        simp only [List.nil_append, List.mem_singleton] at h
        subst h
        intro i hi
        have b1 := hi.1
        have b2 := hi.2
        simp only [s1, t1] at b1
        have l : i.length = 3 := b1.1
        have h1 := (b1.2.2 2 (by omega)).2
        have h2 := (b2.2.2 2 (by omega)).1
        have h1 : i.getD 2 0 < 2 := h1
        have h2 : 2 ≤ i.getD 2 0 := h2
        omega)) (by
        simp only [List.nil_append, List.map_cons, List.map_nil, List.mem_singleton]
        rw [id1, n0, hn1]; decide) (by omega)
  simp only [List.nil_append, List.cons_append] at I2
  simp only [Bool.false_and, Bool.false_eq_true, if_false] at c1 c2
  exact ⟨l2, fs2, m1, m2, I2, ⟨s1, t1, o1, c1⟩, s2, t2, o2, c2⟩

/-- A library with two padded chunks can be built, and six samples at the times 1/4, 3/4, ..., 11/4 added up: source (1, 0) and weight 2 give `2 * (t + 1)`. -/
example : ∃ lib fs lib' fs' out', accumulate (libOf cfg val) unit linear id (fun _ => 9) 0 0 (1/4) (1/2) 6 [1, 0] [1, 1, 1, 1, 1, 1, 1] 0 2 .raise (lib, fs) = .ok ((lib', fs'), out') ∧
    out'.length = 7 ∧ ∀ p < 6, out'.getD p 0 = 1 + 2 * (5/4 + p / 2) := by
  obtain ⟨l2, fs2, m1, m2, I2, ⟨s1, t1, o1, c1⟩, s2, t2, o2, c2⟩ := rampLib
  have hcs : ∀ c ∈ [(m1, rampArr 0), (m2, rampArr 2)], c = (m1, rampArr 0) ∨ c = (m2, rampArr 2) := fun c h => by simpa using h
  have hms : ∀ m ∈ [(m1, rampArr 0), (m2, rampArr 2)].map Prod.fst, m = m1 ∨ m = m2 := fun m h => by simpa using h
  have hgt : ∀ t, unit.t t = t := fun t => by unfold GMeta.t unit; simp
  have hgx : ∀ t, unit.x t = t := fun t => by unfold GMeta.x unit; simp
  have hgy : ∀ t, unit.y t = t := fun t => by unfold GMeta.y unit; simp
  have hdt : unit.dt = 1 := rfl
  have hcell : ∀ k : Nat, k < 6 → ∃ c ∈ [(m1, rampArr 0), (m2, rampArr 2)], InBox c.1.start c.1.stop (cell (unit.x 0) (unit.y 0) (unit.t (1/4 + k * (1/2)))) := by
    intro k hk
    rw [hgx, hgy, hgt]
    have ib : ∀ {m : Meta} {s p : Nat}, m.start = [0, 0, s] → m.stop = [1, 1, s + 2] → s ≤ p ∧ p < s + 2 → InBox m.start m.stop [0, 0, p] := by
      intro m s p h1 h2 h3
      rw [h1, h2]
      refine ⟨rfl, rfl, fun d hd => ?_⟩
      have hd : d < 3 := hd
      interval_cases d
      · exact ⟨Nat.le_refl 0, Nat.one_pos⟩
      · exact ⟨Nat.le_refl 0, Nat.one_pos⟩
      · exact h3
    by_cases h4 : k < 4
    · refine ⟨_, List.mem_cons_self, ?_⟩
      have hp : ∃ p : Nat, p < 2 ∧ cell (0 : Rat) 0 (1/4 + k * (1/2)) = [0, 0, p] := by
        interval_cases k
        · exact ⟨0, by decide, by decide +kernel⟩
        · exact ⟨0, by decide, by decide +kernel⟩
        · exact ⟨1, by decide, by decide +kernel⟩
        · exact ⟨1, by decide, by decide +kernel⟩
      obtain ⟨p, hp, e⟩ := hp
      rw [e]; exact ib s1 t1 ⟨Nat.zero_le _, by omega⟩
    · refine ⟨_, List.mem_cons_of_mem _ List.mem_cons_self, ?_⟩
      have hp : cell (0 : Rat) 0 (1/4 + k * (1/2)) = [0, 0, 2] := by
        interval_cases k
        · decide +kernel
        · decide +kernel
      rw [hp]; exact ib s2 t2 ⟨Nat.le_refl _, by omega⟩
  obtain ⟨lib', fs', out', e, g1, g2, g3, g4, g5, g6, g7, _⟩ := C38_inner_product_partial cfg_ok rfl rfl (val := val) (fun x h => if_pos h) (cs := [(m1, rampArr 0), (m2, rampArr 2)]) (by simp)
    (A := ramp) ⟨fun q hq hs c i j k hc hp _ => by
        rcases hcs q hq with rfl | rfl
        · exact rampParts (s := 0) (.inl rfl) s1 t1 o1 hc hp
        · exact rampParts (s := 2) (.inr rfl) s2 t2 o2 hc hp,
      fun q hq hs => by
        rcases hcs q hq with rfl | rfl
        · rw [c1] at hs; cases hs
        · rw [c2] at hs; cases hs⟩ l2 fs2 I2 (kn := linear) linear_usable (grow := id) rfl unit (by decide) (fun _ => 9) 0 0 (1/4) (1/2) 6 [1, 0] 2 .raise
    (by
      rw [hgx, hgy, hgt, hdt]
      refine ⟨by norm_num, by norm_num, by norm_num, by norm_num, by norm_num, by norm_num, ?_, by norm_num, ?_, ?_, ?_⟩
      · intro k hk; interval_cases k <;> norm_num
      · intro m hm
        rcases hms m hm with rfl | rfl
        · rw [t1]; show ((2 : Nat) : Rat) / _ < _; norm_num
        · rw [t2]; show ((4 : Nat) : Rat) / _ < _; norm_num
      · intro m hm
        rcases hms m hm with rfl | rfl
        · rw [o1]; exact Nat.le_refl _
        · rw [o2]; exact Nat.le_refl _
      · intro m hm _ _ k hk he
        exfalso
        rcases hms m hm with rfl | rfl
        · rw [t1] at he
          have he : 1/4 + (k : Rat) * (1/2/1) = ((2 : Nat) : Rat) := he
          interval_cases k <;> norm_num at he
        · rw [t2] at he
          have he : 1/4 + (k : Rat) * (1/2/1) = ((4 : Nat) : Rat) := he
          interval_cases k <;> norm_num at he)
    (by
      intro j k m m' _ _ hm _ _ _ hz
      rcases hms m hm with rfl | rfl
      · rw [c1] at hz; cases hz
      · rw [c2] at hz; cases hz)
    [1, 1, 1, 1, 1, 1, 1] 0 (by decide) (fun _ k hk => hcell k hk)
  refine ⟨l2, fs2, lib', fs', out', g1, g3, fun p hp => ?_⟩
  have he := g5 rfl
  subst he
  rw [g7 p, if_pos ⟨Nat.zero_le _, by omega⟩]
  have hA : greenAt unit linear ramp 0 0 0 (1/4 + ((p - 0 : Nat) : Rat) * (1/2)) = 5/4 + p / 2 := by
    interval_cases p <;> decide +kernel
  rw [hA]
  interval_cases p <;> norm_num

end Ex38

end Verif.Green
