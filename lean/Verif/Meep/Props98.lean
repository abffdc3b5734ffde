import Verif.Meep.Props69
import Verif.Analytic.Props96
/-
C98: the Green's function of a simulation with MEEP, calculated, stored and exported as a NumPy file.
-/
set_option linter.unusedSectionVars false
namespace Verif.Meep
open Verif Verif.ND Verif.Dist Verif.Tree Verif.Ops Verif.Rebuild Verif.Green Verif.NullSup Verif.Bytes Verif.Analytic

open Classical in
/-- **C98** (partial). A Green's function is calculated with MEEP in all four stages, by any number of processes in any schedule, and the export program is run on the result. If the stored domain is not empty (`CallOk`)
    and no sample is exactly between two chunks, the program writes a NumPy file with `num.r x num.z x num.t x 2` numbers. Number `(i, j, k, c)` is component `c` of the simulated field, interpolated from
    its samples in the storage domain (mirrored at the axis), at the coordinates `(i, j, k)` of the requested equidistant ones, if the chunk with these coordinates begins before the cell of the last grid point
    along each axis; and it is zero otherwise (C42).
    Missing: what is missing in C69; samples exactly between two chunks, which make the program read outside of the chunk; samples next to the axis in the outermost cells in height or time; rounding in the
    calculations. -/
theorem C98_export_partial (C : Cfg) (hC : C.Ok) (hdims : C.dims = 3) (hvd : C.vd = 2) (hchunk : C.chunk = (outCfg C).chunk) (hj : ∀ k, C.junk k < 2 ^ 32) (S : Sorter) (Z : SlabSize) (fs : FS)
    {g : Geometry ℝ} {req : CylRegion ℝ} {res : ℝ} {nz nr : Nat} (hset : SetupOk g req res nz nr) {s : Storage ℝ} {z0 r0 dz dr : Nat} (hs : storageDomain g req res nz nr = .ok s) (hs1 : s.start = [z0, r0])
    (hs2 : s.shape = [dz, dr]) {dt ts tEnd : ℝ} (hdt : 0 < dt) (hts : 0 < ts) (htE : 0 ≤ tEnd) {l : List Nat} (hl : Samples dt ts tEnd l) (E : Nat → List Nat → List Nat)
    (T L ds : Nat) (p : Padded) (procs : List Proc) (init : List Nat) (proc chunk : Arr) (X : Rech) (hp : padDomain [nz, nr] s.start s.shape ds X.overlap = .ok p)
    (h : CalcOk (outCfg C) T L ds l.length [nz, nr] s.start s.shape p (sampled E l) X.indir fs procs) (hX : PipeOk C l.length [nz, nr] p X) {pts : Nat} (hpts : X.req = List.replicate 3 pts)
    (hr : r0 % ds = 0 ∨ X.overlap * ds ≤ r0) (hmany : ds < dr ∧ ds < dz ∧ 2 ≤ l.length) {gone : Nat → Bool} (hg : gone X.out = false) (enc : ℝ → Nat) (henc : ∀ x, enc x < 2 ^ 32) {val : Nat → ℝ}
    (hval : ∀ x, FloatIsZero x → val x = 0) (hov : 2 ≤ X.overlap) {bits : ℝ → Nat} (hb : ∀ x, bits x < 2 ^ 32) (mem : Nat → ℝ) :
    ∃ st1 st2 parts, runLoop (job (outCfg C) S T L (s.start.map fun _ => ds) l.length init proc chunk) (procs.map fun P => P.job p) ⟨none, fs⟩ = .ok st1 ∧
      mergeJobs (outCfg C) S init X.indir (procs.map fun P => P.out) st1 = .ok st2 ∧
      ∀ σ τ, Schedule X.jobs parts.length σ → Finish X.jobs τ →
        ∃ s1 s2, runLoop (procStep C S X) σ ⟨st2.fs, fun _ => none⟩ = .ok s1 ∧ runLoop (finStep C S X parts (finalShape ds l.length s.shape)) τ s1 = .ok s2 ∧
          ∀ green, ∃ d' a b st, finishGreen C S enc gone X.out s.region tEnd ⟨s2.fs, green⟩ = .ok d' ∧ coordsOf s.region tEnd (finalShape ds l.length s.shape) = .ok (a, b, st) ∧
            ∀ (G : GMeta ℝ) (lo hi : RZT ℝ) (num : RZT Nat), G = gmetaOf val ⟨a.map enc, b.map enc, st.map enc⟩ → lo = ⟨G.r0, G.z0, G.t0⟩ →
              hi = ⟨val (enc (b.getD 0 0)), val (enc (b.getD 1 0)), val (enc (b.getD 2 0))⟩ → CallOk G hi lo hi num →
              OffFaces pts ((dr + ds - 1) / ds - 1) num.r (fun i => G.x (coordAt lo.r hi.r num.r i)) → OffFaces pts ((dz + ds - 1) / ds - 1) num.z (fun j => G.y (coordAt lo.z hi.z num.z j)) →
              OffFaces pts (l.length - 1) num.t (fun k => G.t (coordAt lo.t hi.t num.t k)) →
              ∃ file, exportGreen C S (keys (Real.sqrt 7)) val bits mem num X.out d' = .ok file ∧
                IsNpy file [num.r, num.z, num.t, 2] (fun ind w => ∃ i j k c : Nat, ind = [i, j, k, c] ∧
                  OffCorners ((dz + ds - 1) / ds - 1) (l.length - 1) (G.x (coordAt lo.r hi.r num.r i)) (G.y (coordAt lo.z hi.z num.z j)) (G.t (coordAt lo.t hi.t num.t k)) ∧
                  w = bits (if Before pts (G.x (coordAt lo.r hi.r num.r i)) (G.x hi.r) ∧ Before pts (G.y (coordAt lo.z hi.z num.z j)) (G.y hi.z) ∧ Before pts (G.t (coordAt lo.t hi.t num.t k)) (G.t hi.t)
                    then greenAt G (keys (Real.sqrt 7)) (meepField val (sampled E l) ds l.length z0 r0 p) c (coordAt lo.r hi.r num.r i) (coordAt lo.z hi.z num.z j) (coordAt lo.t hi.t num.t k) else 0)) := by
  have hk : IsKernel (keys (Real.sqrt 7)) := .keys
  obtain ⟨st1, st2, parts, a1, a2, a3⟩ := meep_serves C hC hdims hvd hchunk hj S Z fs hset hs hs1 hs2 hdt hts htE hl E T L ds p procs init proc chunk X hp h hX hpts hr hmany hg enc henc hval
  refine ⟨st1, st2, parts, a1, a2, fun σ τ hσ hτ => ?_⟩
  obtain ⟨s1, s2, b1, b2, b3⟩ := a3 σ τ hσ hτ
  refine ⟨s1, s2, b1, b2, fun green => ?_⟩
  obtain ⟨d', a, b, st, c1, c2, _, _, c5⟩ := b3 green
  refine ⟨d', a, b, st, c1, c2, fun G lo hi num hG hlo hhi hcall fr fz ft => ?_⟩
  obtain ⟨lib, gm, I, ms, g1, g2, g3, hch, hserve, hsearch, _, hb3, _, _⟩ := c5 5
  subst g2
  have eG : gmetaOf val ⟨a.map enc, b.map enc, st.map enc⟩ = G := hG.symm
  have ea : startOf val ⟨a.map enc, b.map enc, st.map enc⟩ = lo := by
    rw [hlo, ← eG]; rfl
  have eb : endOf val ⟨a.map enc, b.map enc, st.map enc⟩ = hi := by
    rw [hhi]
    match b, hb3 with
    | [x, y, z], _ => rfl
  obtain ⟨st', buf, q1, _, q3, q4⟩ := resample_grid (L := rangeLibOf (readerCfg C 5) val) hch hserve hsearch (keys_usable _) hov hcall fr fz ft (ha := mkHdr 2 [10, 10, 10]) rfl
    ((List.range (volume 2 [10, 10, 10])).map mem) mem g3
  have hnum := hcall.many
  obtain ⟨file, n1, n2⟩ := numpy_pairs C.hst (n0 := num.r) (n1 := num.z) (n2 := num.t) ⟨by omega, by omega, by omega⟩ q3 hb
  refine ⟨file, ?_, npy_mono n2 ?_⟩
  · unfold exportGreen
    rw [g1]
    simp only [Res.ok_bind, eG, ea, eb]
    rw [q1]
    simp only [Res.ok_bind]
    exact n1
  · rintro ind w hv ⟨i, j, k, c, rfl, hoff, rfl⟩
    refine ⟨i, j, k, c, rfl, ?_⟩
    have hi' : i < num.r := hv.2 0 (by show 0 < 4; decide)
    have hj' : j < num.z := hv.2 1 (by show 1 < 4; decide)
    have hk' : k < num.t := hv.2 2 (by show 2 < 4; decide)
    have hc : c < 2 := hv.2 3 (by show 3 < 4; decide)
    have hD := h.dom
    rw [hs1, hs2] at hD hp
    rw [q4 i j k c hi' hj' hk' hc (meep_stencil hk hD hp hov hr hmany.1 hmany.2.1 hmany.2.2 (fr i hi').1 fun _ => hoff)]

/-- **C98**, if the coordinates in the metadata are not rounded: if none of the samples is exactly between two chunks (in particular, the number of grid steps is not a multiple of the size of the chunks along
    any axis), all samples are exported (except for those next to the axis in the outermost cells in height or time). -/
theorem C98_whole_partial (C : Cfg) (hC : C.Ok) (hdims : C.dims = 3) (hvd : C.vd = 2) (hchunk : C.chunk = (outCfg C).chunk) (hj : ∀ k, C.junk k < 2 ^ 32) (S : Sorter) (Z : SlabSize) (fs : FS)
    {g : Geometry ℝ} {req : CylRegion ℝ} {res : ℝ} {nz nr : Nat} (hset : SetupOk g req res nz nr) {s : Storage ℝ} {z0 r0 dz dr : Nat} (hs : storageDomain g req res nz nr = .ok s) (hs1 : s.start = [z0, r0])
    (hs2 : s.shape = [dz, dr]) {dt ts tEnd : ℝ} (hdt : 0 < dt) (hts : 0 < ts) (htE : 0 ≤ tEnd) {l : List Nat} (hl : Samples dt ts tEnd l) (E : Nat → List Nat → List Nat)
    (T L ds : Nat) (p : Padded) (procs : List Proc) (init : List Nat) (proc chunk : Arr) (X : Rech) (hp : padDomain [nz, nr] s.start s.shape ds X.overlap = .ok p)
    (h : CalcOk (outCfg C) T L ds l.length [nz, nr] s.start s.shape p (sampled E l) X.indir fs procs) (hX : PipeOk C l.length [nz, nr] p X) {pts : Nat} (hpts : X.req = List.replicate 3 pts)
    (hr : r0 % ds = 0 ∨ X.overlap * ds ≤ r0) (hmany : ds < dr ∧ ds < dz ∧ 2 ≤ l.length) {gone : Nat → Bool} (hg : gone X.out = false) (enc : ℝ → Nat) (henc : ∀ x, enc x < 2 ^ 32) {val : Nat → ℝ}
    (hval : ∀ x, FloatIsZero x → val x = 0) (hov : 2 ≤ X.overlap) {bits : ℝ → Nat} (hb : ∀ x, bits x < 2 ^ 32) (mem : Nat → ℝ) :
    ∃ st1 st2 parts, runLoop (job (outCfg C) S T L (s.start.map fun _ => ds) l.length init proc chunk) (procs.map fun P => P.job p) ⟨none, fs⟩ = .ok st1 ∧
      mergeJobs (outCfg C) S init X.indir (procs.map fun P => P.out) st1 = .ok st2 ∧
      ∀ σ τ, Schedule X.jobs parts.length σ → Finish X.jobs τ →
        ∃ s1 s2, runLoop (procStep C S X) σ ⟨st2.fs, fun _ => none⟩ = .ok s1 ∧ runLoop (finStep C S X parts (finalShape ds l.length s.shape)) τ s1 = .ok s2 ∧
          ∀ green, ∃ d' a b st, finishGreen C S enc gone X.out s.region tEnd ⟨s2.fs, green⟩ = .ok d' ∧ coordsOf s.region tEnd (finalShape ds l.length s.shape) = .ok (a, b, st) ∧
            ((∀ x ∈ a ++ b ++ st, val (enc x) = x) → ∀ num : RZT Nat, (2 ≤ num.r ∧ 2 ≤ num.z ∧ 2 ≤ num.t) → (num.r < 2 ^ 62 ∧ num.z < 2 ^ 62 ∧ num.t < 2 ^ 62) →
              NoneBetween pts ((dr + ds - 1) / ds - 1) num.r → NoneBetween pts ((dz + ds - 1) / ds - 1) num.z → NoneBetween pts (l.length - 1) num.t →
              ∃ file, exportGreen C S (keys (Real.sqrt 7)) val bits mem num X.out d' = .ok file ∧
                IsNpy file [num.r, num.z, num.t, 2] (fun ind w => ∃ i j k c : Nat, ind = [i, j, k, c] ∧
                  OffCorners ((dz + ds - 1) / ds - 1) (l.length - 1) (i * ((dr + ds - 1) / ds - 1 : Nat) / ((num.r : ℝ) - 1)) (j * ((dz + ds - 1) / ds - 1 : Nat) / ((num.z : ℝ) - 1))
                    (k * (l.length - 1 : Nat) / ((num.t : ℝ) - 1)) ∧
                  w = bits (greenAt ⟨s.region.rMin, s.region.zMin, 0, st.getD 0 0, st.getD 1 0, st.getD 2 0⟩ (keys (Real.sqrt 7)) (meepField val (sampled E l) ds l.length z0 r0 p) c
                    (coordAt s.region.rMin s.region.rMax num.r i) (coordAt s.region.zMin s.region.zMax num.z j) (coordAt 0 tEnd num.t k)))) := by
  classical
  obtain ⟨st1, st2, parts, a1, a2, a3⟩ := C98_export_partial C hC hdims hvd hchunk hj S Z fs hset hs hs1 hs2 hdt hts htE hl E T L ds p procs init proc chunk X hp h hX hpts hr hmany hg enc henc hval hov hb mem
  refine ⟨st1, st2, parts, a1, a2, fun σ τ hσ hτ => ?_⟩
  obtain ⟨s1, s2, b1, b2, b3⟩ := a3 σ τ hσ hτ
  refine ⟨s1, s2, b1, b2, fun green => ?_⟩
  obtain ⟨d', a, b, st, c1, c2, c5⟩ := b3 green
  refine ⟨d', a, b, st, c1, c2, fun hun num h2 hnum br bz bt => ?_⟩
  obtain ⟨hm1, hm2, hm3⟩ := hmany
  have hsf := samples_facts hdt hts htE hl
  have hds := h.dom.pos
  have two : ∀ {m : Nat}, ds < m → 2 ≤ (m + ds - 1) / ds := fun {m} hm => by
    have := (Nat.le_div_iff_mul_le hds (x := 2) (y := m + ds - 1)).2 (by omega)
    exact this
  have hfs : finalShape ds l.length s.shape = [(dr + ds - 1) / ds, (dz + ds - 1) / ds, l.length] := by rw [hs2]; rfl
  obtain ⟨a', b', st', hco, ha, hb', hst3, _, _, _, _, hpos, hends⟩ := C58_coordinates_partial hset hts hds 0 s z0 r0 dz dr hs hs1 hs2 l.length _ _ hfs (two hm1) (two hm2) hm3 hsf.1 hsf.2
  rw [c2] at hco
  have e := Res.ok.inj hco
  simp only [Prod.mk.injEq] at e
  obtain ⟨rfl, rfl, rfl⟩ := e
  subst ha
  subst hb'
  match st, hst3 with
  | [sr, sz, stt], _ =>
    have p0 : 0 < sr := hpos 0 (by decide)
    have p1 : 0 < sz := hpos 1 (by decide)
    have p2 : 0 < stt := hpos 2 (by decide)
    have e0 : s.region.rMin + (((dr + ds - 1) / ds - 1 : Nat) : ℝ) * sr = s.region.rMax := hends 0 (by decide)
    have e1 : s.region.zMin + (((dz + ds - 1) / ds - 1 : Nat) : ℝ) * sz = s.region.zMax := hends 1 (by decide)
    have e2 : (0 : ℝ) + ((l.length - 1 : Nat) : ℝ) * stt = tEnd := hends 2 (by decide)
    have k := h.dom.le
    rw [hs1, hs2] at k
    have k0 := k 0 (Nat.zero_lt_two)
    have k1 := k 1 (Nat.one_lt_two)
    simp only [List.getD_cons_zero, List.getD_cons_succ] at k0 k1
    have i0 := hX.int.1 0 Nat.zero_lt_two
    have i1 := hX.int.1 1 Nat.one_lt_two
    simp only [List.getD_cons_zero, List.getD_cons_succ] at i0 i1
    have i2 := hX.int.2
    have u1 := ceil_small hds (a := dr)
    have u2 := ceil_small hds (a := dz)
    have t1 := two hm1
    have t2 := two hm2
    have div : ∀ {lo hi s : ℝ} {n : Nat}, 0 < n → 0 < s → lo + (n : ℝ) * s = hi → ∀ {pts num : Nat}, n < 2 ^ 31 → 2 ≤ num → NoneBetween pts n num → 0 < pts →
        (hi - lo) / s < 2 ^ 62 ∧ lo < hi ∧ OffFaces pts n num (fun i => (coordAt lo hi num i - lo) / s) ∧ (∀ i < num, Before pts ((coordAt lo hi num i - lo) / s) ((hi - lo) / s)) ∧
        ∀ i, (coordAt lo hi num i - lo) / s = (i : ℝ) * n / ((num : ℝ) - 1) := by
      intro lo hi s n hn hs he pts num hn31 h2 hbt hp
      have he' : hi - lo = s * n := by linarith
      have hn' : (0 : ℝ) < n := Nat.cast_pos.2 hn
      have hlt : lo < hi := by
        have := mul_pos hn' hs
        linarith
      refine ⟨?_, hlt, axis_off' he' hs h2 hbt hn, fun i hi' => axis_before' he' hs h2 hp hbt hn hi', fun i => axis_exact' he' hs h2 i⟩
      rw [he', mul_div_cancel_left₀ _ hs.ne']
      have : ((n : Nat) : ℝ) < ((2 ^ 31 : Nat) : ℝ) := Nat.cast_lt.2 hn31
      push_cast at this
      linarith
    have hpos' : 0 < pts := by
      have := (hX.req 0 (by omega)).1
      rw [hpts] at this
      exact this
    obtain ⟨x1, x2, x3, x4, x5⟩ := div (by omega) p0 e0 (by omega) h2.1 br hpos'
    obtain ⟨y1, y2, y3, y4, y5⟩ := div (by omega) p1 e1 (by omega) h2.2.1 bz hpos'
    obtain ⟨w1, w2, w3, w4, w5⟩ := div (by omega) p2 e2 (by omega) h2.2.2 bt hpos'
    have v : ∀ x ∈ [s.region.rMin, s.region.zMin, 0, s.region.rMax, s.region.zMax, tEnd, sr, sz, stt], val (enc x) = x := fun x hx => hun x (by simpa using hx)
    have hG : (⟨s.region.rMin, s.region.zMin, 0, sr, sz, stt⟩ : GMeta ℝ)
        = gmetaOf val ⟨[s.region.rMin, s.region.zMin, 0].map enc, [s.region.rMax, s.region.zMax, tEnd].map enc, [sr, sz, stt].map enc⟩ := by
      show _ = (⟨val (enc s.region.rMin), val (enc s.region.zMin), val (enc 0), val (enc sr), val (enc sz), val (enc stt)⟩ : GMeta ℝ)
      rw [v s.region.rMin (by simp), v s.region.zMin (by simp), v 0 (by simp), v sr (by simp), v sz (by simp), v stt (by simp)]
    have hcall : CallOk (⟨s.region.rMin, s.region.zMin, 0, sr, sz, stt⟩ : GMeta ℝ) ⟨s.region.rMax, s.region.zMax, tEnd⟩ ⟨s.region.rMin, s.region.zMin, 0⟩ ⟨s.region.rMax, s.region.zMax, tEnd⟩ num :=
      ⟨⟨p0, p1, p2⟩, ⟨le_rfl, le_rfl, le_rfl⟩, ⟨x2, y2, w2⟩, ⟨le_rfl, le_rfl, le_rfl⟩, ⟨x1, y1, w1⟩, h2, hnum⟩
    obtain ⟨file, f1, f2⟩ := c5 _ ⟨s.region.rMin, s.region.zMin, 0⟩ ⟨s.region.rMax, s.region.zMax, tEnd⟩ num hG rfl (by
      show _ = (⟨val (enc s.region.rMax), val (enc s.region.zMax), val (enc tEnd)⟩ : RZT ℝ)
      rw [v s.region.rMax (by simp), v s.region.zMax (by simp), v tEnd (by simp)]) hcall x3 y3 w3
    refine ⟨file, f1, npy_mono f2 ?_⟩
    rintro ind w hv ⟨i, j, k, c, rfl, hoff, rfl⟩
    have hi : i < num.r := hv.2 0 (by show 0 < 4; decide)
    have hj' : j < num.z := hv.2 1 (by show 1 < 4; decide)
    have hk' : k < num.t := hv.2 2 (by show 2 < 4; decide)
    refine ⟨i, j, k, c, rfl, ?_, ?_⟩
    · rw [← x5 i, ← y5 j, ← w5 k] at hoff
      exact hoff
    · rw [if_pos ⟨x4 i hi, y4 j hj', w4 k hk'⟩]
      rfl

/-! ### The hypotheses can be met -/

namespace Ex98
open Ex69

/-- The calculation of `Ex69`, with chunks of five points along each axis. -/
def X5 : Rech := { X with req := [5, 5, 5] }

theorem pipe5 : PipeOk Ex60.cfg 2 [6, 7] pd X5 := by
  have h := pipe
  refine ⟨h.pre, h.post, h.int, rfl, Ex60.lt3 (by simp [X5]) (by simp [X5]) (by simp [X5]), fun sh hl hle => ?_, h.names, h.inj, h.dirs, h.inout, h.jobs, h.rounds, h.guess⟩
  replace hl : sh.length = 3 := hl
  replace hle : ∀ d < 3, sh.getD d 0 ≤ [5, 5, 5].getD d 0 + 4 := hle
  match sh, hl with
  | [a, b, c], _ =>
    have h0 : a ≤ 9 := hle 0 (by decide)
    have h1 : b ≤ 9 := hle 1 (by decide)
    have h2 : c ≤ 9 := hle 2 (by decide)
    have h3 : b * c ≤ 9 * 9 := Nat.mul_le_mul h1 h2
    have h4 : a * (b * c * 2) ≤ 9 * (9 * 9 * 2) := Nat.mul_le_mul h0 (Nat.mul_le_mul_right 2 h3)
    refine ⟨rfl, ?_, ?_, ?_⟩
    · intro x hx
      simp only [List.mem_cons, List.not_mem_nil, or_false] at hx
      omega
    · show volume 2 [a, b, c] < 2 ^ 62
      rw [volume_cons]
      simp only [prod, Nat.mul_one]; omega
    · show numElems [b, c] < 2 ^ 32
      simp only [numElems_eq, prod, Nat.mul_one]; omega

/-- A format with multiples of 1/12. -/
noncomputable def enc (x : ℝ) : Nat := min ⌊12 * x⌋₊ 1000
noncomputable def val (w : Nat) : ℝ := if w = 2 ^ 31 then 0 else w / 12

theorem exact {x : ℝ} {n : Nat} (h : 12 * x = n) (hn : n ≤ 1000) : val (enc x) = x := by
  unfold enc val
  rw [h, Nat.floor_natCast, min_eq_left hn, if_neg (by omega), ← h]
  ring

theorem between {n num : Nat} (hn : 0 < n) (h5 : n < 5) (h2 : 2 ≤ num) : NoneBetween 5 n num := by
  rintro i hi e he ⟨w, rfl⟩ h
  have h1 : i * n ≤ (num - 1) * n := Nat.mul_le_mul_right _ (by omega)
  have h3 : (num - 1) * n < (num - 1) * (5 * w) := Nat.mul_lt_mul_of_pos_left (by omega) (by omega)
  rw [Nat.mul_comm (5 * w)] at h
  omega

/-- Three samples along each axis: those off the axis are in the file. -/
example : ∃ s st1 st2 parts, storageDomain geom request 1 6 7 = .ok s ∧ runLoop (job (outCfg Ex60.cfg) Tree.Ex.S 2 2 [1, 1] 2 [1, 1, 1] ⟨[], []⟩ ⟨[], []⟩) ([P].map fun P => P.job pd) ⟨none, fun _ => none⟩ = .ok st1 ∧
      mergeJobs (outCfg Ex60.cfg) Tree.Ex.S [1, 1, 1] 0 ([P].map fun P => P.out) st1 = .ok st2 ∧
      ∀ σ τ, Schedule 2 parts.length σ → Finish 2 τ →
        ∃ s1 s2, runLoop (procStep Ex60.cfg Tree.Ex.S X5) σ ⟨st2.fs, fun _ => none⟩ = .ok s1 ∧ runLoop (finStep Ex60.cfg Tree.Ex.S X5 parts [5, 4, 2]) τ s1 = .ok s2 ∧
          ∀ green, ∃ d', finishGreen Ex60.cfg Tree.Ex.S enc (fun n => decide (n ≠ 9)) 9 s.region 1 ⟨s2.fs, green⟩ = .ok d' ∧
            ∃ file, exportGreen Ex60.cfg Tree.Ex.S (keys (Real.sqrt 7)) val (fun x => enc x) (fun _ => 77) ⟨3, 3, 3⟩ 9 d' = .ok file ∧
              IsNpy file [3, 3, 3, 2] (fun ind w => ∃ i j k c : Nat, ind = [i, j, k, c] ∧ 0 < i ∧
                w = enc (greenAt ⟨0, 1, 0, 5 / 4, 4 / 3, 1⟩ (keys (Real.sqrt 7)) (meepField val (sampled Ex57.F [0, 1]) 1 2 1 0 pd) c (coordAt 0 5 3 i) (coordAt 1 5 3 j) (coordAt 0 1 3 k))) := by
  obtain ⟨s, h1, h2, h3⟩ := Ex69.stored
  have hreg : s.region.rMin = 0 ∧ s.region.rMax = 5 ∧ s.region.zMin = 1 ∧ s.region.zMax = 5 := by
    obtain ⟨s', k1, z0, r0, dz, dr, k2, k3, _, _, hz, hr⟩ := storage_ok setup
    rw [h1] at k1
    cases k1
    rw [h2] at k2
    rw [h3] at k3
    cases k2
    cases k3
    refine ⟨by rw [hr.lower]; norm_num, by rw [hr.upper]; norm_num, by rw [hz.lower]; norm_num [geom], by rw [hz.upper]; norm_num [geom]⟩
  have henc : ∀ x, enc x < 2 ^ 32 := fun x => lt_of_le_of_lt (min_le_right _ _) (by decide)
  obtain ⟨st1, st2, parts, a1, a2, a3⟩ := C98_whole_partial Ex60.cfg Ex60.cfg_ok rfl rfl rfl (fun _ => (by show 77 < 2 ^ 32; decide)) Tree.Ex.S Tree.Ex.Z (fun _ => none) setup h1 h2 h3 (dt := 1) (ts := 1) (tEnd := 1)
    one_pos one_pos zero_le_one samples Ex57.F 2 2 1 pd [P] [1, 1, 1] ⟨[], []⟩ ⟨[], []⟩ X5 (by rw [h2, h3]; exact padded) (by rw [h2, h3]; exact ok) pipe5 (pts := 5) rfl (.inl rfl) (by decide)
    (gone := fun n => decide (n ≠ 9)) rfl enc henc (val := val) (fun x hx => by
      unfold val
      rcases hx with rfl | rfl
      · simp
      · simp) (Nat.le_refl 2) henc (fun _ => 77)
  refine ⟨s, st1, st2, parts, h1, by rw [h2] at a1; exact a1, a2, fun σ τ hσ hτ => ?_⟩
  obtain ⟨s1, s2, b1, b2, b3⟩ := a3 σ τ hσ hτ
  rw [h3] at b2 b3
  refine ⟨s1, s2, b1, b2, fun green => ?_⟩
  obtain ⟨d', a, b, st, c1, c2, c5⟩ := b3 green
  have hco : coordsOf s.region 1 (finalShape 1 2 [4, 5]) = .ok ([0, 1, 0], [5, 5, 1], [5 / 4, 4 / 3, 1]) := by
    have e : finalShape 1 2 [4, 5] = [5, 4, 2] := by decide
    rw [e]
    unfold coordsOf
    simp only [List.getD_cons_zero, List.getD_cons_succ]
    rw [fdiv_ok (by norm_num), Res.ok_bind, fdiv_ok (by norm_num), Res.ok_bind, fdiv_ok (by norm_num), Res.ok_bind, hreg.1, hreg.2.1, hreg.2.2.1, hreg.2.2.2]
    norm_num
  replace c2 : coordsOf s.region 1 (finalShape 1 2 [4, 5]) = .ok (a, b, st) := c2
  rw [hco] at c2
  cases c2
  obtain ⟨file, f1, f2⟩ := c5 (by
    intro x hx
    simp only [List.cons_append, List.nil_append, List.mem_cons, List.not_mem_nil, or_false] at hx
    rcases hx with rfl | rfl | rfl | rfl | rfl | rfl | rfl | rfl | rfl
    · exact exact (n := 0) (by norm_num) (by decide)
    · exact exact (n := 12) (by norm_num) (by decide)
    · exact exact (n := 0) (by norm_num) (by decide)
    · exact exact (n := 60) (by norm_num) (by decide)
    · exact exact (n := 60) (by norm_num) (by decide)
    · exact exact (n := 12) (by norm_num) (by decide)
    · exact exact (n := 15) (by norm_num) (by decide)
    · exact exact (n := 16) (by norm_num) (by decide)
    · exact exact (n := 12) (by norm_num) (by decide)) ⟨3, 3, 3⟩ (by decide) (by decide) (between (by decide) (by decide) (by decide)) (between (by decide) (by decide) (by decide)) (between (by decide) (by decide) (by decide))
  refine ⟨d', c1, file, f1, npy_mono f2 ?_⟩
  rintro ind w hv ⟨i, j, k, c, rfl, hi, rfl⟩
  refine ⟨i, j, k, c, rfl, .inl ?_, ?_⟩
  · have : (1 : ℝ) ≤ i := by exact_mod_cast hi
    show (1 : ℝ) ≤ i * ((4 : Nat) : ℝ) / (((3 : Nat) : ℝ) - 1)
    norm_num
    linarith
  · rw [hreg.1, hreg.2.1, hreg.2.2.1, hreg.2.2.2]
    rfl

end Ex98

end Verif.Meep
