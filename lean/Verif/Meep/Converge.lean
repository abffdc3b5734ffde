import Verif.Meep.Props69
import Verif.Green.Convolution
/-
C92: the Green's function from a simulation converges to the simulated field when the cells get smaller, but only with first order.
-/
set_option linter.unusedSectionVars false
namespace Verif.Meep
open Verif Verif.ND Verif.Dist Verif.Tree Verif.Ops Verif.Rebuild Verif.Green Verif.NullSup Verif.Bytes Verif.Analytic Set

/-! ### Specification -/

/-- The simulation is right up to `ε`: after `n` steps of the length `dt` the cell `(z, r)` has the field `F` at the place `pos` in the cell (0 is its lower corner, 1/2 its centre). -/
def Simulates (val : Nat → ℝ) (E : Nat → List Nat → List Nat) (F : Nat → ℝ → ℝ → ℝ → ℝ) (g : Geometry ℝ) (res dt pos ε : ℝ) (nz nr : Nat) (l : List Nat) : Prop :=
  ∀ c < 2, ∀ n ∈ l, ∀ z < nz, ∀ r < nr, |val ((E n [z, r]).getD c 0) - F c ((r + pos) / res) (g.zMin + (z + pos) / res) (n * dt)| ≤ ε

/-- In the box, the field changes by at most `Kr`, `Kz`, `Kt` per unit along the axes. -/
def Slope (F : ℝ → ℝ → ℝ → ℝ) (D : Region) (Kr Kz Kt : ℝ) : Prop :=
  ∀ r ∈ Icc D.ra D.rb, ∀ r' ∈ Icc D.ra D.rb, ∀ z ∈ Icc D.za D.zb, ∀ z' ∈ Icc D.za D.zb, ∀ t ∈ Icc D.ta D.tb, ∀ t' ∈ Icc D.ta D.tb, |F r z t - F r' z' t'| ≤ Kr * |r - r'| + Kz * |z - z'| + Kt * |t - t'|

/-- The box `D` contains the geometry until the end of the simulation, and the box `B`. -/
structure Encloses (D : Region) (g : Geometry ℝ) (tMax : ℝ) (B : Region) : Prop where
  r : D.ra ≤ 0 ∧ g.rMax ≤ D.rb ∧ D.ra ≤ B.ra ∧ B.rb ≤ D.rb
  z : D.za ≤ g.zMin ∧ g.zMax ≤ D.zb ∧ D.za ≤ B.za ∧ B.zb ≤ D.zb
  t : D.ta ≤ 0 ∧ tMax ≤ D.tb ∧ D.ta ≤ B.ta ∧ B.tb ≤ D.tb

/-- The coordinates `a + j * st` along the three axes, rounded as in `G`, change by at most `η`; the box `B` is inside of the grid. -/
structure Rounded (G : GMeta ℝ) (a st : List ℝ) (nR nZ N : Nat) (B : Region) (η : ℝ) : Prop where
  pos : 0 < G.dr ∧ 0 < G.dz ∧ 0 < G.dt
  r : ∀ j < nR, |G.r0 + j * G.dr - (a.getD 0 0 + j * st.getD 0 0)| ≤ η
  z : ∀ j < nZ, |G.z0 + j * G.dz - (a.getD 1 0 + j * st.getD 1 0)| ≤ η
  t : ∀ j < N, |G.t0 + j * G.dt - (a.getD 2 0 + j * st.getD 2 0)| ≤ η
  inR : G.r0 ≤ B.ra ∧ B.rb ≤ G.r0 + ((nR : ℝ) - 1) * G.dr
  inZ : G.z0 ≤ B.za ∧ B.zb ≤ G.z0 + ((nZ : ℝ) - 1) * G.dz
  inT : G.t0 ≤ B.ta ∧ B.tb ≤ G.t0 + ((N : ℝ) - 1) * G.dt

/-- A calculation: the request `req` in the geometry `g` of `nz` by `nr` cells of the size `1 / res` leads to the storage domain `s`; the samples `l` are taken with the step `ts` until `tEnd`, in a simulation with
    the step `dt`; the cells are downsampled by `ds`, padded with up to `pad` samples on each side, and recorded with the coordinates `a` to `b` and the steps `st`. -/
structure Recording (g : Geometry ℝ) (req : CylRegion ℝ) (res : ℝ) (nz nr : Nat) (s : Storage ℝ) (z0 r0 dz dr : Nat) (dt ts tEnd : ℝ) (l : List Nat) (ds pad : Nat) (p : Padded) (a b st : List ℝ) : Prop where
  setup : SetupOk g req res nz nr
  storage : storageDomain g req res nz nr = .ok s ∧ s.start = [z0, r0] ∧ s.shape = [dz, dr]
  time : 0 < dt ∧ 0 < ts ∧ 0 ≤ tEnd ∧ Samples dt ts tEnd l
  dom : DomOk 2 [nz, nr] [z0, r0] [dz, dr] ds
  padded : padDomain [nz, nr] [z0, r0] [dz, dr] ds pad = .ok p
  many : ds < dr ∧ ds < dz ∧ 2 ≤ l.length
  coords : coordsOf s.region tEnd (finalShape ds l.length s.shape) = .ok (a, b, st)

/-- The error of the samples, as those of the field at the recorded coordinates: that of the simulation, and that from the shift of the coordinates by up to a cell and a time step. -/
noncomputable def sampleErr (ε Kr Kz Kt η res ts dt : ℝ) (ds : Nat) : ℝ := ε + (Kr * (ds / res + η) + Kz * (ds / res + η) + Kt * (max ts dt + η))

/-! ### Proof -/

theorem samples_times {dt ts tEnd : ℝ} (hdt : 0 < dt) (hts : 0 < ts) (h0 : 0 ≤ tEnd) {l : List Nat} (h : Samples dt ts tEnd l) :
    ∀ k < l.length, (k : ℝ) * ts ≤ (l.getD k 0 : ℝ) * dt ∧ (l.getD k 0 : ℝ) * dt < k * ts + dt := by
  obtain ⟨b, hb⟩ := h
  obtain ⟨l', b', h1, _, _, _, h5⟩ := C58_times hdt hts h0
  have e1 := hb (max b b') (max b b') (le_max_left _ _) (le_max_left _ _)
  have e2 := h1 (max b b') (max b b') (le_max_right _ _) (le_max_right _ _)
  rw [e1] at e2
  cases e2
  exact fun k hk => ⟨(h5 k hk).1, (h5 k hk).2.1⟩

theorem index_in {o s a b : ℝ} {n : Nat} {i : Int} (hs : 0 < s) (h : o ≤ a ∧ b ≤ o + ((n : ℝ) - 1) * s) (hi : o + i * s ∈ Icc a b) : ∃ j : Nat, i = j ∧ j < n := by
  obtain ⟨h1, h2⟩ := h
  obtain ⟨h3, h4⟩ := hi
  have i0 : 0 ≤ i := by
    by_contra hc
    have : (i : ℝ) ≤ -1 := by exact_mod_cast (by omega : i ≤ -1)
    nlinarith
  obtain ⟨j, rfl⟩ := Int.eq_ofNat_of_zero_le i0
  refine ⟨j, rfl, ?_⟩
  by_contra hc
  have h5 : (n : ℝ) ≤ j := by exact_mod_cast (by omega : n ≤ j)
  have h6 : (j : ℝ) * s ≤ ((n : ℝ) - 1) * s := by
    have : ((j : Int) : ℝ) = (j : ℝ) := Int.cast_natCast j
    rw [this] at h4
    linarith
  have := le_of_mul_le_mul_right h6 hs
  linarith

theorem shift_le {x c pos res : ℝ} {ds : Nat} (hres : 0 < res) (hds : 0 < ds) (h0 : 0 ≤ pos) (h1 : pos ≤ 1) (h : x - pos / res ≤ c ∧ c ≤ x + ((ds : ℝ) - pos) / res) : |c - x| ≤ ds / res := by
  have hd : (1 : ℝ) ≤ ds := by exact_mod_cast hds
  have a1 : pos / res ≤ ds / res := div_le_div_of_nonneg_right (h1.trans hd) hres.le
  have a2 : ((ds : ℝ) - pos) / res ≤ ds / res := div_le_div_of_nonneg_right (by linarith) hres.le
  exact abs_le.2 ⟨by linarith, by linarith⟩

/-- The samples are those of the field at the recorded coordinates, up to `sampleErr`. -/
theorem meep_sampled {g : Geometry ℝ} {req : CylRegion ℝ} {res : ℝ} {nz nr : Nat} (hset : SetupOk g req res nz nr) {s : Storage ℝ} {z0 r0 dz dr : Nat} (hs : storageDomain g req res nz nr = .ok s)
    (hs1 : s.start = [z0, r0]) (hs2 : s.shape = [dz, dr]) {dt ts tEnd : ℝ} (hdt : 0 < dt) (hts : 0 < ts) (htE : 0 ≤ tEnd) {l : List Nat} (hl : Samples dt ts tEnd l) {E : Nat → List Nat → List Nat} {ds pad : Nat}
    {p : Padded} (hD : DomOk 2 [nz, nr] [z0, r0] [dz, dr] ds) (hp : padDomain [nz, nr] [z0, r0] [dz, dr] ds pad = .ok p) (hmany : ds < dr ∧ ds < dz ∧ 2 ≤ l.length) {a b st : List ℝ}
    (hco : coordsOf s.region tEnd (finalShape ds l.length s.shape) = .ok (a, b, st)) {G : GMeta ℝ} {B D : Region} {η : ℝ} (hG : Rounded G a st ((dr + ds - 1) / ds) ((dz + ds - 1) / ds) l.length B η)
    {val : Nat → ℝ} {F : Nat → ℝ → ℝ → ℝ → ℝ} {pos ε : ℝ} (hpos : 0 ≤ pos ∧ pos ≤ 1) (hsim : Simulates val E F g res dt pos ε nz nr l) {Kr Kz Kt : ℝ} (hK : 0 ≤ Kr ∧ 0 ≤ Kz ∧ 0 ≤ Kt)
    (hF : ∀ c < 2, Slope (F c) D Kr Kz Kt) (hDB : Encloses D g (tEnd + dt) B) {c : Nat} (hc : c < 2) :
    Sampled G (F c) (meepField val (sampled E l) ds l.length z0 r0 p c) B (sampleErr ε Kr Kz Kt η res ts dt ds) := by
  obtain ⟨hm1, hm2, hm3⟩ := hmany
  have hsf := samples_facts hdt hts htE hl
  have hds := hD.pos
  have hres := hset.pos
  have two : ∀ {m : Nat}, ds < m → 2 ≤ (m + ds - 1) / ds := fun {m} hm => (Nat.le_div_iff_mul_le hds (x := 2) (y := m + ds - 1)).2 (by omega)
  have hfs : finalShape ds l.length s.shape = [(dr + ds - 1) / ds, (dz + ds - 1) / ds, l.length] := by rw [hs2]; rfl
  obtain ⟨a', b', st', hco', ha, _, _, hrR, hrZ, hrT, _, _, _⟩ := C58_coordinates_partial hset hts hds pos s z0 r0 dz dr hs hs1 hs2 l.length _ _ hfs (two hm1) (two hm2) hm3 hsf.1 hsf.2
  rw [hco] at hco'
  cases hco'
  obtain ⟨s', e1, z0', r0', dz', dr', e2, e3, ez, er, _, _⟩ := storage_ok hset
  rw [hs] at e1
  cases e1
  rw [hs1] at e2
  rw [hs2] at e3
  cases e2
  cases e3
  intro i j k hi hj hk
  obtain ⟨i, rfl, hin⟩ := index_in hG.pos.1 hG.inR hi
  obtain ⟨j, rfl, hjn⟩ := index_in hG.pos.2.1 hG.inZ hj
  obtain ⟨k, rfl, hkn⟩ := index_in hG.pos.2.2 hG.inT hk
  simp only [Int.cast_natCast] at hi hj hk ⊢
  -- the indices of the cells
  have cellr : ds * i < dr := by
    obtain ⟨c1, _⟩ := ceil_facts (m := dr) hds (by omega)
    have : ds * i ≤ ds * ((dr + ds - 1) / ds - 1) := Nat.mul_le_mul_left _ (by omega)
    omega
  have cellz : ds * j < dz := by
    obtain ⟨c1, _⟩ := ceil_facts (m := dz) hds (by omega)
    have : ds * j ≤ ds * ((dz + ds - 1) / ds - 1) := Nat.mul_le_mul_left _ (by omega)
    omega
  have hA : meepField val (sampled E l) ds l.length z0 r0 p c i j k = val ((E (l.getD k 0) [z0 + ds * j, r0 + ds * i]).getD c 0) := by
    obtain ⟨r, e, l1, l2, l3, l4, h5, _⟩ := C55_padding hD pad
    rw [hp] at e
    cases e
    obtain ⟨_, _, g1, g2, _⟩ := h5 0 (by decide)
    obtain ⟨_, _, g1', g2', _⟩ := h5 1 (by decide)
    simp only [List.getD_cons_zero, List.getD_cons_succ] at g1 g2 g1' g2'
    have q1 : (r0 + ds * (i : Int) : Int) = ((r0 + ds * i : Nat) : Int) := by push_cast; rfl
    have q2 : (z0 + ds * (j : Int) : Int) = ((z0 + ds * j : Nat) : Int) := by push_cast; rfl
    unfold meepField
    rw [q1, q2, abs_of_nonneg (Int.natCast_nonneg _), if_pos, Int.toNat_natCast, Int.toNat_natCast, Int.toNat_natCast]
    · rfl
    · refine ⟨⟨by omega, by omega⟩, ⟨by omega, by omega⟩, by omega, by omega⟩
  rw [hA]
  have hlk : l.getD k 0 ∈ l := by
    rw [List.getD_eq_getElem?_getD, List.getElem?_eq_getElem hkn]; exact List.getElem_mem hkn
  have hsm := hsim c hc _ hlk (z0 + ds * j) (by omega) (r0 + ds * i) (by omega)
  -- the shifts
  obtain ⟨x, hx⟩ : ∃ x : ℝ, x = (((r0 + ds * i : Nat) : ℝ) + pos) / res := ⟨_, rfl⟩
  obtain ⟨y, hy⟩ : ∃ y : ℝ, y = g.zMin + (((z0 + ds * j : Nat) : ℝ) + pos) / res := ⟨_, rfl⟩
  obtain ⟨t, ht⟩ : ∃ t : ℝ, t = (l.getD k 0 : ℝ) * dt := ⟨_, rfl⟩
  rw [← hx, ← hy, ← ht] at hsm
  have tx := hrR i hin
  have tz := hrZ j hjn
  rw [zero_add, ← hx] at tx
  rw [← hy] at tz
  have dx := shift_le hres hds hpos.1 hpos.2 tx
  have dz' := shift_le hres hds hpos.1 hpos.2 tz
  obtain ⟨t1, t2⟩ := hrT k hkn
  obtain ⟨t3, t4⟩ := samples_times hdt hts htE hl k hkn
  rw [← ht] at t3 t4
  have dt' : |(k : ℝ) * st.getD 2 0 - t| ≤ max ts dt := abs_le.2 ⟨by linarith [le_max_right ts dt], by linarith [le_max_left ts dt]⟩
  have nx := hG.r i hin
  have nz' := hG.z j hjn
  have nt := hG.t k hkn
  rw [ha] at nx nz' nt
  simp only [List.getD_cons_zero, List.getD_cons_succ, zero_add] at nx nz' nt
  have ex : |G.r0 + i * G.dr - x| ≤ ds / res + η := by linarith [abs_sub_le (G.r0 + i * G.dr) (s.region.rMin + i * st.getD 0 0) x]
  have ez' : |G.z0 + j * G.dz - y| ≤ ds / res + η := by linarith [abs_sub_le (G.z0 + j * G.dz) (s.region.zMin + j * st.getD 1 0) y]
  have et : |G.t0 + k * G.dt - t| ≤ max ts dt + η := by linarith [abs_sub_le (G.t0 + k * G.dt) (k * st.getD 2 0) t]
  -- the true positions are in the box
  have cell : ∀ {m q : Nat} {len : ℝ}, (m : ℝ) = len * res → q < m → 0 ≤ ((q : ℝ) + pos) / res ∧ ((q : ℝ) + pos) / res ≤ len := by
    intro m q len hm hq
    have : (q : ℝ) + 1 ≤ m := by exact_mod_cast hq
    have hq0 : (0 : ℝ) ≤ q := Nat.cast_nonneg q
    refine ⟨div_nonneg (by linarith [hpos.1]) hres.le, (div_le_iff₀ hres).2 ?_⟩
    rw [← hm]
    linarith [hpos.2]
  obtain ⟨x0, x1⟩ := cell hset.cells.2 (show r0 + ds * i < nr by omega)
  obtain ⟨y0, y1⟩ := cell hset.cells.1 (show z0 + ds * j < nz by omega)
  have hkN : (k : ℝ) * ts ≤ ((l.length - 1 : Nat) : ℝ) * ts := mul_le_mul_of_nonneg_right (by exact_mod_cast (by omega : k ≤ l.length - 1)) hts.le
  have hk0 : (0 : ℝ) ≤ k * ts := mul_nonneg (Nat.cast_nonneg k) hts.le
  have := hDB.r
  have := hDB.z
  have := hDB.t
  have key := hF c hc x ⟨by rw [hx]; linarith, by rw [hx]; linarith⟩ _ ⟨hDB.r.2.2.1.trans hi.1, hi.2.trans hDB.r.2.2.2⟩ y ⟨by rw [hy]; linarith, by rw [hy]; linarith⟩ _
    ⟨hDB.z.2.2.1.trans hj.1, hj.2.trans hDB.z.2.2.2⟩ t ⟨by linarith, by linarith⟩ _ ⟨hDB.t.2.2.1.trans hk.1, hk.2.trans hDB.t.2.2.2⟩
  rw [abs_sub_comm x, abs_sub_comm y, abs_sub_comm t] at key
  have m1 := mul_le_mul_of_nonneg_left ex hK.1
  have m2 := mul_le_mul_of_nonneg_left ez' hK.2.1
  have m3 := mul_le_mul_of_nonneg_left et hK.2.2
  unfold sampleErr
  linarith [abs_sub_le (val ((E (l.getD k 0) [z0 + ds * j, r0 + ds * i]).getD c 0)) (F c x y t) (F c (G.r0 + i * G.dr) (G.z0 + j * G.dz) (G.t0 + k * G.dt))]

/-! ### The property -/

variable {g : Geometry ℝ} {req : CylRegion ℝ} {res : ℝ} {nz nr : Nat} {s : Storage ℝ} {z0 r0 dz dr : Nat} {dt ts tEnd : ℝ} {l : List Nat} {ds pad : Nat} {p : Padded} {a b st : List ℝ}

/-- **C92.** The field that is interpolated from the recorded samples differs from the simulated one by at most the error of the interpolation (C87), plus that of the simulation and the change of the field over one
    downsampled cell and one time step: this is how far the recorded coordinates can be off. -/
theorem C92_field (R : Recording g req res nz nr s z0 r0 dz dr dt ts tEnd l ds pad p a b st) {G : GMeta ℝ} {B D : Region} {η : ℝ} (hG : Rounded G a st ((dr + ds - 1) / ds) ((dz + ds - 1) / ds) l.length B η)
    {val : Nat → ℝ} {E : Nat → List Nat → List Nat} {F : Nat → ℝ → ℝ → ℝ → ℝ} {pos ε : ℝ} (hpos : 0 ≤ pos ∧ pos ≤ 1) (hsim : Simulates val E F g res dt pos ε nz nr l) {Kr Kz Kt : ℝ} (hK : 0 ≤ Kr ∧ 0 ≤ Kz ∧ 0 ≤ Kt)
    (hF : ∀ c < 2, Slope (F c) D Kr Kz Kt) (hDB : Encloses D g (tEnd + dt) B) {kn : Kern ℝ} {d : Nat} {e N : ℝ} (h : Accuracy kn d e N) {Mr Mz Mt : ℝ} {c : Nat} (hc : c < 2) (hS : SmoothField d (F c) B Mr Mz Mt)
    (r z t : ℝ) (hB : Around G kn.support B r z t) :
    |greenAt G kn (meepField val (sampled E l) ds l.length z0 r0 p) c r z t - F c r z t| ≤ interpErr G d e N Mr Mz Mt (sampleErr ε Kr Kz Kt η res ts dt ds) :=
  C87_interpolation h G hG.pos (F c) _ c B
    (meep_sampled R.setup R.storage.1 R.storage.2.1 R.storage.2.2 R.time.1 R.time.2.1 R.time.2.2.1 R.time.2.2.2 R.dom R.padded R.many R.coords hG hpos hsim hK hF hDB hc) hS r z t hB

/-- **C92.** Convergence: there is a constant, which depends only on the kernel and on the derivatives of the field, such that in every calculation in which cells, time steps and rounding of the coordinates are at most
    `h`, the interpolated field differs from the simulated one by at most this constant times `h`, plus a multiple of the error of the simulation. -/
theorem C92_converges {kn : Kern ℝ} {e N : ℝ} (h1 : Accuracy kn 1 e N) (K : ℝ) (hK : 0 ≤ K) : ∃ M, 0 ≤ M ∧ ∀ {g : Geometry ℝ} {req : CylRegion ℝ} {res : ℝ} {nz nr : Nat} {s : Storage ℝ} {z0 r0 dz dr : Nat}
      {dt ts tEnd : ℝ} {l : List Nat} {ds pad : Nat} {p : Padded} {a b st : List ℝ}, Recording g req res nz nr s z0 r0 dz dr dt ts tEnd l ds pad p a b st →
      ∀ {G : GMeta ℝ} {B D : Region} {η : ℝ}, Rounded G a st ((dr + ds - 1) / ds) ((dz + ds - 1) / ds) l.length B η →
      ∀ {val : Nat → ℝ} {E : Nat → List Nat → List Nat} {F : Nat → ℝ → ℝ → ℝ → ℝ} {pos ε : ℝ}, 0 ≤ pos ∧ pos ≤ 1 → Simulates val E F g res dt pos ε nz nr l → (∀ c < 2, Slope (F c) D K K K) →
      Encloses D g (tEnd + dt) B → (∀ c < 2, SmoothField 1 (F c) B K K K) → ∀ {h : ℝ}, ds / res ≤ h ∧ ts ≤ h ∧ dt ≤ h ∧ η ≤ h ∧ G.dr ≤ h ∧ G.dz ≤ h ∧ G.dt ≤ h →
      ∀ c < 2, ∀ r z t, Around G kn.support B r z t → |greenAt G kn (meepField val (sampled E l) ds l.length z0 r0 p) c r z t - F c r z t| ≤ M * h + N ^ 3 * ε := by
  obtain ⟨he, hN, _⟩ := h1.pos
  have hN0 : 0 ≤ N := zero_le_one.trans hN
  refine ⟨e * (K + N * K + N ^ 2 * K) + N ^ 3 * (6 * K), by positivity, ?_⟩
  intro g req res nz nr s z0 r0 dz dr dt ts tEnd l ds pad p a b st R G B D η hG val E F pos ε hpos hsim hF hDB hS h hh c hc r z t hA
  obtain ⟨b1, b2, b3, b4, b5, b6, b7⟩ := hh
  refine (C92_field R hG hpos hsim ⟨hK, hK, hK⟩ hF hDB h1 hc (hS c hc) r z t hA).trans ?_
  unfold interpErr sampleErr
  simp only [pow_one]
  have m1 : K * G.dr ≤ K * h := mul_le_mul_of_nonneg_left b5 hK
  have m2 : N * K * G.dz ≤ N * K * h := mul_le_mul_of_nonneg_left b6 (mul_nonneg hN0 hK)
  have m3 : N ^ 2 * K * G.dt ≤ N ^ 2 * K * h := mul_le_mul_of_nonneg_left b7 (mul_nonneg (pow_nonneg hN0 2) hK)
  have q1 : K * ((ds : ℝ) / res + η) ≤ K * (h + h) := mul_le_mul_of_nonneg_left (add_le_add b1 b4) hK
  have q2 : K * (max ts dt + η) ≤ K * (h + h) := mul_le_mul_of_nonneg_left (add_le_add (max_le b2 b3) b4) hK
  have w1 := mul_le_mul_of_nonneg_left (add_le_add (add_le_add m1 m2) m3) he
  have w2 := mul_le_mul_of_nonneg_left (show ε + (K * ((ds : ℝ) / res + η) + K * ((ds : ℝ) / res + η) + K * (max ts dt + η)) ≤ ε + 6 * K * h by linarith) (pow_nonneg hN0 3)
  linarith

/-- **C92**, the limit: first order is all there is, with every kernel. If the simulated field is the distance from the axis (and all roundings are exact), then in every calculation the Green's function is wrong by at
    least half a cell at the first or at the last radial grid point, at all heights and times. -/
theorem C92_not_better (R : Recording g req res nz nr s z0 r0 dz dr dt ts tEnd l ds pad p a b st) {val : Nat → ℝ} {E : Nat → List Nat → List Nat} {pos : ℝ}
    (hE : ∀ n ∈ l, ∀ z < nz, ∀ r < nr, val ((E n [z, r]).getD 0 0) = (r + pos) / res) {G : GMeta ℝ} (hG : G = ⟨a.getD 0 0, a.getD 1 0, a.getD 2 0, st.getD 0 0, st.getD 1 0, st.getD 2 0⟩) {kn : Kern ℝ}
    (hk : IsKernel kn) : ∃ i < (dr + ds - 1) / ds, ∀ j < (dz + ds - 1) / ds, ∀ k < l.length,
      1 / (2 * res) ≤ |greenAt G kn (meepField val (sampled E l) ds l.length z0 r0 p) 0 (G.r0 + i * G.dr) (G.z0 + j * G.dz) (G.t0 + k * G.dt) - (G.r0 + i * G.dr)| := by
  obtain ⟨hm1, hm2, hm3⟩ := R.many
  obtain ⟨hdt, hts, htE, hl⟩ := R.time
  obtain ⟨hs, hs1, hs2⟩ := R.storage
  have hsf := samples_facts hdt hts htE hl
  have hds := R.dom.pos
  have hres := R.setup.pos
  have two : ∀ {m : Nat}, ds < m → 2 ≤ (m + ds - 1) / ds := fun {m} hm => (Nat.le_div_iff_mul_le hds (x := 2) (y := m + ds - 1)).2 (by omega)
  have hfs : finalShape ds l.length s.shape = [(dr + ds - 1) / ds, (dz + ds - 1) / ds, l.length] := by rw [hs2]; rfl
  obtain ⟨a', b', st', hco', ha, hb, _, _, _, _, _, hst, hend⟩ := C58_coordinates_partial R.setup hts hds pos s z0 r0 dz dr hs hs1 hs2 l.length _ _ hfs (two hm1) (two hm2) hm3 hsf.1 hsf.2
  rw [R.coords] at hco'
  cases hco'
  obtain ⟨s', e1, z0', r0', dz', dr', e2, e3, ez, er, _, hax⟩ := storage_ok R.setup
  rw [hs] at e1
  cases e1
  rw [hs1] at e2
  rw [hs2] at e3
  cases e2
  cases e3
  have hGpos : 0 < G.dr ∧ 0 < G.dz ∧ 0 < G.dt := by rw [hG]; exact ⟨hst 0 (by decide), hst 1 (by decide), hst 2 (by decide)⟩
  have hr0 : G.r0 = (r0 : ℝ) / res := by rw [hG, ha]; show s.region.rMin = _; rw [hax.lower, zero_add]
  have hlast : G.r0 + (((dr + ds - 1) / ds - 1 : Nat) : ℝ) * G.dr = ((r0 : ℝ) + dr) / res := by
    have := hend 0 (by decide)
    rw [hb] at this
    simp only [List.getD_cons_zero] at this
    rw [hax.upper, zero_add] at this
    rw [hG]
    push_cast at this ⊢
    exact this
  obtain ⟨c1, _⟩ := ceil_facts (m := dr) hds (by omega)
  obtain ⟨cz, _⟩ := ceil_facts (m := dz) hds (by omega)
  have value : ∀ {i j k : Nat}, ds * i < dr → j < (dz + ds - 1) / ds → k < l.length →
      greenAt G kn (meepField val (sampled E l) ds l.length z0 r0 p) 0 (G.r0 + i * G.dr) (G.z0 + j * G.dz) (G.t0 + k * G.dt) = ((r0 : ℝ) + ds * i + pos) / res := by
    intro i j k hi hj hkl
    have hjz : ds * j < dz := by
      have : ds * j ≤ ds * ((dz + ds - 1) / ds - 1) := Nat.mul_le_mul_left _ (by omega)
      omega
    rw [C69_grid_point R.dom R.padded E l val G hGpos hk 0 hi hjz hkl, hE _ (by
      rw [List.getD_eq_getElem?_getD, List.getElem?_eq_getElem hkl]; exact List.getElem_mem hkl) _ (by omega) _ (by omega)]
    push_cast
    rfl
  have half : 1 / (2 * res) = 1 / 2 / res := by rw [div_div]
  rw [half]
  by_cases hp : 1 / 2 ≤ pos
  · refine ⟨0, by have := two hm1; omega, fun j hj k hkl => ?_⟩
    rw [value (by omega) hj hkl, hr0]
    have : ((r0 : ℝ) + ds * (0 : Nat) + pos) / res - (r0 / res + (0 : Nat) * G.dr) = pos / res := by push_cast; ring
    rw [this]
    exact (div_le_div_of_nonneg_right hp hres.le).trans (le_abs_self _)
  · refine ⟨(dr + ds - 1) / ds - 1, by have := two hm1; omega, fun j hj k hkl => ?_⟩
    rw [value c1 hj hkl, hlast, abs_sub_comm, ← sub_div]
    have : (ds : ℝ) * (((dr + ds - 1) / ds - 1 : Nat) : ℝ) + 1 ≤ dr := by exact_mod_cast c1
    refine le_trans (div_le_div_of_nonneg_right ?_ hres.le) (le_abs_self _)
    linarith [not_le.1 hp]

/-- **C92**, end to end. Under the conditions of C69, for a simulation that is right up to `ε`: each output sample after the end of a track is the one before, minus the weight times the integral of the simulated field
    along the track; the error is at most that of the interpolation, of the samples (`sampleErr`), and of the trapezoidal rule. -/
theorem C92_signal (C : Cfg) (hC : C.Ok) (hdims : C.dims = 3) (hvd : C.vd = 2) (hchunk : C.chunk = (outCfg C).chunk) (hj : ∀ k, C.junk k < 2 ^ 32) (S : Sorter) (Z : SlabSize) (fs : FS)
    (hset : SetupOk g req res nz nr) (hs : storageDomain g req res nz nr = .ok s) (hs1 : s.start = [z0, r0]) (hs2 : s.shape = [dz, dr]) (hdt : 0 < dt) (hts : 0 < ts) (htE : 0 ≤ tEnd) (hl : Samples dt ts tEnd l)
    (E : Nat → List Nat → List Nat) (T L : Nat) (procs : List Proc) (init : List Nat) (proc chunk : Arr) (X : Rech) (hp : padDomain [nz, nr] s.start s.shape ds X.overlap = .ok p)
    (h : CalcOk (outCfg C) T L ds l.length [nz, nr] s.start s.shape p (sampled E l) X.indir fs procs) (hX : PipeOk C l.length [nz, nr] p X) {pts : Nat} (hpts : X.req = List.replicate 3 pts)
    (hr : r0 % ds = 0 ∨ X.overlap * ds ≤ r0) (hmany : ds < dr ∧ ds < dz ∧ 2 ≤ l.length) {gone : Nat → Bool} (hg : gone X.out = false) (enc : ℝ → Nat) (henc : ∀ x, enc x < 2 ^ 32) {val : Nat → ℝ}
    (hval : ∀ x, FloatIsZero x → val x = 0) (hstep : 0 < val (enc (tEnd / ((l.length : ℝ) - 1))))
    {F : Nat → ℝ → ℝ → ℝ → ℝ} {pos ε : ℝ} (hpos : 0 ≤ pos ∧ pos ≤ 1) (hε : 0 ≤ ε) (hsim : Simulates val E F g res dt pos ε nz nr l) {B D : Region} {Kr Kz Kt η : ℝ} (hK : 0 ≤ Kr ∧ 0 ≤ Kz ∧ 0 ≤ Kt) (hη : 0 ≤ η)
    (hF : ∀ c < 2, Slope (F c) D Kr Kz Kt) (hDB : Encloses D g (tEnd + dt) B) {kn : Kern ℝ} (hk : IsKernel kn) (hsup : kn.support ≤ X.overlap) {d : Nat} {e N : ℝ} (hacc : Accuracy kn d e N) {M : ℝ} (hM : 0 ≤ M)
    (hS : ∀ c < 2, SmoothField d (F c) B M M M) :
    ∃ st1 st2 parts, runLoop (job (outCfg C) S T L (s.start.map fun _ => ds) l.length init proc chunk) (procs.map fun P => P.job p) ⟨none, fs⟩ = .ok st1 ∧
      mergeJobs (outCfg C) S init X.indir (procs.map fun P => P.out) st1 = .ok st2 ∧
      ∀ σ τ, Schedule X.jobs parts.length σ → Finish X.jobs τ →
        ∃ s1 s2, runLoop (procStep C S X) σ ⟨st2.fs, fun _ => none⟩ = .ok s1 ∧ runLoop (finStep C S X parts (finalShape ds l.length s.shape)) τ s1 = .ok s2 ∧
          ∀ green, ∃ d' a b st, finishGreen C S enc gone X.out s.region tEnd ⟨s2.fs, green⟩ = .ok d' ∧ coordsOf s.region tEnd (finalShape ds l.length s.shape) = .ok (a, b, st) ∧
            ∀ cache, ∃ (lib : Lib) (gm : GFMeta) (I : Lib × FS → Prop), load C S X.out cache d' = .ok (lib, gm) ∧ gm = ⟨a.map enc, b.map enc, st.map enc⟩ ∧ I (lib, d'.fs) ∧
              ∀ G, G = gmetaOf val gm → Rounded G a st ((dr + ds - 1) / ds) ((dz + ds - 1) / ds) l.length B η →
              ∀ (q : Lib × FS), I q → ∀ (grow : ℝ → ℝ), grow 0 = 0 → ∀ (mem : Nat → Nat → Nat → ℝ) (wmem : Nat → ℝ) (maxI maxS : Nat), 0 < maxI ∧ maxI < 2 ^ 62 → 0 < maxS ∧ maxS < 2 ^ 62 →
              ∀ (seg : Segment ℝ) (tsig tsamp : ℝ) (n : Nat) (out : List ℝ) (oob : OOB) (weight : ℝ), n ≤ out.length →
                SignalOk G kn (meepField val (sampled E l) ds l.length z0 r0 p) ⟨(dr + ds - 1) / ds - 1, (dz + ds - 1) / ds - 1, l.length - 1, pts, X.overlap, true⟩ seg tsig tsamp n oob →
                ∃ q' out', apply (libOf (readerCfg C cache) val) G kn grow mem wmem maxI maxS seg tsig tsamp n out oob weight q = .ok (q', out') ∧ I q' ∧ out'.length = out.length ∧
                  (∀ k, n ≤ k → out'.getD k 0 = out.getD k 0) ∧
                  ∀ k < n, TrackCovered G kn ⟨(dr + ds - 1) / ds - 1, (dz + ds - 1) / ds - 1, l.length - 1, pts, X.overlap, true⟩ B seg (tsig + k * tsamp) → seg.t1 ≤ tsig + k * tsamp →
                    ∀ M2 : ℝ, BoundedDeriv 2 (induced F seg (tsig + k * tsamp)) seg.t0 seg.t1 M2 →
                    |out'.getD k 0 - (out.getD k 0 - weight * ∫ t in seg.t0..seg.t1, induced F seg (tsig + k * tsamp) t)| ≤
                      |weight| * (fieldError seg (interpErr G d e N M M M (sampleErr ε Kr Kz Kt η res ts dt ds)) (interpErr G d e N M M M (sampleErr ε Kr Kz Kt η res ts dt ds)) +
                        ((seg.t1 - seg.t0) / intervals seg) ^ 2 / 12 * (M2 * (seg.t1 - seg.t0))) := by
  obtain ⟨st1, st2, parts, a1, a2, a3⟩ := C69_meep_signal_partial C hC hdims hvd hchunk hj S Z fs hset hs hs1 hs2 hdt hts htE hl E T L ds p procs init proc chunk X hp h hX hpts hr hmany hg enc henc hval hstep
  refine ⟨st1, st2, parts, a1, a2, fun σ τ hσ hτ => ?_⟩
  obtain ⟨s1, s2, b1, b2, b3⟩ := a3 σ τ hσ hτ
  refine ⟨s1, s2, b1, b2, fun green => ?_⟩
  obtain ⟨d', a, b, st, c1, c2, _, _, c5⟩ := b3 green
  refine ⟨d', a, b, st, c1, c2, fun cache => ?_⟩
  obtain ⟨lib, gm, I, f1, f2, f3, f4⟩ := c5 cache
  refine ⟨lib, gm, I, f1, f2, f3, fun G hGm hG q hq grow hgr mem wmem maxI maxS hI hS' seg tsig tsamp n out oob weight hn hok => ?_⟩
  have hA := f4 kn hk hsup
  rw [← hGm] at hA
  have hdom := h.dom
  rw [hs1, hs2] at hdom hp
  have hres := hset.pos
  exact C88_smooth hA hacc hG.pos (Mr := fun _ => M) (Mz := fun _ => M) (Mt := fun _ => M)
    ⟨fun c hc => meep_sampled hset hs hs1 hs2 hdt hts htE hl hdom hp hmany c2 hG hpos hsim hK hF hDB hc, hS, by
      unfold sampleErr
      have : 0 ≤ (ds : ℝ) / res + η := by positivity
      have : 0 ≤ max ts dt + η := add_nonneg (le_max_of_le_left hts.le) hη
      obtain ⟨k1, k2, k3⟩ := hK
      positivity, fun _ _ => ⟨hM, hM, hM⟩⟩ hgr mem wmem hI hS' hn weight hok hq

end Verif.Meep
