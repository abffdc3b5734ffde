import Verif.Green.Props42
import Verif.Green.Request
import Verif.Green.Loaded
import Verif.Array.Numpy
/-
The program examples/plot_greens_function/export_greens_function.cxx: a stored Green's function is resampled over its whole domain and written as a NumPy file.
-/
set_option linter.unusedSectionVars false
namespace Verif.Green
open Verif Verif.ND Verif.Dist Verif.Tree Verif.Bytes Verif.NullSup

section
variable {K : Type} [Field K] [LinearOrder K] [IsStrictOrderedRing K] [FloorRing K]

/-! ### The program -/

/-- GreensFunction.hxx 86-88 `start_coords`. -/
def startOf (val : Nat → K) (gm : GFMeta) : RZT K := ⟨val (gm.start_pos.getD 0 0), val (gm.start_pos.getD 1 0), val (gm.start_pos.getD 2 0)⟩

/-- GreensFunction.hxx 90-92 `end_coords`. -/
def endOf (val : Nat → K) (gm : GFMeta) : RZT K := ⟨val (gm.end_pos.getD 0 0), val (gm.end_pos.getD 1 0), val (gm.end_pos.getD 2 0)⟩

/-- export_greens_function.cxx 14-46: open the Green's function with a cache of five chunks, fill an array (made with 10 x 10 x 10 elements, `mem` is its uninitialised memory) with samples of the whole domain, with
    the cubic kernel, and write it. `val` gives the number that belongs to 32 bits, `bits` the 32 bits of a number. The number of samples `num` is 1000 along every axis in the program. Not modelled: the output on the
    screen, errors of the output stream, and the destructor of the Green's function, which runs after the file has been written. -/
def exportGreen (C : Cfg) (S : Sorter) (kn : Kern K) (val : Nat → K) (bits : K → Nat) (mem : Nat → K) (num : RZT Nat) (dir : Nat) (d : Disk) : Res (List Nat) :=
  (load C S dir 5 d).bind fun q =>
  (fillArray (rangeLibOf (readerCfg C 5) val) (gmetaOf val q.2) (endOf val q.2) kn (startOf val q.2) (endOf val q.2) num (mkHdr 2 [10, 10, 10]) ((List.range (volume 2 [10, 10, 10])).map mem) mem (q.1, d.fs)).bind
    fun r => toNumpy C.hst 2 r.2.1 (r.2.2.map bits)

end

/-! ### Specification -/

/-- Along an axis with the grid points `0, ..., n` and chunks of `pts` points, the `num` positions are in the cells of the grid points, and none of them is exactly between two chunks. -/
def OffFaces (pts n num : Nat) (pos : Nat → ℝ) : Prop := ∀ i < num, 0 ≤ pos i ∧ pos i < n + 1 ∧ ∀ e : Nat, 0 < e → pts ∣ e → pos i ≠ e

/-- Along this axis the chunk with the position `x` begins before the grid cell with the position `last`. -/
def Before (pts : Nat) (x last : ℝ) : Prop := ⌊x⌋ / (pts : Int) * pts < ⌊last⌋

/-! ### Proof -/

variable {g : Grid} {ms : List Meta}

theorem OffFaces.strict {pts n num : Nat} {pos : Nat → ℝ} (h : OffFaces pts n num pos) {i : Nat} (hi : i < num) {s e : Nat} (he : 0 < e) (hE : e = n + 1 ∨ pts ∣ e) (hc : (s : ℝ) ≤ pos i ∧ pos i ≤ (e : ℝ)) :
    (s ≤ ⌊pos i⌋.toNat ∧ ⌊pos i⌋.toNat < e) ∧ pos i ≠ e := by
  obtain ⟨h0, h1, h2⟩ := h i hi
  have hne : pos i ≠ e := by
    rcases hE with rfl | hE
    · push_cast; exact h1.ne
    · exact h2 e he hE
  have f0 := Int.floor_nonneg.2 h0
  have a : (s : Int) ≤ ⌊pos i⌋ := Int.le_floor.2 (by exact_mod_cast hc.1)
  have b : ⌊pos i⌋ < (e : Int) := Int.floor_lt.2 (by exact_mod_cast lt_of_le_of_ne hc.2 hne)
  exact ⟨⟨by omega, by omega⟩, hne⟩

open Classical in
/-- Resampling a Green's function on a grid, if no sample is exactly between two chunks. -/
theorem resample_grid {σ : Type} {L : RangeLibrary σ ℝ} {I : σ → Prop} {A : Nat → Int → Int → Int → ℝ} {Q : Int → Int → Int → Prop} (hc : Chunks g ms) (hL : Serves L.toLibrary I ms A Q) (hS : Searches L I ms)
    {kn : Kern ℝ} (hk : kn.Usable) (hov : kn.support ≤ g.overlap) {G : GMeta ℝ} {gend start stop : RZT ℝ} {num : RZT Nat} (hcall : CallOk G gend start stop num)
    (hr : OffFaces g.pts g.nr num.r fun i => G.x (coordAt start.r stop.r num.r i)) (hz : OffFaces g.pts g.nz num.z fun i => G.y (coordAt start.z stop.z num.z i))
    (ht : OffFaces g.pts g.nt num.t fun i => G.t (coordAt start.t stop.t num.t i))
    {ha : Hdr} (hown : ha.owns = true) (arr : List ℝ) (junk : Nat → ℝ) {st : σ} (hI : I st) :
    ∃ st' buf, fillArray L G gend kn start stop num ha arr junk st = .ok (st', mkHdr 2 [num.r, num.z, num.t], buf) ∧ I st' ∧ buf.length = volume 2 [num.r, num.z, num.t] ∧
      ∀ i j k c, i < num.r → j < num.z → k < num.t → c < 2 →
        StencilIn kn Q (G.x (coordAt start.r stop.r num.r i)) (G.y (coordAt start.z stop.z num.z j)) (G.t (coordAt start.t stop.t num.t k)) →
        component 2 (mkHdr 2 [num.r, num.z, num.t]) buf c i j k =
          if Before g.pts (G.x (coordAt start.r stop.r num.r i)) (G.x stop.r) ∧ Before g.pts (G.y (coordAt start.z stop.z num.z j)) (G.y stop.z) ∧
            Before g.pts (G.t (coordAt start.t stop.t num.t k)) (G.t stop.t)
          then greenAt G kn A c (coordAt start.r stop.r num.r i) (coordAt start.z stop.z num.z j) (coordAt start.t stop.t num.t k) else 0 := by
  have ends : ∀ m ∈ ms, ∀ d < 3, 0 < m.stop.getD d 0 := fun m hm d hd => by have := (hc.ends m hm d hd).1; omega
  have str : ∀ m ∈ ms, ∀ i j k, i < num.r → j < num.z → k < num.t → Covers G m (coordAt start.r stop.r num.r i) (coordAt start.z stop.z num.z j) (coordAt start.t stop.t num.t k) →
      ((m.start.getD 0 0 ≤ ⌊G.x (coordAt start.r stop.r num.r i)⌋.toNat ∧ ⌊G.x (coordAt start.r stop.r num.r i)⌋.toNat < m.stop.getD 0 0) ∧ G.x (coordAt start.r stop.r num.r i) ≠ (m.stop.getD 0 0 : Nat)) ∧
      ((m.start.getD 1 0 ≤ ⌊G.y (coordAt start.z stop.z num.z j)⌋.toNat ∧ ⌊G.y (coordAt start.z stop.z num.z j)⌋.toNat < m.stop.getD 1 0) ∧ G.y (coordAt start.z stop.z num.z j) ≠ (m.stop.getD 1 0 : Nat)) ∧
      ((m.start.getD 2 0 ≤ ⌊G.t (coordAt start.t stop.t num.t k)⌋.toNat ∧ ⌊G.t (coordAt start.t stop.t num.t k)⌋.toNat < m.stop.getD 2 0) ∧ G.t (coordAt start.t stop.t num.t k) ≠ (m.stop.getD 2 0 : Nat)) := by
    intro m hm i j k hi hj hk' hcov
    exact ⟨hr.strict hi (ends m hm 0 (by decide)) (hc.ends m hm 0 (by decide)).2.2 hcov.1, hz.strict hj (ends m hm 1 (by decide)) (hc.ends m hm 1 (by decide)).2.2 hcov.2.1,
      ht.strict hk' (ends m hm 2 (by decide)) (hc.ends m hm 2 (by decide)).2.2 hcov.2.2⟩
  have pad : ∀ m ∈ ms, ∀ i j k, i < num.r → j < num.z → k < num.t → Covers G m (coordAt start.r stop.r num.r i) (coordAt start.z stop.z num.z j) (coordAt start.t stop.t num.t k) →
      Padded G kn m (coordAt start.r stop.r num.r i) (coordAt start.z stop.z num.z j) (coordAt start.t stop.t num.t k) := by
    intro m hm i j k hi hj hk' hcov
    obtain ⟨s1, s2, s3⟩ := str m hm i j k hi hj hk' hcov
    refine ⟨by rw [hc.overlap m hm]; exact hov, fun h => ?_⟩
    rcases h with h | h | h
    · exact absurd h s1.2
    · exact absurd h s2.2
    · exact absurd h s3.2
  -- the chunk with the cell of a sample begins where it should
  have begins : ∀ m ∈ ms, ∀ {d : Nat}, d < 3 → ∀ {x last : ℝ}, 0 ≤ x → m.start.getD d 0 ≤ ⌊x⌋.toNat → ⌊x⌋.toNat < m.stop.getD d 0 → (Before g.pts x last ↔ (m.start.getD d 0 : Int) < ⌊last⌋) := by
    intro m hm d hd x last hx h1 h2
    have q := (hc.quot hm hd ⟨h1, h2⟩).1
    have f0 := Int.floor_nonneg.2 hx
    have e : (m.start.getD d 0 : Int) = ⌊x⌋ / (g.pts : Int) * g.pts := by
      rw [q]
      push_cast
      rw [Int.toNat_of_nonneg f0]
    unfold Before
    rw [e]
  obtain ⟨st', buf, h1, h2, h2', h3⟩ := fillArray_covered hL hS hk hcall (fun m hm _ _ i j k hi hj hk' hcov => pad m hm i j k hi hj hk' hcov) hown arr junk hI
  obtain ⟨st'', buf', h1', _, _, h3'⟩ := fillArray_ok hL hS hk hcall (fun m hm _ _ i j k hi hj hk' hcov => pad m hm i j k hi hj hk' hcov) hown arr junk hI
  have hb : buf' = buf := by
    rw [h1] at h1'
    have := congrArg (fun z : σ × Hdr × List ℝ => z.2.2) (Res.ok.inj h1')
    exact this.symm
  subst hb
  refine ⟨st', buf', h1, h2, h2', fun i j k c hi hj hk' hc' hQ => ?_⟩
  have x0 := (hr i hi).1
  have y0 := (hz j hj).1
  have t0 := (ht k hk').1
  by_cases hB : Before g.pts (G.x (coordAt start.r stop.r num.r i)) (G.x stop.r) ∧ Before g.pts (G.y (coordAt start.z stop.z num.z j)) (G.y stop.z) ∧
            Before g.pts (G.t (coordAt start.t stop.t num.t k)) (G.t stop.t)
  · rw [if_pos hB]
    obtain ⟨m, hm, hin⟩ := (hc.grid x0 y0 t0).2 ⟨⟨x0, (hr i hi).2.1⟩, ⟨y0, (hz j hj).2.1⟩, t0, (ht k hk').2.1⟩
    obtain ⟨l1, l2, l3⟩ := hin
    have q0 := l3 0 (by show _ < 3; decide)
    have q1 := l3 1 (by show _ < 3; decide)
    have q2 := l3 2 (by show _ < 3; decide)
    simp only [cell, List.getD_cons_zero, List.getD_cons_succ] at q0 q1 q2
    have cov : Covers G m (coordAt start.r stop.r num.r i) (coordAt start.z stop.z num.z j) (coordAt start.t stop.t num.t k) := by
      have cv : ∀ {u : ℝ} {a b : Nat}, 0 ≤ u → a ≤ ⌊u⌋.toNat ∧ ⌊u⌋.toNat < b → (a : ℝ) ≤ u ∧ u ≤ (b : ℝ) := fun {u a b} hu h => by
        have f0 := Int.floor_nonneg.2 hu
        have w1 : (a : Int) ≤ ⌊u⌋ := by omega
        have w2 : ⌊u⌋ < (b : Int) := by omega
        have := Int.le_floor.1 w1
        have := Int.floor_lt.1 w2
        exact ⟨by exact_mod_cast Int.le_floor.1 w1, le_of_lt (by exact_mod_cast Int.floor_lt.1 w2)⟩
      exact ⟨cv x0 q0, cv y0 q1, cv t0 q2⟩
    refine h3 i j k c hi hj hk' hc' hQ ⟨m, hm, ?_, cov, pad m hm i j k hi hj hk' cov⟩
    have lo : ∀ {u v w : ℝ} {b : Nat}, 0 ≤ v → u ≤ v → ⌊v⌋.toNat < b → ⌊u⌋ < (b : Int) := fun {u v w b} hv huv h => by
      have f0 := Int.floor_nonneg.2 hv
      have := Int.floor_mono huv
      omega
    have hR := hcall.range
    have px : G.x start.r ≤ G.x (coordAt start.r stop.r num.r i) := by
      rw [← hcall.posR]; exact hR.r.pos_ge i
    have py : G.y start.z ≤ G.y (coordAt start.z stop.z num.z j) := by
      rw [← hcall.posZ]; exact hR.z.pos_ge j
    have pt : G.t start.t ≤ G.t (coordAt start.t stop.t num.t k) := by
      rw [← hcall.posT]; exact hR.t.pos_ge k
    exact ⟨⟨lo (w := 0) x0 px q0.2, (begins m hm (by decide) x0 q0.1 q0.2).1 hB.1⟩, ⟨lo (w := 0) y0 py q1.2, (begins m hm (by decide) y0 q1.1 q1.2).1 hB.2.1⟩,
      lo (w := 0) t0 pt q2.2, (begins m hm (by decide) t0 q2.1 q2.2).1 hB.2.2⟩
  · rw [if_neg hB, h3' i j k c hi hj hk' hc' hQ, if_neg]
    rintro ⟨m, hm, _, hse, hcov⟩
    obtain ⟨s1, s2, s3⟩ := str m hm i j k hi hj hk' hcov
    exact hB ⟨(begins m hm (by decide) x0 s1.1.1 s1.1.2).2 hse.1.2, (begins m hm (by decide) y0 s2.1.1 s2.1.2).2 hse.2.1.2, (begins m hm (by decide) t0 s3.1.1 s3.1.2).2 hse.2.2.2⟩

theorem npy_mono {file shape : List Nat} {elem elem' : List Nat → Nat → Prop} (h : IsNpy file shape elem) (himp : ∀ i w, ValidInd shape i → elem' i w → elem i w) : IsNpy file shape elem' := by
  obtain ⟨header, data, tuple, blanks, h1, h2, h3, h4, h5, h6, h7⟩ := h.parts
  exact ⟨header, data, tuple, blanks, h1, h2, h3, h4, h5, h6, fun i w hi hw => h7 i w hi (himp i w hi hw)⟩

/-- The file of a three-dimensional array of pairs of numbers. -/
theorem numpy_pairs (hst : Host) {n0 n1 n2 : Nat} (hn : n0 < 2 ^ 64 ∧ n1 < 2 ^ 64 ∧ n2 < 2 ^ 64) {buf : List ℝ} (hl : buf.length = volume 2 [n0, n1, n2]) {bits : ℝ → Nat} (hb : ∀ x, bits x < 2 ^ 32) :
    ∃ file, toNumpy hst 2 (mkHdr 2 [n0, n1, n2]) (buf.map bits) = .ok file ∧
      IsNpy file [n0, n1, n2, 2] (fun ind w => ∃ i j k c : Nat, ind = [i, j, k, c] ∧ w = bits (component 2 (mkHdr 2 [n0, n1, n2]) buf c i j k)) := by
  obtain ⟨file, e1, e2⟩ := C49_numpy hst 2 [n0, n1, n2] (buf.map bits) (by decide) (fun n h => by
      simp only [List.mem_cons, List.not_mem_nil, or_false] at h
      rcases h with rfl | rfl | rfl <;> omega) (by show 3 ≤ 2000; decide) (by rw [List.length_map, hl]) (fun w hw => by
      obtain ⟨x, _, rfl⟩ := List.mem_map.1 hw
      exact hb x)
  refine ⟨file, e1, npy_mono e2 ?_⟩
  rintro ind w hv ⟨i, j, k, c, rfl, rfl⟩
  have hi : i < n0 := hv.2 0 (by show 0 < 4; decide)
  have hj : j < n1 := hv.2 1 (by show 1 < 4; decide)
  have hk : k < n2 := hv.2 2 (by show 2 < 4; decide)
  have hc : c < 2 := hv.2 3 (by show 3 < 4; decide)
  have hv3 : ValidInd [n0, n1, n2] [i, j, k] := by
    refine ⟨rfl, fun d hd => ?_⟩
    have hd : d < 3 := hd
    match d, hd with
    | 0, _ => exact hi
    | 1, _ => exact hj
    | 2, _ => exact hk
  have hlt := flat3_lt (vd := 2) hi hj hk
  have hvol := hl
  rw [volume3] at hvol
  have hh : hasIndex (mkHdr 2 [n0, n1, n2]).shape [i, j, k] = true := by simp [hasIndex, mkHdr, hi, hj, hk]
  refine ⟨[i, j, k], c, ((buf.map bits).drop (((i * n1 + j) * n2 + k) * 2)).take 2, rfl, hv3, ?_, ?_⟩
  · unfold ND.read
    rw [flat3, if_pos hh, if_pos (by rw [List.length_map]; omega)]
  · rw [component_eq hl hi hj hk hc, List.getElem?_take_of_lt hc, List.getElem?_drop, List.getElem?_map, List.getD_eq_getElem?_getD, List.getElem?_eq_getElem (by omega)]
    rfl

end Verif.Green
