import Verif.Analytic.Props67
import Verif.Green.ExportGreen
import Verif.Green.FarFace
/-
C96: the Green's function of a dipole, calculated, stored and exported as a NumPy file.
-/
set_option linter.unusedSectionVars false
namespace Verif.Analytic
open Verif Verif.ND Verif.Dist Verif.Tree Verif.Bytes Verif.Ops Verif.Rebuild Verif.Green Verif.NullSup

/-! ### Specification -/

/-- The position `(x, y, t)`, in units of the grid steps, is not next to the axis in the outermost cells in height or time (where the cubic kernel uses uninitialised memory, C32). -/
def OffCorners (nz nt : Nat) (x y t : ℝ) : Prop := 1 ≤ x ∨ (1 ≤ y ∧ y < (nz : ℝ) - 1) ∧ 1 ≤ t ∧ t < (nt : ℝ) - 1

/-- The coordinates in the metadata of the Green's function are stored without rounding. -/
structure Unrounded (val : Nat → ℝ) (enc : Option ℝ → Nat) (P : Params ℝ) (sr sz st : ℝ) : Prop where
  start : val (enc (some P.r0)) = P.r0 ∧ val (enc (some P.z0)) = P.z0 ∧ val (enc (some 0)) = 0
  stop : val (enc (some P.r1)) = P.r1 ∧ val (enc (some P.z1)) = P.z1 ∧ val (enc (some P.tEnd)) = P.tEnd
  step : val (enc (some sr)) = sr ∧ val (enc (some sz)) = sz ∧ val (enc (some st)) = st

/-- With `num` samples from the first to the last of the grid points `0, ..., n`, none is exactly between two chunks of `pts` points (including the last sample). -/
def NoneBetween (pts n num : Nat) : Prop := ∀ i < num, ∀ e : Nat, 0 < e → pts ∣ e → i * n ≠ e * (num - 1)

open Classical in
/-- **C96** (partial). The Green's function of a dipole is calculated and stored, and the export program is run on it. If the stored domain is not empty (`CallOk`) and no sample is exactly between two chunks, the program
    writes a NumPy file with `num.r x num.z x num.t x 2` numbers. Number `(i, j, k, c)` is component `c` of the Green's function, interpolated from the samples of the field of the dipole, at the
    coordinates `(i, j, k)` of the requested equidistant ones, if the chunk with these coordinates begins before the cell of the last grid point along each axis; and it is zero otherwise (C42).
    Missing: samples exactly between two chunks, which make the program read outside of the chunk; samples next to the axis in the outermost cells in height or time; rounding in the calculations. -/
theorem C96_export_partial {hst : Host} {junk : Nat → Nat} (hj : ∀ k, junk k < 2 ^ 32) (S : Sorter) (Z : SlabSize) (F : Fns ℝ) (pow2 : ℝ → ℝ) (enc : Option ℝ → Nat) (henc : ∀ x, enc x < 2 ^ 32)
    {uuid uuid' : Nat → List Nat} (hu : FreshNames uuid) (hu' : FreshNames uuid') (P : Params ℝ) {dir tmp : Nat} (hne : tmp ≠ dir) (d : Disk) (hd : ∀ e, e ≠ dir → d.fs (e, .index) = none)
    {hs ht : ℝ} (h : DipoleOk F pow2 P hs ht) {val : Nat → ℝ} (hval : ∀ x, FloatIsZero x → val x = 0) {bits : ℝ → Nat} (hb : ∀ x, bits x < 2 ^ 32) (mem : Nat → ℝ) :
    ∃ (d' : Disk) (nr nz nt : Nat) (sr sz st : ℝ), electricDipole (dipCfg hst junk) S F pow2 enc uuid uuid' P dir tmp d = .ok d' ∧
      Divides P.r0 P.r1 hs nr sr ∧ Divides P.z0 P.z1 hs nz sz ∧ Divides 0 P.tEnd ht nt st ∧
      ∀ (G : GMeta ℝ) (a b : RZT ℝ) (num : RZT Nat),
        G = ⟨val (enc (some P.r0)), val (enc (some P.z0)), val (enc (some 0)), val (enc (some sr)), val (enc (some sz)), val (enc (some st))⟩ → a = ⟨G.r0, G.z0, G.t0⟩ →
        b = ⟨val (enc (some P.r1)), val (enc (some P.z1)), val (enc (some P.tEnd))⟩ → CallOk G b a b num →
        OffFaces P.maxPts nr num.r (fun i => G.x (coordAt a.r b.r num.r i)) → OffFaces P.maxPts nz num.z (fun j => G.y (coordAt a.z b.z num.z j)) →
        OffFaces P.maxPts nt num.t (fun k => G.t (coordAt a.t b.t num.t k)) →
        ∃ file, exportGreen (dipCfg hst junk) S (keys (Real.sqrt 7)) val bits mem num dir d' = .ok file ∧
          IsNpy file [num.r, num.z, num.t, 2] (fun ind w => ∃ i j k c : Nat, ind = [i, j, k, c] ∧
            OffCorners nz nt (G.x (coordAt a.r b.r num.r i)) (G.y (coordAt a.z b.z num.z j)) (G.t (coordAt a.t b.t num.t k)) ∧
            w = bits (if Before P.maxPts (G.x (coordAt a.r b.r num.r i)) (G.x b.r) ∧ Before P.maxPts (G.y (coordAt a.z b.z num.z j)) (G.y b.z) ∧
                Before P.maxPts (G.t (coordAt a.t b.t num.t k)) (G.t b.t)
              then greenAt G (keys (Real.sqrt 7)) (gridField F P enc val nr nz nt sr sz st) c (coordAt a.r b.r num.r i) (coordAt a.z b.z num.z j) (coordAt a.t b.t num.t k) else 0)) := by
  have hk : IsKernel (keys (Real.sqrt 7)) := .keys
  obtain ⟨d', nr, nz, nt, sr, sz, st, e1, r2, z2, t2, e2⟩ := dipole_serves hj S Z F pow2 enc henc hu hu' P hne d hd h hval
  refine ⟨d', nr, nz, nt, sr, sz, st, e1, r2, z2, t2, fun G a b num hG ha hbb hcall fr fz ft => ?_⟩
  obtain ⟨g, gm, ms, I, f1, f2, f3, f4, f5, f6, f7⟩ := e2 5
  have eG : gmetaOf val gm = G := by rw [f2, hG]
  have ea : startOf val gm = a := by
    rw [ha, ← eG]; rfl
  have eb : endOf val gm = b := by
    rw [hbb]; unfold endOf; rw [f7]; rfl
  obtain ⟨st', buf, g1, _, g3, g4⟩ := resample_grid (L := rangeLibOf (readerCfg (dipCfg hst junk) 5) val) f3 f5 f6 (keys_usable _) (Nat.le_refl 2) hcall fr fz ft (ha := mkHdr 2 [10, 10, 10]) rfl
    ((List.range (volume 2 [10, 10, 10])).map mem) mem f4
  have hmany := hcall.many
  obtain ⟨file, n1, n2⟩ := numpy_pairs hst (n0 := num.r) (n1 := num.z) (n2 := num.t) ⟨by omega, by omega, by omega⟩ g3 hb
  refine ⟨file, ?_, npy_mono n2 ?_⟩
  · unfold exportGreen
    rw [f1]
    simp only [Res.ok_bind, eG, ea, eb]
    rw [g1]
    simp only [Res.ok_bind]
    exact n1
  · rintro ind w hv ⟨i, j, k, c, rfl, hoff, rfl⟩
    refine ⟨i, j, k, c, rfl, ?_⟩
    have hi : i < num.r := hv.2 0 (by show 0 < 4; decide)
    have hj' : j < num.z := hv.2 1 (by show 1 < 4; decide)
    have hk' : k < num.t := hv.2 2 (by show 2 < 4; decide)
    have hc : c < 2 := hv.2 3 (by show 3 < 4; decide)
    rw [g4 i j k c hi hj' hk' hc (stencil_known hk r2.pos (fr i hi).1 fun _ => hoff)]

theorem axis_exact' {a b s : ℝ} {n num : Nat} (this : b - a = s * n) (hs : 0 < s) (hn : 2 ≤ num) (i : Nat) : (coordAt a b num i - a) / s = (i : ℝ) * n / ((num : ℝ) - 1) := by
  have h1 : (0 : ℝ) < (num : ℝ) - 1 := by
    have : ((2 : Nat) : ℝ) ≤ (num : ℝ) := Nat.cast_le.2 hn
    push_cast at this
    linarith
  unfold coordAt
  rw [this]
  field_simp
  ring

theorem axis_exact {a b s req : ℝ} {n num : Nat} (h : Divides a b req n s) (hs : 0 < s) (hn : 2 ≤ num) (i : Nat) : (coordAt a b num i - a) / s = (i : ℝ) * n / ((num : ℝ) - 1) :=
  axis_exact' (by have := h.ends; linarith) hs hn i

theorem axis_off' {a b s : ℝ} {pts n num : Nat} (h : b - a = s * n) (hs : 0 < s) (hn : 2 ≤ num) (hb : NoneBetween pts n num) (_ : 0 < n) : OffFaces pts n num fun i => (coordAt a b num i - a) / s := by
  intro i hi
  have h1 : (0 : ℝ) < (num : ℝ) - 1 := by
    have : ((2 : Nat) : ℝ) ≤ (num : ℝ) := Nat.cast_le.2 hn
    push_cast at this
    linarith
  have h2 : (i : ℝ) ≤ (num : ℝ) - 1 := by
    have : ((i + 1 : Nat) : ℝ) ≤ (num : ℝ) := Nat.cast_le.2 hi
    push_cast at this
    linarith
  beta_reduce
  rw [axis_exact' h hs hn i]
  refine ⟨by positivity, ?_, fun e he hp heq => hb i hi e he hp ?_⟩
  · have : (i : ℝ) * n / ((num : ℝ) - 1) ≤ n := by
      rw [div_le_iff₀ h1]
      nlinarith [Nat.cast_nonneg (α := ℝ) n]
    linarith
  · rw [div_eq_iff h1.ne'] at heq
    have : ((i * n : Nat) : ℝ) = ((e * (num - 1) : Nat) : ℝ) := by
      push_cast [Nat.cast_sub (show 1 ≤ num by omega)]
      linarith
    exact_mod_cast this

theorem axis_off {a b s req : ℝ} {pts n num : Nat} (h : Divides a b req n s) (hs : 0 < s) (hn : 2 ≤ num) (hb : NoneBetween pts n num) : OffFaces pts n num fun i => (coordAt a b num i - a) / s :=
  axis_off' (by have := h.ends; linarith) hs hn hb h.pos

theorem axis_before' {a b s : ℝ} {pts n num : Nat} (h : b - a = s * n) (hs : 0 < s) (hn : 2 ≤ num) (hp : 0 < pts) (hb : NoneBetween pts n num) (hn0 : 0 < n) {i : Nat} (hi : i < num) :
    Before pts ((coordAt a b num i - a) / s) ((b - a) / s) := by
  have h1 : (0 : ℝ) < (num : ℝ) - 1 := by
    have : ((2 : Nat) : ℝ) ≤ (num : ℝ) := Nat.cast_le.2 hn
    push_cast at this
    linarith
  have h2 : (i : ℝ) ≤ (num : ℝ) - 1 := by
    have : ((i + 1 : Nat) : ℝ) ≤ (num : ℝ) := Nat.cast_le.2 hi
    push_cast at this
    linarith
  have e : (b - a) / s = ((n : Int) : ℝ) := by
    rw [h, Int.cast_natCast]
    field_simp
  unfold Before
  rw [e, Int.floor_intCast]
  have hx : ⌊(coordAt a b num i - a) / s⌋ ≤ (n : Int) := by
    rw [← Int.cast_le (R := ℝ)]
    refine (Int.floor_le _).trans ?_
    rw [axis_exact' h hs hn i, div_le_iff₀ h1, Int.cast_natCast]
    nlinarith [Nat.cast_nonneg (α := ℝ) n]
  have hdiv : ¬ (pts : Int) ∣ (n : Int) := by
    intro hd
    exact hb (num - 1) (by omega) n hn0 (by exact_mod_cast hd) (by ring)
  have hle := Int.ediv_mul_le ⌊(coordAt a b num i - a) / s⌋ (show (pts : Int) ≠ 0 by omega)
  refine lt_of_le_of_ne (hle.trans hx) fun hh => hdiv ⟨_, by rw [← hh, mul_comm]⟩

theorem axis_before {a b s req : ℝ} {pts n num : Nat} (h : Divides a b req n s) (hs : 0 < s) (hn : 2 ≤ num) (hp : 0 < pts) (hb : NoneBetween pts n num) {i : Nat} (hi : i < num) :
    Before pts ((coordAt a b num i - a) / s) ((b - a) / s) := axis_before' (by have := h.ends; linarith) hs hn hp hb h.pos hi

/-- **C96**, if the coordinates in the metadata are not rounded: if none of the samples is exactly between two chunks (in particular, the number of grid steps is not a multiple of the size of the chunks along
    any axis), all samples are exported (except for those next to the axis in the outermost cells in height or time). -/
theorem C96_whole_partial {hst : Host} {junk : Nat → Nat} (hj : ∀ k, junk k < 2 ^ 32) (S : Sorter) (Z : SlabSize) (F : Fns ℝ) (pow2 : ℝ → ℝ) (enc : Option ℝ → Nat) (henc : ∀ x, enc x < 2 ^ 32)
    {uuid uuid' : Nat → List Nat} (hu : FreshNames uuid) (hu' : FreshNames uuid') (P : Params ℝ) {dir tmp : Nat} (hne : tmp ≠ dir) (d : Disk) (hd : ∀ e, e ≠ dir → d.fs (e, .index) = none)
    {hs ht : ℝ} (h : DipoleOk F pow2 P hs ht) {val : Nat → ℝ} (hval : ∀ x, FloatIsZero x → val x = 0) {bits : ℝ → Nat} (hb : ∀ x, bits x < 2 ^ 32) (mem : Nat → ℝ) :
    ∃ (d' : Disk) (nr nz nt : Nat) (sr sz st : ℝ), electricDipole (dipCfg hst junk) S F pow2 enc uuid uuid' P dir tmp d = .ok d' ∧
      Divides P.r0 P.r1 hs nr sr ∧ Divides P.z0 P.z1 hs nz sz ∧ Divides 0 P.tEnd ht nt st ∧
      (Unrounded val enc P sr sz st → ∀ num : RZT Nat, (2 ≤ num.r ∧ 2 ≤ num.z ∧ 2 ≤ num.t) → (num.r < 2 ^ 62 ∧ num.z < 2 ^ 62 ∧ num.t < 2 ^ 62) →
        NoneBetween P.maxPts nr num.r → NoneBetween P.maxPts nz num.z → NoneBetween P.maxPts nt num.t →
        ∃ file, exportGreen (dipCfg hst junk) S (keys (Real.sqrt 7)) val bits mem num dir d' = .ok file ∧
          IsNpy file [num.r, num.z, num.t, 2] (fun ind w => ∃ i j k c : Nat, ind = [i, j, k, c] ∧
            OffCorners nz nt (i * nr / ((num.r : ℝ) - 1)) (j * nz / ((num.z : ℝ) - 1)) (k * nt / ((num.t : ℝ) - 1)) ∧
            w = bits (greenAt ⟨P.r0, P.z0, 0, sr, sz, st⟩ (keys (Real.sqrt 7)) (gridField F P enc val nr nz nt sr sz st) c (coordAt P.r0 P.r1 num.r i) (coordAt P.z0 P.z1 num.z j)
              (coordAt 0 P.tEnd num.t k)))) := by
  classical
  obtain ⟨d', nr, nz, nt, sr, sz, st, e1, r2, z2, t2, e2⟩ := C96_export_partial hj S Z F pow2 enc henc hu hu' P hne d hd h hval hb mem
  refine ⟨d', nr, nz, nt, sr, sz, st, e1, r2, z2, t2, fun hun num h2 hmany br bz bt => ?_⟩
  have hstep : ∀ {lo hi req s : ℝ} {n : Nat}, Divides lo hi req n s → lo < hi → 0 < s := fun {lo hi req s n} hdv hlt => by
    have e := hdv.ends
    have : (0 : ℝ) < n := Nat.cast_pos.2 hdv.pos
    by_contra hn
    nlinarith
  have lr : P.r0 < P.r1 := by have := h.r.1; have := h.pos.1; linarith
  have lz : P.z0 < P.z1 := by have := h.z.1; have := h.pos.1; linarith
  have lt : 0 < P.tEnd := by have := h.t.1; have := h.pos.2; linarith
  have sr0 := hstep r2 lr
  have sz0 := hstep z2 lz
  have st0 := hstep t2 lt
  have hpts := h.pts.1
  have fin : ∀ {lo hi req s : ℝ} {n : Nat}, Divides lo hi req n s → 0 < s → (hi - lo) / s < 2 ^ 62 := fun {lo hi req s n} hdv h0 => by
    have e := hdv.ends
    have : hi - lo = s * n := by linarith
    rw [this, mul_div_cancel_left₀ _ h0.ne']
    have : ((n : Nat) : ℝ) < ((2 ^ 30 : Nat) : ℝ) := Nat.cast_lt.2 hdv.lt
    push_cast at this
    linarith
  have hG : (⟨P.r0, P.z0, 0, sr, sz, st⟩ : GMeta ℝ) = ⟨val (enc (some P.r0)), val (enc (some P.z0)), val (enc (some 0)), val (enc (some sr)), val (enc (some sz)), val (enc (some st))⟩ := by
    rw [hun.start.1, hun.start.2.1, hun.start.2.2, hun.step.1, hun.step.2.1, hun.step.2.2]
  have hcall : CallOk (⟨P.r0, P.z0, 0, sr, sz, st⟩ : GMeta ℝ) ⟨P.r1, P.z1, P.tEnd⟩ ⟨P.r0, P.z0, 0⟩ ⟨P.r1, P.z1, P.tEnd⟩ num :=
    ⟨⟨sr0, sz0, st0⟩, ⟨le_rfl, le_rfl, le_rfl⟩, ⟨lr, lz, lt⟩, ⟨le_rfl, le_rfl, le_rfl⟩, ⟨fin r2 sr0, fin z2 sz0, fin t2 st0⟩, h2, hmany⟩
  obtain ⟨file, f1, f2⟩ := e2 _ ⟨P.r0, P.z0, 0⟩ ⟨P.r1, P.z1, P.tEnd⟩ num hG rfl (by rw [hun.stop.1, hun.stop.2.1, hun.stop.2.2]) hcall (axis_off r2 sr0 h2.1 br) (axis_off z2 sz0 h2.2.1 bz) (axis_off t2 st0 h2.2.2 bt)
  refine ⟨file, f1, npy_mono f2 ?_⟩
  rintro ind w hv ⟨i, j, k, c, rfl, hoff, rfl⟩
  have hi : i < num.r := hv.2 0 (by show 0 < 4; decide)
  have hj' : j < num.z := hv.2 1 (by show 1 < 4; decide)
  have hk' : k < num.t := hv.2 2 (by show 2 < 4; decide)
  refine ⟨i, j, k, c, rfl, ?_, ?_⟩
  · rw [← axis_exact r2 sr0 h2.1 i, ← axis_exact z2 sz0 h2.2.1 j, ← axis_exact t2 st0 h2.2.2 k] at hoff
    exact hoff
  · rw [if_pos ⟨axis_before r2 sr0 h2.1 hpts br hi, axis_before z2 sz0 h2.2.1 hpts bz hj', axis_before t2 st0 h2.2.2 hpts bt hk'⟩]

/-- The chunk with the cell before a boundary ends there. -/
theorem cell_before {ms : List Meta} {g : Grid} (hc : Chunks g ms) {m : Meta} (hm : m ∈ ms) {d n e : Nat} (hd : d < 3) (hn : [g.nr + 1, g.nz + 1, g.nt + 1].getD d 0 = n + 1) (he : 0 < e) (hen : e ≤ n) (hp : g.pts ∣ e)
    (hq : m.start.getD d 0 ≤ e - 1 ∧ e - 1 < m.stop.getD d 0) : m.stop.getD d 0 = e ∧ m.start.getD d 0 < n := by
  obtain ⟨q1, q2⟩ := hc.quot hm hd hq
  obtain ⟨w, rfl⟩ := hp
  have hpts := hc.pts
  have hw : 0 < w := Nat.pos_of_mul_pos_left he
  have e1 : (g.pts * w - 1) / g.pts = w - 1 := by
    rw [Nat.div_eq_iff hpts]
    obtain ⟨v, rfl⟩ := Nat.exists_eq_succ_of_ne_zero hw.ne'
    rw [Nat.succ_eq_add_one, Nat.add_sub_cancel, Nat.mul_add, Nat.mul_comm v]
    omega
  rw [e1] at q1
  have e2 : (w - 1) * g.pts + g.pts = g.pts * w := by
    obtain ⟨v, rfl⟩ := Nat.exists_eq_succ_of_ne_zero hw.ne'
    rw [Nat.succ_eq_add_one, Nat.add_sub_cancel]
    ring
  omega

/-- The chunk with the last cell. -/
theorem cell_last {ms : List Meta} {g : Grid} (hc : Chunks g ms) {m : Meta} (hm : m ∈ ms) {d n : Nat} (hd : d < 3) (hn : [g.nr + 1, g.nz + 1, g.nt + 1].getD d 0 = n + 1) (hp : ¬ g.pts ∣ n)
    (hq : m.start.getD d 0 ≤ n ∧ n < m.stop.getD d 0) : m.stop.getD d 0 = n + 1 ∧ m.start.getD d 0 < n := by
  obtain ⟨q1, q2⟩ := hc.quot hm hd hq
  have h1 := Nat.lt_div_mul_add (a := n) hc.pts
  refine ⟨by omega, lt_of_le_of_ne hq.1 fun h => hp ⟨n / g.pts, ?_⟩⟩
  rw [Nat.mul_comm, ← q1, h]

/-- **C96**, exactly when: if the coordinates in the metadata are not rounded, the program ends well if and only if none of the samples is exactly between two chunks. (Otherwise it reads behind the end of a chunk.) -/
theorem C96_exactly_when {hst : Host} {junk : Nat → Nat} (hj : ∀ k, junk k < 2 ^ 32) (S : Sorter) (Z : SlabSize) (F : Fns ℝ) (pow2 : ℝ → ℝ) (enc : Option ℝ → Nat) (henc : ∀ x, enc x < 2 ^ 32)
    {uuid uuid' : Nat → List Nat} (hu : FreshNames uuid) (hu' : FreshNames uuid') (P : Params ℝ) {dir tmp : Nat} (hne : tmp ≠ dir) (d : Disk) (hd : ∀ e, e ≠ dir → d.fs (e, .index) = none)
    {hs ht : ℝ} (h : DipoleOk F pow2 P hs ht) {val : Nat → ℝ} (hval : ∀ x, FloatIsZero x → val x = 0) {bits : ℝ → Nat} (hb : ∀ x, bits x < 2 ^ 32) (mem : Nat → ℝ) :
    ∃ (d' : Disk) (nr nz nt : Nat) (sr sz st : ℝ), electricDipole (dipCfg hst junk) S F pow2 enc uuid uuid' P dir tmp d = .ok d' ∧
      Divides P.r0 P.r1 hs nr sr ∧ Divides P.z0 P.z1 hs nz sz ∧ Divides 0 P.tEnd ht nt st ∧
      (Unrounded val enc P sr sz st → ∀ num : RZT Nat, (2 ≤ num.r ∧ 2 ≤ num.z ∧ 2 ≤ num.t) → (num.r < 2 ^ 62 ∧ num.z < 2 ^ 62 ∧ num.t < 2 ^ 62) →
        ((∃ file, exportGreen (dipCfg hst junk) S (keys (Real.sqrt 7)) val bits mem num dir d' = .ok file) ↔
          NoneBetween P.maxPts nr num.r ∧ NoneBetween P.maxPts nz num.z ∧ NoneBetween P.maxPts nt num.t)) := by
  obtain ⟨d', nr, nz, nt, sr, sz, st, e1, r2, z2, t2, e2⟩ := dipole_serves hj S Z F pow2 enc henc hu hu' P hne d hd h hval
  obtain ⟨d'', nr', nz', nt', sr', sz', st', e1', r2', z2', t2', e2'⟩ := C96_whole_partial hj S Z F pow2 enc henc hu hu' P hne d hd h hval hb mem
  obtain rfl : d'' = d' := by rw [e1] at e1'; exact (Res.ok.inj e1').symm
  have same : ∀ {lo hi req s s' : ℝ} {n n' : Nat}, 0 < req → Divides lo hi req n s → Divides lo hi req n' s' → n' = n ∧ s' = s := fun {lo hi req s s' n n'} hreq h1 h2 => by
    have a1 := h1.fits
    have a2 := h1.most
    have b1 := h2.fits
    have b2 := h2.most
    have c1 : (n : ℝ) < n' + 1 := lt_of_mul_lt_mul_right (a1.trans_lt b2) hreq.le
    have c2 : (n' : ℝ) < n + 1 := lt_of_mul_lt_mul_right (b1.trans_lt a2) hreq.le
    have c1 : n < n' + 1 := by exact_mod_cast c1
    have c2 : n' < n + 1 := by exact_mod_cast c2
    obtain rfl : n' = n := by omega
    have e := h1.ends
    have e' := h2.ends
    have : (n' : ℝ) * s' = n' * s := by linarith
    exact ⟨rfl, mul_left_cancel₀ (Nat.cast_ne_zero.2 h1.pos.ne') this⟩
  obtain ⟨rfl, rfl⟩ := same h.pos.1 r2 r2'
  obtain ⟨rfl, rfl⟩ := same h.pos.1 z2 z2'
  obtain ⟨rfl, rfl⟩ := same h.pos.2 t2 t2'
  refine ⟨d'', nr', nz', nt', sr', sz', st', e1, r2, z2, t2, fun hun num h2 hmany => ⟨?_, fun ⟨b1, b2, b3⟩ => ?_⟩⟩
  swap
  · obtain ⟨file, f1, _⟩ := e2' hun num h2 hmany b1 b2 b3
    exact ⟨file, f1⟩
  rintro ⟨file, hok⟩
  obtain ⟨g, gm, ms, I, f1, f2, f3, f4, f5, f6, f7⟩ := e2 5
  have hstep : ∀ {lo hi req s : ℝ} {n : Nat}, Divides lo hi req n s → lo < hi → 0 < s := fun {lo hi req s n} hdv hlt => by
    have e := hdv.ends
    have : (0 : ℝ) < n := Nat.cast_pos.2 hdv.pos
    by_contra hn
    nlinarith
  have lr : P.r0 < P.r1 := by have := h.r.1; have := h.pos.1; linarith
  have lz : P.z0 < P.z1 := by have := h.z.1; have := h.pos.1; linarith
  have lt : 0 < P.tEnd := by have := h.t.1; have := h.pos.2; linarith
  have sr0 := hstep r2 lr
  have sz0 := hstep z2 lz
  have st0 := hstep t2 lt
  have fin : ∀ {lo hi req s : ℝ} {n : Nat}, Divides lo hi req n s → 0 < s → (hi - lo) / s = n := fun {lo hi req s n} hdv h0 => by
    have e := hdv.ends
    have : hi - lo = s * n := by linarith
    rw [this, mul_div_cancel_left₀ _ h0.ne']
  have big : ∀ {lo hi req s : ℝ} {n : Nat}, Divides lo hi req n s → 0 < s → (hi - lo) / s < 2 ^ 62 := fun {lo hi req s n} hdv h0 => by
    rw [fin hdv h0]
    have : ((n : Nat) : ℝ) < ((2 ^ 30 : Nat) : ℝ) := Nat.cast_lt.2 hdv.lt
    push_cast at this
    linarith
  have eG : gmetaOf val gm = ⟨P.r0, P.z0, 0, sr', sz', st'⟩ := by
    rw [f2, hun.start.1, hun.start.2.1, hun.start.2.2, hun.step.1, hun.step.2.1, hun.step.2.2]
  have ea : startOf val gm = ⟨P.r0, P.z0, 0⟩ := by
    have : startOf val gm = ⟨(gmetaOf val gm).r0, (gmetaOf val gm).z0, (gmetaOf val gm).t0⟩ := rfl
    rw [this, eG]
  have eb : endOf val gm = ⟨P.r1, P.z1, P.tEnd⟩ := by
    unfold endOf
    rw [f7]
    simp only [List.map_cons, List.map_nil, List.getD_cons_zero, List.getD_cons_succ]
    rw [hun.stop.1, hun.stop.2.1, hun.stop.2.2]
  unfold exportGreen at hok
  rw [f1] at hok
  simp only [Res.ok_bind, eG, ea, eb] at hok
  obtain ⟨r, hok, _⟩ := Res.bind_eq_ok.1 hok
  have hcall : CallOk (⟨P.r0, P.z0, 0, sr', sz', st'⟩ : GMeta ℝ) ⟨P.r1, P.z1, P.tEnd⟩ ⟨P.r0, P.z0, 0⟩ ⟨P.r1, P.z1, P.tEnd⟩ num :=
    ⟨⟨sr0, sz0, st0⟩, ⟨le_rfl, le_rfl, le_rfl⟩, ⟨lr, lz, lt⟩, ⟨le_rfl, le_rfl, le_rfl⟩, ⟨big r2 sr0, big z2 sz0, big t2 st0⟩, h2, hmany⟩
  -- the positions of the samples
  have px : ∀ i, GMeta.x (⟨P.r0, P.z0, 0, sr', sz', st'⟩ : GMeta ℝ) (coordAt P.r0 P.r1 num.r i) = (i : ℝ) * nr' / ((num.r : ℝ) - 1) := axis_exact r2 sr0 h2.1
  have py : ∀ i, GMeta.y (⟨P.r0, P.z0, 0, sr', sz', st'⟩ : GMeta ℝ) (coordAt P.z0 P.z1 num.z i) = (i : ℝ) * nz' / ((num.z : ℝ) - 1) := axis_exact z2 sz0 h2.2.1
  have pt : ∀ i, GMeta.t (⟨P.r0, P.z0, 0, sr', sz', st'⟩ : GMeta ℝ) (coordAt 0 P.tEnd num.t i) = (i : ℝ) * nt' / ((num.t : ℝ) - 1) := axis_exact t2 st0 h2.2.2
  have at_e : ∀ {num n i e : Nat}, 2 ≤ num → i * n = e * (num - 1) → (i : ℝ) * n / ((num : ℝ) - 1) = e := fun {num n i e} hn he => by
    have h1 : (0 : ℝ) < (num : ℝ) - 1 := by
      have : ((2 : Nat) : ℝ) ≤ (num : ℝ) := Nat.cast_le.2 hn
      push_cast at this
      linarith
    rw [div_eq_iff h1.ne']
    have : ((i * n : Nat) : ℝ) = ((e * (num - 1) : Nat) : ℝ) := by rw [he]
    push_cast [Nat.cast_sub (show 1 ≤ num by omega)] at this
    linarith
  -- a sample on each axis, in the cell of a chunk
  have bad : ∀ {i j k a b c : Nat}, i < num.r → j < num.z → k < num.t → i * nr' = a * (num.r - 1) → j * nz' = b * (num.z - 1) → k * nt' = c * (num.t - 1) →
      ∀ m ∈ ms, ∀ {a' b' c' : Nat}, InBox m.start m.stop [a', b', c'] → (a' ≤ a ∧ a ≤ m.stop.getD 0 0) → (b' ≤ b ∧ b ≤ m.stop.getD 1 0) → (c' ≤ c ∧ c ≤ m.stop.getD 2 0) →
      m.start.getD 0 0 < nr' → m.start.getD 1 0 < nz' → m.start.getD 2 0 < nt' →
      (a = m.stop.getD 0 0 ∨ a + 1 = m.stop.getD 0 0 ∧ (b = m.stop.getD 1 0 ∨ b + 1 = m.stop.getD 1 0 ∧ c = m.stop.getD 2 0)) → False := by
    intro i j k a b c hi hj' hk ei ej ek m hm a' b' c' hin ha hb' hc' s1 s2 s3 hbeh
    have q := hin.2.2
    have q0 := q 0 (by show _ < 3; decide)
    have q1 := q 1 (by show _ < 3; decide)
    have q2 := q 2 (by show _ < 3; decide)
    simp only [List.getD_cons_zero, List.getD_cons_succ] at q0 q1 q2
    have X := (px i).trans (at_e h2.1 ei)
    have Y := (py j).trans (at_e h2.2.1 ej)
    have T := (pt k).trans (at_e h2.2.2 ek)
    refine C42_far_face_undefined (L := rangeLibOf (readerCfg (dipCfg hst junk) 5) val) f5 f6 (keys_usable _) hcall hm (f3.specified rfl m hm) ?_ (f3.overlap m hm) hi hj' hk ?_ ?_ _ mem f4 r hok
    · have zr : GMeta.x (⟨P.r0, P.z0, 0, sr', sz', st'⟩ : GMeta ℝ) P.r0 = 0 := by unfold GMeta.x; simp
      have zz : GMeta.y (⟨P.r0, P.z0, 0, sr', sz', st'⟩ : GMeta ℝ) P.z0 = 0 := by unfold GMeta.y; simp
      have zt : GMeta.t (⟨P.r0, P.z0, 0, sr', sz', st'⟩ : GMeta ℝ) 0 = 0 := by unfold GMeta.t; simp
      have wr : GMeta.x (⟨P.r0, P.z0, 0, sr', sz', st'⟩ : GMeta ℝ) P.r1 = nr' := fin r2 sr0
      have wz : GMeta.y (⟨P.r0, P.z0, 0, sr', sz', st'⟩ : GMeta ℝ) P.z1 = nz' := fin z2 sz0
      have wt : GMeta.t (⟨P.r0, P.z0, 0, sr', sz', st'⟩ : GMeta ℝ) P.tEnd = nt' := fin t2 st0
      unfold Searched
      simp only [zr, zz, zt, wr, wz, wt, Int.floor_zero, Int.floor_natCast]
      omega
    · unfold Covers
      rw [X, Y, T]
      simp only [Nat.cast_le]
      omega
    · unfold Behind
      rw [X, Y, T]
      simp only [Int.floor_natCast, Nat.cast_inj]
      omega
  have le_of : ∀ {num n i e : Nat}, 2 ≤ num → i < num → i * n = e * (num - 1) → e ≤ n := fun {num n i e} hn hi he => by
    have h1 : i * n ≤ (num - 1) * n := Nat.mul_le_mul_right _ (by omega)
    rw [he, Nat.mul_comm e] at h1
    exact Nat.le_of_mul_le_mul_left h1 (by omega)
  have ndvd : ∀ {num n : Nat}, 2 ≤ num → 0 < n → NoneBetween P.maxPts n num → ¬ P.maxPts ∣ n := fun {num n} hn h0 hb' hdv => hb' (num - 1) (by omega) n h0 hdv (Nat.mul_comm _ _)
  have nr0 := r2.pos
  have nz0 := z2.pos
  have nt0 := t2.pos
  have c0 : ∀ {n : Nat}, 0 * n = 0 * n := rfl
  have nbr : NoneBetween P.maxPts nr' num.r := by
    intro i hi e he hp heq
    have hen := le_of h2.1 hi heq
    obtain ⟨m, hm, hin⟩ := (f3.cover (e - 1) 0 0).2 ⟨by show e - 1 ≤ nr'; omega, Nat.zero_le _, Nat.zero_le _⟩
    have q0 := hin.2.2 0 (by show _ < 3; decide)
    have q1 := hin.2.2 1 (by show _ < 3; decide)
    have q2 := hin.2.2 2 (by show _ < 3; decide)
    simp only [List.getD_cons_zero, List.getD_cons_succ] at q0 q1 q2
    obtain ⟨w1, w2⟩ := cell_before f3 hm (d := 0) (n := nr') (by decide) rfl he hen hp q0
    exact bad hi (j := 0) (k := 0) (b := 0) (c := 0) (by omega) (by omega) heq (by simp) (by simp) m hm hin ⟨by omega, by omega⟩ ⟨by omega, by omega⟩ ⟨by omega, by omega⟩ w2 (by omega) (by omega) (.inl w1.symm)
  have nbz : NoneBetween P.maxPts nz' num.z := by
    intro j hj' e he hp heq
    have hen := le_of h2.2.1 hj' heq
    obtain ⟨m, hm, hin⟩ := (f3.cover nr' (e - 1) 0).2 ⟨Nat.le_refl _, by show e - 1 ≤ nz'; omega, Nat.zero_le _⟩
    have q0 := hin.2.2 0 (by show _ < 3; decide)
    have q1 := hin.2.2 1 (by show _ < 3; decide)
    have q2 := hin.2.2 2 (by show _ < 3; decide)
    simp only [List.getD_cons_zero, List.getD_cons_succ] at q0 q1 q2
    obtain ⟨w1, w2⟩ := cell_last f3 hm (d := 0) (n := nr') (by decide) rfl (ndvd h2.1 nr0 nbr) q0
    obtain ⟨w3, w4⟩ := cell_before f3 hm (d := 1) (n := nz') (by decide) rfl he hen hp q1
    exact bad (i := num.r - 1) (k := 0) (a := nr') (c := 0) (by omega) hj' (by omega) (Nat.mul_comm _ _) heq (by simp) m hm hin ⟨by omega, by omega⟩ ⟨by omega, by omega⟩ ⟨by omega, by omega⟩ w2 w4 (by omega)
      (.inr ⟨w1.symm, .inl w3.symm⟩)
  refine ⟨nbr, nbz, ?_⟩
  intro k hk e he hp heq
  have hen := le_of h2.2.2 hk heq
  obtain ⟨m, hm, hin⟩ := (f3.cover nr' nz' (e - 1)).2 ⟨Nat.le_refl _, Nat.le_refl _, by show e - 1 ≤ nt'; omega⟩
  have q0 := hin.2.2 0 (by show _ < 3; decide)
  have q1 := hin.2.2 1 (by show _ < 3; decide)
  have q2 := hin.2.2 2 (by show _ < 3; decide)
  simp only [List.getD_cons_zero, List.getD_cons_succ] at q0 q1 q2
  obtain ⟨w1, w2⟩ := cell_last f3 hm (d := 0) (n := nr') (by decide) rfl (ndvd h2.1 nr0 nbr) q0
  obtain ⟨w3, w4⟩ := cell_last f3 hm (d := 1) (n := nz') (by decide) rfl (ndvd h2.2.1 nz0 nbz) q1
  obtain ⟨w5, w6⟩ := cell_before f3 hm (d := 2) (n := nt') (by decide) rfl he hen hp q2
  exact bad (i := num.r - 1) (j := num.z - 1) (a := nr') (b := nz') (by omega) (by omega) hk (Nat.mul_comm _ _) (Nat.mul_comm _ _) heq m hm hin ⟨by omega, by omega⟩ ⟨by omega, by omega⟩ ⟨by omega, by omega⟩ w2 w4 w6
    (.inr ⟨w1.symm, .inr ⟨w3.symm, w5.symm⟩⟩)

namespace Ex96

open Classical in
/-- A format with few numbers, among them those in the metadata. -/
noncomputable def enc (a b : ℝ) (o : Option ℝ) : Nat :=
  if o = some 0 then 0 else if o = some a then 1 else if o = some (-a) then 2 else if o = some b then 3 else if o = some (4 * a) then 4 else if o = some (6 * a) then 5 else if o = some (10 * b) then 6 else 7

noncomputable def val (a b : ℝ) (w : Nat) : ℝ := [0, a, -a, b, 4 * a, 6 * a, 10 * b, 1].getD w 0

theorem enc_lt (a b : ℝ) (o : Option ℝ) : enc a b o < 2 ^ 32 := by
  have : enc a b o ≤ 7 := by
    unfold enc
    repeat' split
    all_goals omega
  omega

theorem val_enc {a b : ℝ} (x : ℝ) (hx : x = 0 ∨ x = a ∨ x = -a ∨ x = b ∨ x = 4 * a ∨ x = 6 * a ∨ x = 10 * b) : val a b (enc a b (some x)) = x := by
  unfold enc
  simp only [Option.some.injEq]
  split
  · next h => rw [h]; rfl
  split
  · next h => rw [h]; rfl
  split
  · next h => rw [h]; rfl
  split
  · next h => rw [h]; rfl
  split
  · next h => rw [h]; rfl
  split
  · next h => rw [h]; rfl
  split
  · next h => rw [h]; rfl
  · exact absurd hx (by tauto)

theorem between {n : Nat} (h : ∀ i < 1000, ∀ q : Nat, 0 < q → i * n ≠ 2997 * q) : NoneBetween 3 n 1000 := by
  rintro i hi e he ⟨q, rfl⟩ hh
  exact h i hi q (by omega) (by rw [hh]; ring_nf)

/-- C96 applies: with four, seven and ten grid steps and chunks of three points, a thousand samples along each axis are exported, as in the program, and the last of them is the field of the dipole at the last grid point. -/
example (d : Disk) (hd : ∀ e, e ≠ 0 → d.fs (e, .index) = none) (bits : ℝ → Nat) (hb : ∀ x, bits x < 2 ^ 32) : ∃ (a b : ℝ) (d' : Disk) (file : List Nat), 0 < a ∧ 0 < b ∧
    electricDipole (dipCfg .little fun _ => 77) Tree.Ex.S realFns (fun x => (2 : ℝ) ^ x) (enc a b) (fun k => [k]) (fun k => [k]) ⟨0, -a, 4 * a, 6 * a, 10 * b, 2, Ex65.ice, 3⟩ 0 1 d = .ok d' ∧
    exportGreen (dipCfg .little fun _ => 77) Tree.Ex.S (keys (Real.sqrt 7)) (val a b) bits (fun _ => 5) ⟨1000, 1000, 1000⟩ 0 d' = .ok file ∧
    IsNpy file [1000, 1000, 1000, 2] (fun ind w => ind = [999, 500, 500, 1] ∧ w = bits (greenAt ⟨0, -a, 0, a, a, b⟩ (keys (Real.sqrt 7))
      (gridField realFns ⟨0, -a, 4 * a, 6 * a, 10 * b, 2, Ex65.ice, 3⟩ (enc a b) (val a b) 4 7 10 a a b) 1 (4 * a) (coordAt (-a) (6 * a) 1000 500) (coordAt 0 (10 * b) 1000 500))) ∧
    IsNpy file [1000, 1000, 1000, 2] (fun ind w => ind = [999, 999, 999, 1] ∧ w = bits (val a b (enc a b ((fieldAt realFns Ex65.ice (4 * a) (6 * a) (10 * b)).getD 1 none)))) := by
  obtain ⟨a, b, ha, hb', h⟩ := Ex67.ok
  obtain ⟨d', nr, nz, nt, sr, sz, st, e1, r2, z2, t2, e2⟩ := C96_whole_partial (hst := .little) (junk := fun _ => 77) (fun _ => by decide) Tree.Ex.S Tree.Ex.Z realFns (fun x => (2 : ℝ) ^ x) (enc a b) (enc_lt a b)
    Ex63.names Ex63.names ⟨0, -a, 4 * a, 6 * a, 10 * b, 2, Ex65.ice, 3⟩ (dir := 0) (tmp := 1) (by decide) d hd h (val := val a b) (fun x hx => by
      rcases hx with rfl | rfl <;> rfl) hb (fun _ => 5)
  obtain ⟨rfl, e4⟩ := Ex67.divides (N := 4) ha (by decide) (by simp only; norm_num) r2
  obtain ⟨rfl, e5⟩ := Ex67.divides (N := 7) ha (by decide) (by simp only; norm_num; ring) z2
  obtain ⟨rfl, e6⟩ := Ex67.divides (N := 10) hb' (by decide) (by simp only; norm_num) t2
  rw [e4, e5, e6] at e2
  obtain ⟨file, f1, f2⟩ := e2 ⟨⟨val_enc _ (by tauto), val_enc _ (by tauto), val_enc _ (by tauto)⟩, ⟨val_enc _ (by tauto), val_enc _ (by tauto), val_enc _ (by tauto)⟩,
    ⟨val_enc _ (by tauto), val_enc _ (by tauto), val_enc _ (by tauto)⟩⟩ ⟨1000, 1000, 1000⟩ (by decide) (by decide) (between fun i hi q hq => by omega) (between fun i hi q hq => by omega)
    (between fun i hi q hq => by omega)
  have c1 : ∀ u v : ℝ, coordAt u v 1000 999 = v := fun u v => by unfold coordAt; norm_num; ring
  refine ⟨a, b, d', file, ha, hb', e1, f1, npy_mono f2 ?_, npy_mono f2 ?_⟩
  · rintro ind w _ ⟨rfl, rfl⟩
    refine ⟨999, 500, 500, 1, rfl, .inl (by norm_num), ?_⟩
    simp only [c1]
  · rintro ind w _ ⟨rfl, rfl⟩
    refine ⟨999, 999, 999, 1, rfl, .inl (by norm_num), ?_⟩
    simp only [c1]
    have e := C67_grid_point realFns ⟨0, -a, 4 * a, 6 * a, 10 * b, 2, Ex65.ice, 3⟩ (enc a b) (val a b) (nr := 4) (nz := 7) (nt := 10) (sr := a) (sz := a) (st := b) ⟨0, -a, 0, a, a, b⟩ ⟨ha, ha, hb'⟩ .keys 1 (i := 4) (j := 7) (k := 10)
      (le_refl _) (le_refl _) (le_refl _)
    simp only at e
    rw [show (0 : ℝ) + ((4 : Nat) : ℝ) * a = 4 * a by norm_num, show -a + ((7 : Nat) : ℝ) * a = 6 * a by norm_num; ring, show (0 : ℝ) + ((10 : Nat) : ℝ) * b = 10 * b by norm_num,
      show (0 : ℝ) + a * ((4 : Nat) : ℝ) = 4 * a by norm_num; ring, show -a + a * ((7 : Nat) : ℝ) = 6 * a by norm_num; ring, show b * ((10 : Nat) : ℝ) = 10 * b by norm_num; ring] at e
    rw [e]

/-- With eight samples along the vertical axis, which are at the grid points, the same Green's function cannot be exported. -/
theorem C96_export_fails (d : Disk) (hd : ∀ e, e ≠ 0 → d.fs (e, .index) = none) (bits : ℝ → Nat) (hb : ∀ x, bits x < 2 ^ 32) : ∃ (a b : ℝ) (d' : Disk), 0 < a ∧ 0 < b ∧
    electricDipole (dipCfg .little fun _ => 77) Tree.Ex.S realFns (fun x => (2 : ℝ) ^ x) (enc a b) (fun k => [k]) (fun k => [k]) ⟨0, -a, 4 * a, 6 * a, 10 * b, 2, Ex65.ice, 3⟩ 0 1 d = .ok d' ∧
    ∀ file, exportGreen (dipCfg .little fun _ => 77) Tree.Ex.S (keys (Real.sqrt 7)) (val a b) bits (fun _ => 5) ⟨1000, 8, 1000⟩ 0 d' ≠ .ok file := by
  obtain ⟨a, b, ha, hb', h⟩ := Ex67.ok
  obtain ⟨d', nr, nz, nt, sr, sz, st, e1, r2, z2, t2, e2⟩ := C96_exactly_when (hst := .little) (junk := fun _ => 77) (fun _ => by decide) Tree.Ex.S Tree.Ex.Z realFns (fun x => (2 : ℝ) ^ x) (enc a b) (enc_lt a b)
    Ex63.names Ex63.names ⟨0, -a, 4 * a, 6 * a, 10 * b, 2, Ex65.ice, 3⟩ (dir := 0) (tmp := 1) (by decide) d hd h (val := val a b) (fun x hx => by
      rcases hx with rfl | rfl <;> rfl) hb (fun _ => 5)
  obtain ⟨rfl, e4⟩ := Ex67.divides (N := 4) ha (by decide) (by simp only; norm_num) r2
  obtain ⟨rfl, e5⟩ := Ex67.divides (N := 7) ha (by decide) (by simp only; norm_num; ring) z2
  obtain ⟨rfl, e6⟩ := Ex67.divides (N := 10) hb' (by decide) (by simp only; norm_num) t2
  rw [e4, e5, e6] at e2
  refine ⟨a, b, d', ha, hb', e1, fun file hf => ?_⟩
  have := (e2 ⟨⟨val_enc _ (by tauto), val_enc _ (by tauto), val_enc _ (by tauto)⟩, ⟨val_enc _ (by tauto), val_enc _ (by tauto), val_enc _ (by tauto)⟩,
    ⟨val_enc _ (by tauto), val_enc _ (by tauto), val_enc _ (by tauto)⟩⟩ ⟨1000, 8, 1000⟩ (by decide) (by decide)).1 ⟨file, hf⟩
  exact this.2.1 3 (by decide) 3 (by decide) ⟨1, rfl⟩ rfl

end Ex96

end Verif.Analytic
