import Verif.Analytic.Serve
/-
C67: the signal of a moving charge from the calculated, stored and reloaded Green's function of a dipole.
-/
set_option linter.unusedSectionVars false
namespace Verif.Analytic
open Verif Verif.ND Verif.Dist Verif.Tree Verif.Bytes Verif.Ops Verif.Rebuild Verif.Green Verif.NullSup

/-! ### Proof -/

variable {nr nz nt pts : Nat}

theorem stencil_known {kn : Kern ℝ} (hk : IsKernel kn) (hn : 0 < nr) {x y t : ℝ} (hx : 0 ≤ x) (hu : kn.support = 2 → 1 ≤ x ∨ (1 ≤ y ∧ y < (nz : ℝ) - 1) ∧ 1 ≤ t ∧ t < (nt : ℝ) - 1) : StencilIn kn (Known nr nz nt) x y t := by
  have h2 : kn.support = 1 ∨ kn.support = 2 := by
    cases hk with
    | linear => exact .inl rfl
    | keys => exact .inr rfl
  have fx := Int.floor_nonneg.2 hx
  intro a b c ha hb hc
  rcases h2 with h2 | h2
  · left
    rw [h2]; omega
  · rw [h2] at ha hb hc ⊢
    rcases hu h2 with h | ⟨⟨y1, y2⟩, t1, t2⟩
    · left
      have : (1 : Int) ≤ ⌊x⌋ := Int.le_floor.2 (by simpa using h)
      omega
    · right
      have q1 : (1 : Int) ≤ ⌊y⌋ := Int.le_floor.2 (by simpa using y1)
      have q2 : (1 : Int) ≤ ⌊t⌋ := Int.le_floor.2 (by simpa using t1)
      have q3 : ⌊y⌋ < (nz : Int) - 1 := Int.floor_lt.2 (by push_cast; exact y2)
      have q4 : ⌊t⌋ < (nt : Int) - 1 := Int.floor_lt.2 (by push_cast; exact t2)
      refine ⟨by omega, ⟨by omega, by omega⟩, by omega, by omega⟩

theorem Usable.stencil {kn : Kern ℝ} (hk : IsKernel kn) (hn : 0 < nr) {x y t : ℝ} (hx : 0 ≤ x) (hu : Usable kn ⟨nr, nz, nt, pts, 2, false⟩ x y t) : StencilIn kn (Known nr nz nt) x y t :=
  stencil_known hk hn hx hu.2

/-! ### The property -/

/-- **C67.** The Green's function of a dipole is calculated, stored, and loaded with a cache of any size. Then in any sequence of requests every request for inner products and for the signal of a moving charge
    (with the linear or the cubic kernel) is answered according to the field of the dipole (rounded to the stored format) at the grid points.
    Missing: rounding in the calculations themselves; positions next to the axis in the outermost cells in height or time, and positions exactly on the end of a chunk (`Usable`), for which the cubic kernel uses
    uninitialised memory (`C32_corner_padding_is_stale`, `C37_over_read`). -/
theorem C67_dipole_signal_partial {hst : Host} {junk : Nat → Nat} (hj : ∀ k, junk k < 2 ^ 32) (S : Sorter) (Z : SlabSize) (F : Fns ℝ) (pow2 : ℝ → ℝ) (enc : Option ℝ → Nat) (henc : ∀ x, enc x < 2 ^ 32)
    {uuid uuid' : Nat → List Nat} (hu : FreshNames uuid) (hu' : FreshNames uuid') (P : Params ℝ) {dir tmp : Nat} (hne : tmp ≠ dir) (d : Disk) (hd : ∀ e, e ≠ dir → d.fs (e, .index) = none)
    {hs ht : ℝ} (h : DipoleOk F pow2 P hs ht) {val : Nat → ℝ} (hval : ∀ x, FloatIsZero x → val x = 0) {kn : Kern ℝ} (hk : IsKernel kn) :
    ∃ (d' : Disk) (nr nz nt : Nat) (sr sz st : ℝ), electricDipole (dipCfg hst junk) S F pow2 enc uuid uuid' P dir tmp d = .ok d' ∧
      Divides P.r0 P.r1 hs nr sr ∧ Divides P.z0 P.z1 hs nz sz ∧ Divides 0 P.tEnd ht nt st ∧
      (0 < val (enc (some st)) → ∀ n, ∃ (g : Lib) (gm : GFMeta) (I : Lib × FS → Prop), load (dipCfg hst junk) S dir n d' = .ok (g, gm) ∧
        gmetaOf val gm = ⟨val (enc (some P.r0)), val (enc (some P.z0)), val (enc (some 0)), val (enc (some sr)), val (enc (some sz)), val (enc (some st))⟩ ∧ I (g, d'.fs) ∧
        Answers (libOf (readerCfg (dipCfg hst junk) n) val) I (gmetaOf val gm) kn (gridField F P enc val nr nz nt sr sz st) ⟨nr, nz, nt, P.maxPts, 2, false⟩) := by
  obtain ⟨d', nr, nz, nt, sr, sz, st, e1, r2, z2, t2, e2⟩ := dipole_serves hj S Z F pow2 enc henc hu hu' P hne d hd h hval
  refine ⟨d', nr, nz, nt, sr, sz, st, e1, r2, z2, t2, fun hst0 n => ?_⟩
  obtain ⟨g, gm, ms, I, f1, f2, f3, f4, f5, _⟩ := e2 n
  exact ⟨g, gm, I, f1, f2, f4, answers f3 f5 hk (by cases hk with
    | linear => exact Nat.le_succ 1
    | keys => exact Nat.le_refl 2) ⟨by have := r2.lt; show nr < _; omega, by have := z2.lt; show nz < _; omega, by have := t2.lt; show nt < _; omega⟩ _ (by rw [f2]; exact hst0) (fun i j k hi => .inl hi) fun x y t hx _ _ hu => Usable.stencil hk r2.pos hx hu⟩

/-- **C67**, at the grid points: the inner product with the unit vector `c` at a grid point and the time of a grid point is the field of the dipole there, component `c`. -/
theorem C67_grid_point (F : Fns ℝ) (P : Params ℝ) (enc : Option ℝ → Nat) (val : Nat → ℝ) {nr nz nt : Nat} {sr sz st : ℝ} (G : GMeta ℝ) (hG : 0 < G.dr ∧ 0 < G.dz ∧ 0 < G.dt) {kn : Kern ℝ} (hk : IsKernel kn)
    (c : Nat) {i j k : Nat} (hi : i ≤ nr) (hj : j ≤ nz) (hk' : k ≤ nt) :
    greenAt G kn (gridField F P enc val nr nz nt sr sz st) c (G.r0 + i * G.dr) (G.z0 + j * G.dz) (G.t0 + k * G.dt) =
      val (enc ((fieldAt F P.dip (P.r0 + sr * i) (P.z0 + sz * j) (st * k)).getD c none)) := by
  have e : ∀ {a b : ℝ} {n : Nat}, 0 < b → (a + n * b - a) / b = ((n : Int) : ℝ) := fun {a b n} hb => by
    have := hb.ne'
    rw [Int.cast_natCast]
    field_simp
    ring
  unfold greenAt GMeta.x GMeta.y GMeta.t
  rw [e hG.1, e hG.2.1, e hG.2.2, C36_reproduces_samples kn hk]
  unfold gridField
  rw [if_pos ⟨by rw [abs_of_nonneg (by omega)]; omega, ⟨by omega, by omega⟩, by omega, by omega⟩, abs_of_nonneg (by omega)]
  simp only [Int.cast_natCast]

/-! ### The hypotheses can be met -/

namespace Ex67

/-- Four requested steps in radial direction, from the axis, seven in vertical direction, ten in time; ice, oversampling factor 2, and chunks of 3 x 3 x 3 points. -/
theorem ok : ∃ (a b : ℝ), 0 < a ∧ 0 < b ∧ DipoleOk realFns (fun x => (2 : ℝ) ^ x) ⟨0, -a, 4 * a, 6 * a, 10 * b, 2, Ex65.ice, 3⟩ a b := by
  obtain ⟨f, f1, _, _, f2⟩ := real_req ⟨0, 0, 0, 0, 0, 2, Ex65.ice, 3⟩ (by decide) (by norm_num [Ex65.ice]) (by norm_num [Ex65.ice]) (by norm_num)
  have hi : (0 : ℝ) < Ex65.ice.ior := by norm_num [Ex65.ice]
  simp only at f2
  have hs : 0 < 1 / (f * Ex65.ice.ior) / (2 * 2) := by positivity
  have ht : 0 < 1 / (2 * f * 2) := by positivity
  generalize 1 / (f * Ex65.ice.ior) / (2 * 2) = a at *
  generalize 1 / (2 * f * 2) = b at *
  refine ⟨a, b, hs, ht, f2, ⟨hs, ht⟩, ?_, ?_, ?_, ?_, by show 0 < 3 ∧ 3 + 4 < 2 ^ 16; decide⟩
  · constructor <;> simp only <;> linarith
  · constructor <;> simp only <;> linarith
  · constructor <;> simp only <;> linarith
  · simp only
    have e1 : (4 * a - 0) / a = 4 := by field_simp; ring
    have e2 : (6 * a - -a) / a = 7 := by field_simp; ring
    have e3 : 10 * b / b = 10 := by field_simp
    rw [e1, e2, e3]
    norm_num

open Classical in
/-- A format with few numbers, among them those in the metadata. -/
noncomputable def enc (a b : ℝ) (o : Option ℝ) : Nat := if o = some 0 then 0 else if o = some a then 1 else if o = some (-a) then 2 else if o = some b then 3 else 4

noncomputable def val (a b : ℝ) (w : Nat) : ℝ := [0, a, -a, b, 1].getD w 0

theorem enc_lt (a b : ℝ) (o : Option ℝ) : enc a b o < 2 ^ 32 := by
  unfold enc
  split
  · decide
  split
  · decide
  split
  · decide
  split <;> decide

theorem val_enc {a b : ℝ} (x : ℝ) (hx : x = 0 ∨ x = a ∨ x = -a ∨ x = b) : val a b (enc a b (some x)) = x := by
  unfold enc
  simp only [Option.some.injEq]
  split
  · next h => rw [h]; rfl
  split
  · next h => rw [h]; rfl
  split
  · next h => rw [h]; rfl
  split
  · next h => rw [h]; rfl
  · next h1 h2 h3 h4 => exact absurd hx (by tauto)

theorem divides {lo hi req : ℝ} (hr : 0 < req) {N : Nat} (hN : 0 < N) (h : hi - lo = N * req) {n : Nat} {s : ℝ} (hd : Divides lo hi req n s) : n = N ∧ s = req := by
  have h1 := hd.fits
  have h2 := hd.most
  rw [h] at h1 h2
  have a1 : (n : ℝ) ≤ N := le_of_mul_le_mul_right h1 hr
  have a2 : (N : ℝ) < n + 1 := lt_of_mul_lt_mul_right h2 hr.le
  have a1 : n ≤ N := by exact_mod_cast a1
  have a2 : N < n + 1 := by exact_mod_cast a2
  have e : n = N := by omega
  refine ⟨e, ?_⟩
  have h3 := hd.ends
  subst e
  have h4 : (n : ℝ) * s = n * req := by linarith
  exact mul_left_cancel₀ (Nat.cast_ne_zero.2 hN.ne') h4

noncomputable def G (a b : ℝ) : GMeta ℝ := ⟨0, -a, 0, a, a, b⟩

theorem frac {u : ℝ} {k : Nat} (h1 : (k : ℝ) < u) (h2 : u < k + 1) : ¬ ∃ e : Int, u = e ∧ ChunkEnd 3 10 e := by
  rintro ⟨e, rfl, _⟩
  have h1' : (((k : Nat) : Int) : ℝ) < e := by simpa using h1
  have h2' : (e : ℝ) < (((k + 1 : Nat) : Int) : ℝ) := by push_cast; exact h2
  have := Int.cast_lt.1 h1'
  have := Int.cast_lt.1 h2'
  omega

/-- Eight samples. -/
theorem samplesOk (A : Nat → Int → Int → Int → ℝ) {a b : ℝ} (ha : 0 < a) (hb : 0 < b) : SamplesOk (G a b) (keys (Real.sqrt 7)) A ⟨4, 7, 10, 3, 2, false⟩ (3 / 2 * a) (5 / 2 * a) (b / 2) b 8 := by
  have hx : (G a b).x (3 / 2 * a) = 3 / 2 := by unfold GMeta.x G; field_simp; ring
  have hy : (G a b).y (5 / 2 * a) = 7 / 2 := by unfold GMeta.y G; field_simp; ring
  have ht : ∀ k : Nat, (G a b).t (b / 2 + k * b) = k + 1 / 2 := fun k => by unfold GMeta.t G; field_simp; ring
  have ht0 : (G a b).t (b / 2) = 1 / 2 := by have := ht 0; simpa using this
  refine ⟨hb, by decide, ?_, by rw [ht0]; norm_num, by rw [hx, hy]; norm_num, fun k hk => ?_, fun _ _ _ _ h => by cases h⟩
  · show _ / (b / b) < _
    rw [div_self hb.ne']; norm_num
  · have hk' : (k : ℝ) ≤ 7 := by exact_mod_cast (by omega : k ≤ 7)
    have hk0 : (0 : ℝ) ≤ k := Nat.cast_nonneg _
    rw [hx, hy, ht]
    refine ⟨⟨by norm_num, by norm_num, by linarith, by push_cast; linarith⟩, fun _ h => frac (k := k) (by linarith) (by linarith) h.2.2, fun _ => .inl (by norm_num)⟩

/-- A charge that moves upwards, parallel to the axis. -/
noncomputable def seg (a b : ℝ) : Segment ℝ := ⟨⟨3 / 2 * a, 0, 9 / 4 * a⟩, ⟨3 / 2 * a, 0, 11 / 4 * a⟩, 0, min (b / 4) 1, 1⟩

theorem signalOk (A : Nat → Int → Int → Int → ℝ) {a b : ℝ} (ha : 0 < a) (hb : 0 < b) : SignalOk (G a b) (keys (Real.sqrt 7)) A ⟨4, 7, 10, 3, 2, false⟩ (seg a b) (b / 2) b 8 .raise := by
  have hD : 0 < min (b / 4) 1 := lt_min (by linarith) one_pos
  have hD1 : min (b / 4) 1 ≤ 1 := min_le_right _ _
  have hD2 : min (b / 4) 1 / b ≤ 1 / 4 := by rw [div_le_iff₀ hb]; linarith [min_le_left (b / 4) 1]
  have hD3 : 0 < min (b / 4) 1 / b := div_pos hD hb
  have hN : 0 < intervals (seg a b) := Nat.ceil_pos.2 (by show 0 < min (b / 4) 1 - 0; linarith)
  have hNr : (0 : ℝ) < intervals (seg a b) := Nat.cast_pos.2 hN
  have hf : ∀ p ≤ intervals (seg a b), 0 ≤ (p : ℝ) / intervals (seg a b) ∧ (p : ℝ) / intervals (seg a b) ≤ 1 := fun p hp => by
    refine ⟨by positivity, ?_⟩
    rw [div_le_one hNr]; exact_mod_cast hp
  have hx : ∀ p, (G a b).x (lineR (seg a b) p) = 3 / 2 := fun p => by
    have e1 : lineX (seg a b) p = 3 / 2 * a := by unfold lineX seg; simp
    have e2 : lineY (seg a b) p = 0 := by unfold lineY seg; simp
    unfold lineR GMeta.x G
    rw [e1, e2]
    have : Real.sqrt ((3 / 2 * a) ^ 2 + 0 ^ 2) = 3 / 2 * a := by
      rw [show (3 / 2 * a) ^ 2 + 0 ^ 2 = (3 / 2 * a) ^ 2 by ring]
      exact Real.sqrt_sq (by positivity)
    rw [this]; field_simp; try ring
  have hy : ∀ p, (G a b).y (lineZ (seg a b) p) = 13 / 4 + (p : ℝ) / intervals (seg a b) / 2 := fun p => by
    show (9 / 4 * a + (p : ℝ) / intervals (seg a b) * (11 / 4 * a - 9 / 4 * a) - -a) / a = _
    generalize (p : ℝ) / intervals (seg a b) = q
    field_simp; ring
  have hl : ∀ p, lineTime (seg a b) p = (p : ℝ) / intervals (seg a b) * min (b / 4) 1 := fun p => by
    show 0 + (p : ℝ) * ((min (b / 4) 1 - 0) / intervals (seg a b)) = _
    ring
  have ht : ∀ p k, (G a b).t (delay (seg a b) (b / 2) b p k) = k + 1 / 2 - (p : ℝ) / intervals (seg a b) * (min (b / 4) 1 / b) := fun p k => by
    show (b / 2 + k * b - lineTime (seg a b) p - 0) / b = _
    rw [hl]
    generalize (p : ℝ) / intervals (seg a b) = q
    generalize min (b / 4) 1 = D
    field_simp; ring
  have hq : ∀ p ≤ intervals (seg a b), 0 ≤ (p : ℝ) / intervals (seg a b) * (min (b / 4) 1 / b) ∧ (p : ℝ) / intervals (seg a b) * (min (b / 4) 1 / b) ≤ 1 / 4 := fun p hp => by
    have h1 := hf p hp
    exact ⟨mul_nonneg h1.1 hD3.le, by nlinarith⟩
  have hk : ∀ k : Nat, k < 8 → 0 ≤ (k : ℝ) ∧ (k : ℝ) ≤ 7 := fun k hk => ⟨Nat.cast_nonneg _, by exact_mod_cast (by omega : k ≤ 7)⟩
  have hin : ∀ p k, p ≤ intervals (seg a b) → k < 8 → Grid.Has ⟨4, 7, 10, 3, 2, false⟩ ((G a b).x (lineR (seg a b) p)) ((G a b).y (lineZ (seg a b) p)) ((G a b).t (delay (seg a b) (b / 2) b p k)) := fun p k hp hk' => by
    have h1 := hf p hp
    have h3 := hq p hp
    have h2 := hk k hk'
    rw [hx, hy, ht]
    refine ⟨by norm_num, ⟨by linarith, ?_⟩, by linarith, ?_⟩
    · push_cast; linarith
    · push_cast; linarith
  refine ⟨hD, hb, ?_, by decide, fun p hp => ?_, ?_, fun p _ => ?_, fun p hp => ?_, fun p k hp hk' _ => ?_, fun p k hp hk' _ => ⟨fun _ h => ?_, fun _ => .inl ?_⟩, fun _ _ _ _ _ _ _ h => (by cases h), fun _ p k hp hk' _ => hin p k hp hk', fun h => by cases h⟩
  · show min (b / 4) 1 - 0 < _
    linarith
  · have h1 := hq p hp
    rw [hl]
    have e : ((p : ℝ) / intervals (seg a b) * min (b / 4) 1 - b / 2) / b = (p : ℝ) / intervals (seg a b) * (min (b / 4) 1 / b) - 1 / 2 := by
      generalize (p : ℝ) / intervals (seg a b) = q
      generalize min (b / 4) 1 = D
      field_simp
    rw [e]
    constructor <;> linarith
  · show _ / (b / b) < _
    rw [div_self hb.ne']; norm_num
  · rw [hx]; norm_num
  · have h1 := hf p hp
    rw [hy]
    constructor <;> linarith
  · have h1 := hq p hp
    have h2 := hk k hk'
    rw [ht]
    constructor <;> linarith
  · rw [ht] at h
    have h1 := hq p hp
    exact frac (k := k) (by linarith) (by linarith) h.2.2
  · rw [hx]; norm_num

/-- C67 applies: the Green's function is calculated and loaded with a cache of two chunks; the signal and the samples are calculated with it. -/
example (d : Disk) (hd : ∀ e, e ≠ 0 → d.fs (e, .index) = none) : ∃ (a b : ℝ) (d' : Disk) (g : Lib) (gm : GFMeta) (s : Lib × FS) (out : List ℝ) (s' : Lib × FS) (out' : List ℝ),
    electricDipole (dipCfg .little fun _ => 77) Tree.Ex.S realFns (fun x => (2 : ℝ) ^ x) (enc a b) (fun k => [k]) (fun k => [k]) ⟨0, -a, 4 * a, 6 * a, 10 * b, 2, Ex65.ice, 3⟩ 0 1 d = .ok d' ∧
    load (dipCfg .little fun _ => 77) Tree.Ex.S 0 2 d' = .ok (g, gm) ∧
    accumulate (libOf (readerCfg (dipCfg .little fun _ => 77) 2) (val a b)) (gmetaOf (val a b) gm) (keys (Real.sqrt 7)) id (fun _ => 9) (3 / 2 * a) (5 / 2 * a) (b / 2) b 8 [0, 1] (List.replicate 8 0) 0 1 .raise (g, d'.fs) =
      .ok (s, out) ∧
    apply (libOf (readerCfg (dipCfg .little fun _ => 77) 2) (val a b)) (gmetaOf (val a b) gm) (keys (Real.sqrt 7)) id (fun _ _ _ => 9) (fun _ => 9) 100 100 (seg a b) (b / 2) b 8 (List.replicate 8 0) .raise 1 s = .ok (s', out') ∧
    ∀ k < 8, out.getD k 0 = greenAt (G a b) (keys (Real.sqrt 7))
      (gridField realFns ⟨0, -a, 4 * a, 6 * a, 10 * b, 2, Ex65.ice, 3⟩ (enc a b) (val a b) 4 7 10 a a b) 1 (3 / 2 * a) (5 / 2 * a) (b / 2 + k * b) := by
  obtain ⟨a, b, ha, hb, h⟩ := ok
  obtain ⟨d', nr, nz, nt, sr, sz, st, e1, r2, z2, t2, e2⟩ := C67_dipole_signal_partial (hst := .little) (junk := fun _ => 77) (fun _ => by decide) Tree.Ex.S Tree.Ex.Z realFns (fun x => (2 : ℝ) ^ x) (enc a b) (enc_lt a b)
    Ex63.names Ex63.names ⟨0, -a, 4 * a, 6 * a, 10 * b, 2, Ex65.ice, 3⟩ (dir := 0) (tmp := 1) (by decide) d hd h (val := val a b) (fun x hx => by
      rcases hx with rfl | rfl <;> rfl) (kn := keys (Real.sqrt 7)) .keys
  obtain ⟨rfl, e4⟩ := divides (N := 4) ha (by decide) (by simp only; norm_num) r2
  obtain ⟨rfl, e5⟩ := divides (N := 7) ha (by decide) (by simp only; norm_num; ring) z2
  obtain ⟨rfl, e6⟩ := divides (N := 10) hb (by decide) (by simp only; norm_num) t2
  rw [e4, e5, e6] at e2
  obtain ⟨g, gm, I, f1, f2, f3, f4⟩ := e2 (by rw [val_enc _ (by tauto)]; exact hb) 2
  have hG : gmetaOf (val a b) gm = G a b := by
    rw [f2]
    simp only
    rw [val_enc _ (by tauto), val_enc _ (by tauto), val_enc _ (by tauto), val_enc _ (by tauto)]
    rfl
  rw [hG] at f4
  obtain ⟨s, out, g1, g2, g3, g4⟩ := f4.inner (g, d'.fs) id (fun _ => 9) (3 / 2 * a) (5 / 2 * a) (b / 2) b 8 [0, 1] 1 .raise (List.replicate 8 0) 0 f3 rfl (samplesOk _ ha hb) (by simp)
  obtain ⟨s', out', k1, k2, k3, k4⟩ := f4.signal s id (fun _ _ _ => 9) (fun _ => 9) 100 100 (seg a b) (b / 2) b 8 (List.replicate 8 0) .raise 1 g2 rfl (by decide) (by decide) (by simp) (signalOk _ ha hb)
  refine ⟨a, b, d', g, gm, s, out, s', out', e1, f1, by rw [hG]; exact g1, by rw [hG]; exact k1, fun k hk => ?_⟩
  rw [g4 k, if_pos ⟨Nat.zero_le _, by omega⟩]
  have : (List.replicate 8 (0 : ℝ)).getD k 0 = 0 := by
    rw [List.getD_eq_getElem?_getD, List.getElem?_replicate]; split <;> rfl
  rw [this, Nat.sub_zero]
  simp

end Ex67

end Verif.Analytic
