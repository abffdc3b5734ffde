import Verif.Analytic.Converge
/-
C90: the hypotheses can be met.
-/
namespace Verif.Analytic
open Verif Verif.ND Verif.Dist Verif.Tree Verif.Bytes Verif.Ops Verif.Rebuild Verif.Green Verif.NullSup Set

namespace Ex90

/-- Ice, with a filter of order 4 and no smallest radius. -/
noncomputable def ice : Dipole ℝ := ⟨178 / 100, 5, 4, 0⟩

noncomputable def par (a b : ℝ) : Params ℝ := ⟨0, -a, 4 * a, 6 * a, 10 * b, 2, ice, 3⟩

theorem ok : ∃ (a b : ℝ), 0 < a ∧ 0 < b ∧ DipoleOk realFns (fun x => (2 : ℝ) ^ x) (par a b) a b := by
  obtain ⟨f, f1, _, _, f2⟩ := real_req ⟨0, 0, 0, 0, 0, 2, ice, 3⟩ (by decide) (by norm_num [ice]) (by norm_num [ice]) (by norm_num)
  have hi : (0 : ℝ) < ice.ior := by norm_num [ice]
  simp only at f2
  have hs : 0 < 1 / (f * ice.ior) / (2 * 2) := by positivity
  have ht : 0 < 1 / (2 * f * 2) := by positivity
  generalize 1 / (f * ice.ior) / (2 * 2) = a at *
  generalize 1 / (2 * f * 2) = b at *
  refine ⟨a, b, hs, ht, f2, ⟨hs, ht⟩, ?_, ?_, ?_, ?_, by show 0 < 3 ∧ 3 + 4 < 2 ^ 16; decide⟩
  · constructor <;> simp only [par] <;> linarith
  · constructor <;> simp only [par] <;> linarith
  · constructor <;> simp only [par] <;> linarith
  · simp only [par]
    have e1 : (4 * a - 0) / a = 4 := by field_simp; ring
    have e2 : (6 * a - -a) / a = 7 := by field_simp; ring
    have e3 : 10 * b / b = 10 := by field_simp
    rw [e1, e2, e3]
    norm_num

noncomputable def box (a b : ℝ) : Region := ⟨0, 3 * a, a, 4 * a, 2 * b, 5 * b⟩

theorem away {a b : ℝ} (ha : 0 < a) (hb : 0 < b) : AwayFrom ice (box a b) := by
  refine ⟨⟨⟨le_rfl, by show (0 : ℝ) < 3 * a; linarith⟩, by show a < 4 * a; linarith, by show 2 * b < 5 * b; linarith⟩, fun r _ z hz => ⟨Real.sqrt_nonneg _, ?_⟩⟩
  have : a ≤ z := hz.1
  nlinarith [mul_self_nonneg r]

/-- The total error of the stored samples. -/
noncomputable def err (a b : ℝ) : ℝ := ∑ c ∈ Finset.range 2, ∑ i ∈ Finset.range 5, ∑ j ∈ Finset.range 8, ∑ k ∈ Finset.range 11,
  |Ex67.val a b (Ex67.enc a b ((fieldAt realFns ice (0 + a * (i : ℝ)) (-a + a * (j : ℝ)) (b * (k : ℝ))).getD c none)) - dipoleE ice c (0 + i * a) (-a + j * a) (0 + k * b)|

theorem term_le (f : Nat → Nat → Nat → Nat → ℝ) (hf : ∀ c i j k, 0 ≤ f c i j k) {c i j k : Nat} (hc : c < 2) (hi : i < 5) (hj : j < 8) (hk : k < 11) :
    f c i j k ≤ ∑ c ∈ Finset.range 2, ∑ i ∈ Finset.range 5, ∑ j ∈ Finset.range 8, ∑ k ∈ Finset.range 11, f c i j k := by
  have h1 := Finset.single_le_sum (f := fun k => f c i j k) (fun k _ => hf c i j k) (Finset.mem_range.2 hk)
  have h2 := Finset.single_le_sum (f := fun j => ∑ k ∈ Finset.range 11, f c i j k) (fun j _ => Finset.sum_nonneg fun k _ => hf c i j k) (Finset.mem_range.2 hj)
  have h3 := Finset.single_le_sum (f := fun i => ∑ j ∈ Finset.range 8, ∑ k ∈ Finset.range 11, f c i j k) (fun i _ => Finset.sum_nonneg fun j _ => Finset.sum_nonneg fun k _ => hf c i j k) (Finset.mem_range.2 hi)
  have h4 := Finset.single_le_sum (f := fun c => ∑ i ∈ Finset.range 5, ∑ j ∈ Finset.range 8, ∑ k ∈ Finset.range 11, f c i j k)
    (fun c _ => Finset.sum_nonneg fun i _ => Finset.sum_nonneg fun j _ => Finset.sum_nonneg fun k _ => hf c i j k) (Finset.mem_range.2 hc)
  exact h1.trans (h2.trans (h3.trans h4))

theorem floor3 {x : ℝ} (h1 : 13 / 4 ≤ x) (h2 : x ≤ 15 / 4) : ⌊x⌋ = 3 := Int.floor_eq_iff.2 ⟨by push_cast; linarith, by push_cast; linarith⟩

theorem stored {a b : ℝ} (ha : 0 < a) (hb : 0 < b) : StoredWell ice (par a b) (Ex67.enc a b) (Ex67.val a b) (Ex67.G a b) 4 7 10 a a b (box a b) (err a b) := by
  refine ⟨rfl, ⟨⟨ha, ha, hb⟩, ?_⟩, ⟨⟨le_rfl, ?_⟩, ⟨?_, ?_⟩, ?_, ?_⟩, fun c hc i j k hi hj hk => ?_⟩
  · unfold err
    exact Finset.sum_nonneg fun c _ => Finset.sum_nonneg fun i _ => Finset.sum_nonneg fun j _ => Finset.sum_nonneg fun k _ => abs_nonneg _
  · show 3 * a ≤ 0 + ((4 : Nat) : ℝ) * a
    push_cast; linarith
  · show -a ≤ a
    linarith
  · show 4 * a ≤ -a + ((7 : Nat) : ℝ) * a
    push_cast; linarith
  · show 0 ≤ 2 * b
    linarith
  · show 5 * b ≤ 0 + ((10 : Nat) : ℝ) * b
    push_cast; linarith
  · have h1 : 0 + (i : ℝ) * a ≤ 3 * a := hi.2
    have h2 : -a + (j : ℝ) * a ≤ 4 * a := hj.2
    have h3 : 0 + (k : ℝ) * b ≤ 5 * b := hk.2
    have i1 : (i : ℝ) ≤ 3 := le_of_mul_le_mul_right (by linarith) ha
    have j1 : (j : ℝ) ≤ 5 := le_of_mul_le_mul_right (by linarith) ha
    have k1 : (k : ℝ) ≤ 5 := le_of_mul_le_mul_right (by linarith) hb
    have i1 : i ≤ 3 := by exact_mod_cast i1
    have j1 : j ≤ 5 := by exact_mod_cast j1
    have k1 : k ≤ 5 := by exact_mod_cast k1
    exact term_le (fun c i j k => |Ex67.val a b (Ex67.enc a b ((fieldAt realFns ice (0 + a * (i : ℝ)) (-a + a * (j : ℝ)) (b * (k : ℝ))).getD c none)) - dipoleE ice c (0 + i * a) (-a + j * a) (0 + k * b)|)
      (fun _ _ _ _ => abs_nonneg _) hc (by omega) (by omega) (by omega)

theorem atR_seg {a b : ℝ} (ha : 0 < a) (t : ℝ) : atR (Ex67.seg a b) t = 3 / 2 * a := by
  have e1 : atX (Ex67.seg a b) t = 3 / 2 * a := by unfold atX Ex67.seg; simp
  have e2 : atY (Ex67.seg a b) t = 0 := by unfold atY Ex67.seg; simp
  unfold atR
  rw [e1, e2, show (3 / 2 * a) ^ 2 + 0 ^ 2 = (3 / 2 * a) ^ 2 by ring]
  exact Real.sqrt_sq (by positivity)

theorem atZ_seg {a b t : ℝ} (ha : 0 < a) (hb : 0 < b) (ht : t ∈ Icc 0 (min (b / 4) 1)) : 9 / 4 * a ≤ atZ (Ex67.seg a b) t ∧ atZ (Ex67.seg a b) t ≤ 11 / 4 * a := by
  have hD : 0 < min (b / 4) 1 := lt_min (by linarith) one_pos
  have e : atZ (Ex67.seg a b) t = 9 / 4 * a + t / min (b / 4) 1 * (1 / 2 * a) := by
    show 9 / 4 * a + (t - 0) / (min (b / 4) 1 - 0) * (11 / 4 * a - 9 / 4 * a) = _
    rw [sub_zero, sub_zero]; ring
  have q1 : 0 ≤ t / min (b / 4) 1 := div_nonneg ht.1 hD.le
  have q2 : t / min (b / 4) 1 ≤ 1 := (div_le_one hD).2 ht.2
  rw [e]
  constructor <;> nlinarith

theorem covered {a b : ℝ} (ha : 0 < a) (hb : 0 < b) : TrackCovered (Ex67.G a b) (keys (Real.sqrt 7)) ⟨4, 7, 10, 3, 2, false⟩ (box a b) (Ex67.seg a b) (b / 2 + (3 : Nat) * b) := by
  intro t ht
  have hD : 0 < min (b / 4) 1 := lt_min (by linarith) one_pos
  have t0 : 0 ≤ t := ht.1
  have t1 : t ≤ min (b / 4) 1 := ht.2.trans (min_le_left _ _)
  have t2 : t ≤ b / 4 := t1.trans (min_le_left _ _)
  obtain ⟨z1, z2⟩ := atZ_seg ha hb ⟨t0, t1⟩
  generalize atZ (Ex67.seg a b) t = z at *
  rw [atR_seg ha]
  have fx : (3 / 2 * a - 0) / a = 3 / 2 := by field_simp; ring
  have y1 : 13 / 4 ≤ (z - -a) / a := by rw [le_div_iff₀ ha]; linarith
  have y2 : (z - -a) / a ≤ 15 / 4 := by rw [div_le_iff₀ ha]; linarith
  have u1 : 13 / 4 ≤ (b / 2 + (3 : Nat) * b - t - 0) / b := by rw [le_div_iff₀ hb]; push_cast; linarith
  have u2 : (b / 2 + (3 : Nat) * b - t - 0) / b ≤ 7 / 2 := by rw [div_le_iff₀ hb]; push_cast; linarith
  have n1 : ⌊(3 / 2 : ℝ)⌋ = 1 := by norm_num
  have n2 : ⌊(z - -a) / a⌋ = 3 := floor3 y1 y2
  have n3 : ⌊(b / 2 + (3 : Nat) * b - t - 0) / b⌋ = 3 := floor3 u1 (u2.trans (by norm_num))
  refine ⟨⟨⟨?_, ?_⟩, ⟨?_, ?_⟩, ?_, ?_⟩, ⟨?_, ?_⟩, ⟨?_, ?_⟩, ⟨?_, ?_⟩⟩
  · show 0 ≤ (3 / 2 * a - 0) / a
    rw [fx]; norm_num
  · show (3 / 2 * a - 0) / a < (4 : Nat) + 1
    rw [fx]; norm_num
  · show 0 ≤ (z - -a) / a
    linarith
  · show (z - -a) / a < (7 : Nat) + 1
    push_cast; linarith
  · show 0 ≤ (b / 2 + (3 : Nat) * b - t - 0) / b
    linarith
  · show (b / 2 + (3 : Nat) * b - t - 0) / b < (10 : Nat) + 1
    push_cast at u2 ⊢; linarith
  · show 0 ≤ 0 + ((⌊(3 / 2 * a - 0) / a⌋ : ℝ) - ((2 : Nat) - 1)) * a
    rw [fx, n1]; norm_num
  · show 0 + ((⌊(3 / 2 * a - 0) / a⌋ : ℝ) + (2 : Nat)) * a ≤ 3 * a
    rw [fx, n1]; norm_num
  · show a ≤ -a + ((⌊(z - -a) / a⌋ : ℝ) - ((2 : Nat) - 1)) * a
    rw [n2]; norm_num; linarith
  · show -a + ((⌊(z - -a) / a⌋ : ℝ) + (2 : Nat)) * a ≤ 4 * a
    rw [n2]; norm_num; linarith
  · show 2 * b ≤ 0 + ((⌊(b / 2 + (3 : Nat) * b - t - 0) / b⌋ : ℝ) - ((2 : Nat) - 1)) * b
    rw [n3]; norm_num
  · show 0 + ((⌊(b / 2 + (3 : Nat) * b - t - 0) / b⌋ : ℝ) + (2 : Nat)) * b ≤ 5 * b
    rw [n3]; norm_num

/-- `C90_signal` and `C90_track` apply: a Green's function of a dipole in ice is calculated and loaded, and the fourth sample of the signal of a charge that moves parallel to the axis is that of the field of the dipole,
    up to the error. -/
example (dsk : Disk) (hd : ∀ e, e ≠ 0 → dsk.fs (e, .index) = none) : ∃ (a b M M2 : ℝ) (d' : Disk) (g : Lib) (gm : GFMeta) (s' : Lib × FS) (out' : List ℝ),
    electricDipole (dipCfg .little fun _ => 77) Tree.Ex.S realFns (fun x => (2 : ℝ) ^ x) (Ex67.enc a b) (fun k => [k]) (fun k => [k]) (par a b) 0 1 dsk = .ok d' ∧
    load (dipCfg .little fun _ => 77) Tree.Ex.S 0 2 d' = .ok (g, gm) ∧
    apply (libOf (readerCfg (dipCfg .little fun _ => 77) 2) (Ex67.val a b)) (Ex67.G a b) (keys (Real.sqrt 7)) id (fun _ _ _ => 9) (fun _ => 9) 100 100 (Ex67.seg a b) (b / 2) b 8 (List.replicate 8 0) .raise 1 (g, d'.fs) = .ok (s', out') ∧
    |out'.getD 3 0 - (0 - 1 * ∫ t in (Ex67.seg a b).t0..(Ex67.seg a b).t1, induced (dipoleE ice) (Ex67.seg a b) (b / 2 + (3 : Nat) * b) t)| ≤
      |1| * (fieldError (Ex67.seg a b) (interpErr (Ex67.G a b) 2 (9 / 32) (5 / 4) M M M (err a b)) (interpErr (Ex67.G a b) 2 (9 / 32) (5 / 4) M M M (err a b)) +
        (((Ex67.seg a b).t1 - (Ex67.seg a b).t0) / intervals (Ex67.seg a b)) ^ 2 / 12 * (M2 * ((Ex67.seg a b).t1 - (Ex67.seg a b).t0))) := by
  obtain ⟨a, b, ha, hb, h⟩ := ok
  have hn : ice.ior ≠ 0 := by norm_num [ice]
  have hp : 0 < ice.tPeak := by norm_num [ice]
  have ho : ice.order = 4 := rfl
  have hD : 0 < min (b / 4) 1 := lt_min (by linarith) one_pos
  obtain ⟨M, _, hM⟩ := C90_signal ice hn hp (d := 2) (by rw [ho]) (away ha hb) (kn := keys (Real.sqrt 7)) .keys2 .keys
  obtain ⟨M2, hM2⟩ := C90_track ice hn hp (by rw [ho]) (away ha hb) (Ex67.seg a b) hD (b / 2 + (3 : Nat) * b) (fun t ht => by
    obtain ⟨z1, z2⟩ := atZ_seg ha hb ht
    rw [atR_seg ha]
    refine ⟨by positivity, ⟨?_, ?_⟩, ⟨?_, ?_⟩⟩
    · show 0 ≤ 3 / 2 * a
      positivity
    · show 3 / 2 * a ≤ 3 * a
      linarith
    · show a ≤ _
      linarith
    · show _ ≤ 4 * a
      linarith)
  obtain ⟨d', nr, nz, nt, sr, sz, st, e1, r2, z2, t2, e2⟩ := hM (hst := .little) (junk := fun _ => 77) (fun _ => by decide) Tree.Ex.S Tree.Ex.Z (fun x => (2 : ℝ) ^ x) (Ex67.enc a b) (Ex67.enc_lt a b)
    Ex63.names Ex63.names (par a b) (dir := 0) (tmp := 1) (by decide) dsk hd h (val := Ex67.val a b) (fun x hx => by
      rcases hx with rfl | rfl <;> rfl)
  obtain ⟨rfl, e4⟩ := Ex67.divides (N := 4) ha (by decide) (by simp only [par]; norm_num) r2
  obtain ⟨rfl, e5⟩ := Ex67.divides (N := 7) ha (by decide) (by simp only [par]; norm_num; ring) z2
  obtain ⟨rfl, e6⟩ := Ex67.divides (N := 10) hb (by decide) (by simp only [par]; norm_num) t2
  rw [e4, e5, e6] at e2
  have hG : Ex67.G a b = ⟨Ex67.val a b (Ex67.enc a b (some 0)), Ex67.val a b (Ex67.enc a b (some (-a))), Ex67.val a b (Ex67.enc a b (some 0)), Ex67.val a b (Ex67.enc a b (some a)),
      Ex67.val a b (Ex67.enc a b (some a)), Ex67.val a b (Ex67.enc a b (some b))⟩ := by
    rw [Ex67.val_enc _ (by tauto), Ex67.val_enc _ (by tauto), Ex67.val_enc _ (by tauto), Ex67.val_enc _ (by tauto)]
    rfl
  obtain ⟨g, gm, I, f1, f2, f3, f4⟩ := e2 _ hG _ (stored ha hb) 2
  obtain ⟨s', out', k1, k2, k3, k4, k5⟩ := f4 (g, d'.fs) f3 id rfl (fun _ _ _ => 9) (fun _ => 9) 100 100 (by decide) (by decide) (Ex67.seg a b) (b / 2) b 8 (List.replicate 8 0) .raise 1 (by simp) (Ex67.signalOk _ ha hb)
  refine ⟨a, b, M, M2, d', g, gm, s', out', e1, f1, k1, ?_⟩
  have := k5 3 (by decide) (covered ha hb) (by
    show min (b / 4) 1 ≤ b / 2 + (3 : Nat) * b
    have := min_le_left (b / 4) 1
    push_cast; linarith) M2 hM2
  simpa using this

/-- `C90_field`: the interpolation converges to the field when the step `h` of the grid goes to zero. -/
example : ∃ M, 0 ≤ M ∧ ∀ h > 0, ∀ r z t, Around ⟨0, 0, 0, h, h, h⟩ 2 (box 1 1) r z t →
    |greenAt ⟨0, 0, 0, h, h, h⟩ (keys (Real.sqrt 7)) (fun c i j k => dipoleE ice c (0 + i * h) (0 + j * h) (0 + k * h)) 1 r z t - dipoleE ice 1 r z t| ≤ M * h ^ 2 := by
  obtain ⟨M, h0, hM⟩ := C90_field ice (by norm_num [ice]) (by norm_num [ice]) (d := 2) (show 2 + 2 ≤ 4 by decide) (away one_pos one_pos) (kn := keys (Real.sqrt 7)) .keys2
  refine ⟨9 / 32 * (1 + 5 / 4 + (5 / 4) ^ 2) * M, by positivity, fun h hh r z t ha => ?_⟩
  have := hM ⟨0, 0, 0, h, h, h⟩ (fun c i j k => dipoleE ice c (0 + i * h) (0 + j * h) (0 + k * h)) 0 ⟨hh, hh, hh⟩ (fun c _ i j k _ _ _ => by simp) 1 (by decide) r z t ha
  refine this.trans (le_of_eq ?_)
  unfold interpErr
  simp only
  ring

end Ex90

end Verif.Analytic
