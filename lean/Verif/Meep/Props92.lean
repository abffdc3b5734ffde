import Verif.Meep.Converge
import Verif.Green.Props88
/-
C92: the hypotheses of the theorems in Verif.Meep.Converge can be met.
-/
set_option linter.unusedSectionVars false
namespace Verif.Meep
open Verif Verif.ND Verif.Dist Verif.Tree Verif.Ops Verif.Rebuild Verif.Green Verif.NullSup Verif.Bytes Verif.Analytic Set

namespace Ex92

/-- The region that is stored in the example of C69. -/
theorem region : ∃ s : Storage ℝ, storageDomain Ex69.geom Ex69.request 1 6 7 = .ok s ∧ s.start = [1, 0] ∧ s.shape = [4, 5] ∧ s.region = ⟨0, 5, 1, 5⟩ := by
  obtain ⟨s, h1, h2, h3⟩ := Ex69.stored
  obtain ⟨s', e1, z0, r0, dz, dr, e2, e3, _, _, hz, hr⟩ := storage_ok Ex69.setup
  rw [h1] at e1
  cases e1
  rw [h2] at e2
  rw [h3] at e3
  cases e2
  cases e3
  refine ⟨s, h1, h2, h3, ?_⟩
  have l1 := hz.lower
  have u1 := hz.upper
  have l2 := hr.lower
  have u2 := hr.upper
  simp only [Ex69.geom] at l1 u1 l2 u2
  norm_num at l1 u1 l2 u2
  obtain ⟨st, sh, ⟨a, b, c, d⟩⟩ := s
  simp only at l1 u1 l2 u2
  rw [l1, u1, l2, u2]

/-- The recorded coordinates: the cells have the size 1, but the steps are 5/4 and 4/3. -/
theorem coords : coordsOf (⟨0, 5, 1, 5⟩ : CylRegion ℝ) 1 [5, 4, 2] = .ok ([0, 1, 0], [5, 5, 1], [5 / 4, 4 / 3, 1]) := by
  have k : ∀ {x y q : ℝ}, y ≠ 0 → x / y = q → fdiv x y = .ok q := fun hy hq => by rw [fdiv_ok hy, hq]
  unfold coordsOf
  simp only [List.getD_cons_zero, List.getD_cons_succ]
  rw [k (q := 5 / 4) (by norm_num) (by norm_num), Res.ok_bind, k (q := 4 / 3) (by norm_num) (by norm_num), Res.ok_bind, k (q := 1) (by norm_num) (by norm_num), Res.ok_bind]

theorem recording : ∃ s, Recording Ex69.geom Ex69.request 1 6 7 s 1 0 4 5 1 1 1 [0, 1] 1 2 Ex69.pd [0, 1, 0] [5, 5, 1] [5 / 4, 4 / 3, 1] := by
  obtain ⟨s, h1, h2, h3, h4⟩ := region
  refine ⟨s, Ex69.setup, ⟨h1, h2, h3⟩, ⟨one_pos, one_pos, zero_le_one, Ex69.samples⟩, ⟨⟨rfl, rfl, rfl⟩, by decide, by decide, by decide, by decide⟩, Ex69.padded, by decide, ?_⟩
  rw [h4, h3]
  exact coords

/-- The simulated field of that example: the time, and ten times the height plus the distance from the axis. -/
def field (c : Nat) (r z t : ℝ) : ℝ := if c = 0 then t else 10 * z + r

theorem val_small {n : Nat} (h : n < 2 ^ 31) : Ex69.val n = n := by
  unfold Ex69.val
  rw [if_neg (by omega)]

theorem simulates : Simulates Ex69.val Ex57.F field Ex69.geom 1 1 0 0 6 7 [0, 1] := by
  intro c hc n hn z hz r hr
  have hn' : n < 2 := by
    simp only [List.mem_cons, List.not_mem_nil, or_false] at hn
    omega
  have : c = 0 ∨ c = 1 := by omega
  rcases this with rfl | rfl
  · show |Ex69.val n - (n * 1 : ℝ)| ≤ 0
    rw [val_small (by omega)]
    simp
  · show |Ex69.val (10 * z + r) - (10 * (0 + ((z : ℝ) + 0) / 1) + ((r : ℝ) + 0) / 1)| ≤ 0
    rw [val_small (by omega)]
    push_cast
    simp

def box : Region := ⟨0, 4, 1, 4, 0, 1⟩
def all : Region := ⟨0, 7, 0, 6, 0, 2⟩

theorem encloses : Encloses all Ex69.geom (1 + 1) box := by
  constructor <;> norm_num [all, box, Ex69.geom]

theorem slope : ∀ c < 2, Slope (field c) all 1 10 1 := by
  intro c hc r _ r' _ z _ z' _ t _ t' _
  have h1 := abs_nonneg (r - r')
  have h2 := abs_nonneg (z - z')
  have h3 := abs_nonneg (t - t')
  unfold field
  split
  · linarith
  · have : 10 * z + r - (10 * z' + r') = 10 * (z - z') + (r - r') := by ring
    rw [this]
    refine (abs_add_le _ _).trans ?_
    rw [abs_mul, abs_of_pos (by norm_num : (0 : ℝ) < 10)]
    linarith

theorem affine2 (p q : ℝ) {a b : ℝ} (hab : a < b) : BoundedDeriv 2 (fun x => p * x + q) a b 0 :=
  deriv2 (f1 := fun _ => p) (f2 := fun _ => 0) hab (fun _ _ => rfl) (by fun_prop) (fun x => by simpa using ((hasDerivAt_id x).const_mul p).add_const q) (fun x => hasDerivAt_const x p) (fun _ _ => by simp)

theorem smooth : ∀ c < 2, SmoothField 2 (field c) box 0 0 0 := by
  intro c hc
  have h : c = 0 ∨ c = 1 := by omega
  rcases h with rfl | rfl
  · refine ⟨fun z _ t _ => ?_, fun r _ t _ => ?_, fun r _ z _ => ?_⟩
    · refine (show (fun r => field 0 r z t) = fun x => 0 * x + t from funext fun x => ?_) ▸ affine2 0 t (by norm_num [box])
      simp [field]
    · refine (show (fun z => field 0 r z t) = fun x => 0 * x + t from funext fun x => ?_) ▸ affine2 0 t (by norm_num [box])
      simp [field]
    · refine (show (fun t => field 0 r z t) = fun x => 1 * x + 0 from funext fun x => ?_) ▸ affine2 1 0 (by norm_num [box])
      simp [field]
  · refine ⟨fun z _ t _ => ?_, fun r _ t _ => ?_, fun r _ z _ => ?_⟩
    · refine (show (fun r => field 1 r z t) = fun x => 1 * x + 10 * z from funext fun x => ?_) ▸ affine2 1 (10 * z) (by norm_num [box])
      simp [field]; ring
    · refine (show (fun z => field 1 r z t) = fun x => 10 * x + r from funext fun x => ?_) ▸ affine2 10 r (by norm_num [box])
      simp [field]
    · refine (show (fun t => field 1 r z t) = fun x => 0 * x + (10 * z + r) from funext fun x => ?_) ▸ affine2 0 (10 * z + r) (by norm_num [box])
      simp [field]

theorem rounded : Rounded Ex69.G [0, 1, 0] [5 / 4, 4 / 3, 1] 5 4 2 box 1 := by
  refine ⟨by norm_num [Ex69.G], fun j hj => ?_, fun j hj => ?_, fun j hj => ?_, by norm_num [Ex69.G, box], by norm_num [Ex69.G, box], by norm_num [Ex69.G, box]⟩
  · have h1 : (j : ℝ) ≤ 4 := by exact_mod_cast (by omega : j ≤ 4)
    have h0 : (0 : ℝ) ≤ j := Nat.cast_nonneg j
    show |(0 : ℝ) + j * 1 - (0 + j * (5 / 4))| ≤ 1
    exact abs_le.2 ⟨by linarith, by linarith⟩
  · have h1 : (j : ℝ) ≤ 3 := by exact_mod_cast (by omega : j ≤ 3)
    have h0 : (0 : ℝ) ≤ j := Nat.cast_nonneg j
    show |(1 : ℝ) + j * 1 - (1 + j * (4 / 3))| ≤ 1
    exact abs_le.2 ⟨by linarith, by linarith⟩
  · show |(0 : ℝ) + j * 1 - (0 + j * 1)| ≤ 1
    simp

/-- `C92_field` applies, here with the linear kernel at one point of the first cell. -/
example : |greenAt Ex69.G linear (meepField Ex69.val (sampled Ex57.F [0, 1]) 1 2 1 0 Ex69.pd) 1 (1 / 2) (3 / 2) (1 / 2) - field 1 (1 / 2) (3 / 2) (1 / 2)| ≤
    interpErr Ex69.G 2 (1 / 8) 1 0 0 0 (sampleErr 0 1 10 1 1 1 1 1 1) := by
  obtain ⟨s, R⟩ := recording
  refine C92_field R rounded (by norm_num) simulates (by norm_num) slope encloses .linear2 (c := 1) (by decide) (smooth 1 (by decide)) _ _ _ ?_
  have f : ⌊(1 / 2 : ℝ)⌋ = 0 := by norm_num
  refine ⟨?_, ?_, ?_⟩
  · show (0 : ℝ) ≤ 0 + ((⌊((1 : ℝ) / 2 - 0) / 1⌋ : ℝ) - (((1 : Nat) : ℝ) - 1)) * 1 ∧ 0 + ((⌊((1 : ℝ) / 2 - 0) / 1⌋ : ℝ) + ((1 : Nat) : ℝ)) * 1 ≤ 4
    rw [show ((1 : ℝ) / 2 - 0) / 1 = 1 / 2 by norm_num, f]; norm_num
  · show (1 : ℝ) ≤ 1 + ((⌊((3 : ℝ) / 2 - 1) / 1⌋ : ℝ) - (((1 : Nat) : ℝ) - 1)) * 1 ∧ 1 + ((⌊((3 : ℝ) / 2 - 1) / 1⌋ : ℝ) + ((1 : Nat) : ℝ)) * 1 ≤ 4
    rw [show ((3 : ℝ) / 2 - 1) / 1 = 1 / 2 by norm_num, f]; norm_num
  · show (0 : ℝ) ≤ 0 + ((⌊((1 : ℝ) / 2 - 0) / 1⌋ : ℝ) - (((1 : Nat) : ℝ) - 1)) * 1 ∧ 0 + ((⌊((1 : ℝ) / 2 - 0) / 1⌋ : ℝ) + ((1 : Nat) : ℝ)) * 1 ≤ 1
    rw [show ((1 : ℝ) / 2 - 0) / 1 = 1 / 2 by norm_num, f]; norm_num

/-- `C92_not_better` applies to a simulation whose field is the distance of the cell from the axis: it is wrong by half a cell or more. -/
example : ∃ i < 5, ∀ j < 4, ∀ k < 2, 1 / (2 * 1) ≤
    |greenAt ⟨0, 1, 0, 5 / 4, 4 / 3, 1⟩ linear (meepField Ex69.val (sampled (fun _ x => [x.getD 1 0, 0]) [0, 1]) 1 2 1 0 Ex69.pd) 0 (0 + (i : Nat) * (5 / 4)) (1 + (j : Nat) * (4 / 3)) (0 + (k : Nat) * 1) - (0 + (i : ℝ) * (5 / 4))| := by
  obtain ⟨s, R⟩ := recording
  refine C92_not_better R (pos := 0) (fun n hn z hz r hr => ?_) (G := ⟨0, 1, 0, 5 / 4, 4 / 3, 1⟩) rfl .linear
  show Ex69.val r = _
  rw [val_small (by omega)]
  simp

/-- A charge that moves upwards, parallel to the axis. -/
noncomputable def seg : Segment ℝ := ⟨⟨3 / 2, 0, 2⟩, ⟨3 / 2, 0, 3⟩, 0, 1 / 4, 1⟩

theorem seg_intervals : intervals seg = 1 := by
  unfold intervals seg
  norm_num [Nat.ceil_eq_iff]

theorem signalOk (A : Nat → Int → Int → Int → ℝ) : SignalOk Ex69.G linear A ⟨4, 3, 1, 2, 2, true⟩ seg (1 / 2) 1 1 .raise := by
  have hr : ∀ p, lineR seg p = 3 / 2 := fun p => by
    have e1 : lineX seg p = 3 / 2 := by unfold lineX seg; simp
    have e2 : lineY seg p = 0 := by unfold lineY seg; simp
    unfold lineR
    rw [e1, e2, show (3 / 2 : ℝ) ^ 2 + 0 ^ 2 = (3 / 2) ^ 2 by ring, Real.sqrt_sq (by norm_num)]
  have hz : ∀ p, lineZ seg p = 2 + p := fun p => by
    unfold lineZ; rw [seg_intervals]; simp only [seg]; push_cast; ring
  have ht : ∀ p, lineTime seg p = p / 4 := fun p => by
    unfold lineTime; rw [seg_intervals]; simp only [seg]; push_cast; ring
  have hd : ∀ p k, delay seg (1 / 2) 1 p k = 1 / 2 + k - p / 4 := fun p k => by unfold delay; rw [ht]; ring
  have hx : Ex69.G.x (3 / 2) = 3 / 2 := by norm_num [GMeta.x, Ex69.G]
  have hy : ∀ q, Ex69.G.y q = q - 1 := fun q => by simp [GMeta.y, Ex69.G]
  have htt : ∀ q, Ex69.G.t q = q := fun q => by simp [GMeta.t, Ex69.G]
  have pp : ∀ {p : Nat}, p ≤ intervals seg → (0 : ℝ) ≤ p ∧ (p : ℝ) ≤ 1 := fun {p} hp => by
    rw [seg_intervals] at hp
    exact ⟨Nat.cast_nonneg p, by exact_mod_cast hp⟩
  have k0 : ∀ {k : Nat}, k < 1 → (k : ℝ) = 0 := fun {k} hk => by rw [show k = 0 by omega]; exact Nat.cast_zero
  refine ⟨by norm_num [seg], one_pos, by norm_num [seg], by norm_num, fun p hp => ?_, by norm_num [Ex69.G], fun p hp => ?_, fun p hp => ?_, fun p k hp hk h0 => ?_, fun p k hp hk h0 => ?_, fun p j k hp hj hk => by omega,
    fun _ p k hp hk h0 => ?_, fun h => by cases h⟩
  · obtain ⟨p0, p1⟩ := pp hp
    rw [ht]
    norm_num
    constructor <;> linarith
  · rw [hr, hx]; norm_num
  · obtain ⟨p0, p1⟩ := pp hp
    rw [hz, hy]
    constructor
    · linarith
    · have : (3 : ℝ) < 2 ^ 62 := by norm_num
      linarith
  · obtain ⟨p0, p1⟩ := pp hp
    rw [hd, htt, k0 hk]
    have : (3 : ℝ) < 2 ^ 62 := by norm_num
    constructor <;> linarith
  · exact ⟨fun h => absurd (show (1 : Nat) = 2 from h) (by decide), fun h => absurd (show (1 : Nat) = 2 from h) (by decide)⟩
  · obtain ⟨p0, p1⟩ := pp hp
    rw [hr, hx, hz, hy, hd, htt, k0 hk]
    refine ⟨by norm_num, ⟨by linarith, ?_⟩, by linarith, ?_⟩
    · show _ < ((3 : Nat) : ℝ) + 1
      push_cast; linarith
    · show _ < ((1 : Nat) : ℝ) + 1
      push_cast; linarith

theorem atR_seg (t : ℝ) : atR seg t = 3 / 2 := by
  have e1 : atX seg t = 3 / 2 := by unfold atX seg; simp
  have e2 : atY seg t = 0 := by unfold atY seg; simp
  unfold atR
  rw [e1, e2, show (3 / 2 : ℝ) ^ 2 + 0 ^ 2 = (3 / 2) ^ 2 by ring, Real.sqrt_sq (by norm_num)]

theorem atZ_seg (t : ℝ) : atZ seg t = 2 + 4 * t := by
  unfold atZ seg
  ring

theorem covered : TrackCovered Ex69.G linear ⟨4, 3, 1, 2, 2, true⟩ box seg (1 / 2 + (0 : Nat) * 1) := by
  intro t ht
  have t0 : 0 ≤ t := ht.1
  have t1 : t ≤ 1 / 4 := ht.2.trans (min_le_left _ _)
  rw [atR_seg, atZ_seg]
  have ax : ∀ {o p a b : ℝ} (m : Int), (m : ℝ) ≤ p - o → p - o < m + 1 → a ≤ o + m → o + m + 1 ≤ b → AxisIn o 1 1 a b p := by
    intro o p a b m h1 h2 h3 h4
    have : ⌊(p - o) / 1⌋ = m := by rw [div_one]; exact Int.floor_eq_iff.2 ⟨h1, h2⟩
    unfold AxisIn
    rw [this]
    push_cast
    constructor <;> linarith
  refine ⟨⟨by norm_num [GMeta.x, Ex69.G], ?_, ?_⟩, ?_, ?_, ?_⟩
  · show 0 ≤ (2 + 4 * t - 1) / 1 ∧ (2 + 4 * t - 1) / 1 < ((3 : Nat) : ℝ) + 1
    push_cast
    constructor <;> linarith
  · show 0 ≤ (1 / 2 + ((0 : Nat) : ℝ) * 1 - t - 0) / 1 ∧ (1 / 2 + ((0 : Nat) : ℝ) * 1 - t - 0) / 1 < ((1 : Nat) : ℝ) + 1
    push_cast
    constructor <;> linarith
  · exact ax (o := 0) (a := 0) (b := 4) 1 (by norm_num) (by norm_num) (by norm_num) (by norm_num)
  · by_cases hq : t < 1 / 4
    · exact ax (o := 1) (a := 1) (b := 4) 1 (by push_cast; linarith) (by push_cast; linarith) (by norm_num) (by norm_num)
    · exact ax (o := 1) (a := 1) (b := 4) 2 (by push_cast; linarith) (by push_cast; linarith) (by norm_num) (by norm_num)
  · refine ax (o := 0) (a := 0) (b := 1) 0 ?_ ?_ (by norm_num) (by norm_num) <;> (push_cast; linarith)

theorem induced_seg (t : ℝ) : induced field seg (1 / 2 + (0 : Nat) * 1) t = 160 * t + 86 := by
  unfold induced
  rw [atR_seg, atZ_seg]
  have v1 : velX seg = 0 := by unfold velX seg; simp
  have v2 : velY seg = 0 := by unfold velY seg; simp
  have v3 : velZ seg = 4 := by unfold velZ seg; norm_num
  rw [v1, v2, v3]
  simp only [field, seg]
  norm_num
  ring

/-- `C92_signal` applies to the calculation in the example of C69: the sample at time 1/2 is minus the integral of the field along the track, 53/2, up to an error of 24 times 1 (from the coarse cells). -/
theorem signal : ∃ s st1 st2 parts, storageDomain Ex69.geom Ex69.request 1 6 7 = .ok s ∧
      runLoop (job (outCfg Ex60.cfg) Tree.Ex.S 2 2 [1, 1] 2 [1, 1, 1] ⟨[], []⟩ ⟨[], []⟩) ([Ex69.P].map fun P => P.job Ex69.pd) ⟨none, fun _ => none⟩ = .ok st1 ∧
      mergeJobs (outCfg Ex60.cfg) Tree.Ex.S [1, 1, 1] 0 ([Ex69.P].map fun P => P.out) st1 = .ok st2 ∧
      ∀ σ τ, Schedule 2 parts.length σ → Finish 2 τ → ∃ s1 s2, runLoop (procStep Ex60.cfg Tree.Ex.S Ex69.X) σ ⟨st2.fs, fun _ => none⟩ = .ok s1 ∧ runLoop (finStep Ex60.cfg Tree.Ex.S Ex69.X parts [5, 4, 2]) τ s1 = .ok s2 ∧
        ∀ green, ∃ d', finishGreen Ex60.cfg Tree.Ex.S Ex69.enc (fun n => decide (n ≠ 9)) 9 s.region 1 ⟨s2.fs, green⟩ = .ok d' ∧ ∀ cache, ∃ (lib : Lib) (gm : GFMeta), load Ex60.cfg Tree.Ex.S 9 cache d' = .ok (lib, gm) ∧
          ∃ q' x, apply (libOf (readerCfg Ex60.cfg cache) Ex69.val) Ex69.G linear (fun x => x) (fun _ _ _ => 0) (fun _ => 0) 5 5 seg (1 / 2) 1 1 [7] .raise 1 (lib, d'.fs) = .ok (q', [x]) ∧ |x - (7 - 53 / 2)| ≤ 24 := by
  obtain ⟨s, h1, h2, h3, h4⟩ := region
  obtain ⟨st1, st2, parts, a1, a2, a3⟩ := C92_signal Ex60.cfg Ex60.cfg_ok rfl rfl rfl (fun _ => (by show 77 < 2 ^ 32; decide)) Tree.Ex.S Tree.Ex.Z (fun _ => none) Ex69.setup h1 h2 h3 (dt := 1) (ts := 1) (tEnd := 1)
    one_pos one_pos zero_le_one Ex69.samples Ex57.F 2 2 [Ex69.P] [1, 1, 1] ⟨[], []⟩ ⟨[], []⟩ Ex69.X (ds := 1) (p := Ex69.pd) (by rw [h2, h3]; exact Ex69.padded) (by rw [h2, h3]; exact Ex69.ok) Ex69.pipe (pts := 2) rfl (.inl rfl)
    (by decide) (gone := fun n => decide (n ≠ 9)) rfl Ex69.enc (fun x => lt_of_le_of_lt (min_le_right _ _) (by decide)) (val := Ex69.val) (fun x hx => by
      unfold Ex69.val
      rcases hx with rfl | rfl
      · simp
      · simp) (by
      have : Ex69.enc (1 / ((([0, 1] : List Nat).length : ℝ) - 1)) = 1 := by
        unfold Ex69.enc
        norm_num
      rw [this]
      unfold Ex69.val
      norm_num) (by norm_num) le_rfl simulates (η := 1) (by norm_num) (by norm_num) slope encloses .linear (by decide) .linear2 le_rfl smooth
  refine ⟨s, st1, st2, parts, h1, by rw [h2] at a1; exact a1, a2, fun σ τ hσ hτ => ?_⟩
  rw [h3] at a3
  obtain ⟨s1, s2, b1, b2, b3⟩ := a3 σ τ hσ hτ
  refine ⟨s1, s2, b1, b2, fun green => ?_⟩
  obtain ⟨d', a, b, st, c1, c2, c3⟩ := b3 green
  refine ⟨d', c1, fun cache => ?_⟩
  obtain ⟨lib, gm, I, f1, f2, f3, f4⟩ := c3 cache
  rw [h4] at c2
  have c2 := c2.symm.trans coords
  simp only [Res.ok.injEq, Prod.mk.injEq] at c2
  obtain ⟨rfl, rfl, rfl⟩ := c2
  have hG : Ex69.G = gmetaOf Ex69.val gm := by
    have v : ∀ {x : ℝ} {n : Nat}, ⌊x⌋₊ = n → n < 100 → Ex69.val (Ex69.enc x) = n := fun {x n} hx hn => by
      unfold Ex69.enc
      rw [hx, min_eq_left (by omega), val_small (by omega)]
    rw [f2]
    unfold gmetaOf Ex69.G
    simp only [List.map_cons, List.map_nil, List.getD_cons_zero, List.getD_cons_succ]
    rw [v (n := 0) (by simp) (by decide), v (n := 1) (by simp) (by decide), v (x := 5 / 4) (n := 1) (by norm_num [Nat.floor_eq_iff]) (by decide), v (x := 4 / 3) (n := 1) (by norm_num [Nat.floor_eq_iff]) (by decide)]
    norm_num
  obtain ⟨q', out', g1, _, g3, _, g5⟩ := f4 Ex69.G hG rounded (lib, d'.fs) f3 (fun x => x) rfl (fun _ _ _ => 0) (fun _ => 0) 5 5 (by norm_num) (by norm_num) seg (1 / 2) 1 1 [7] .raise 1 le_rfl (signalOk _)
  refine ⟨lib, gm, f1, q', out'.getD 0 0, ?_, ?_⟩
  · match out', g3 with
    | [x], _ => exact g1
  · have key := g5 0 (by decide) covered (by norm_num [seg]) 0 (by
      rw [show induced field seg (1 / 2 + (0 : Nat) * 1) = fun t => 160 * t + 86 from funext induced_seg]
      exact affine2 160 86 (by norm_num [seg]))
    have hint : (∫ t in seg.t0..seg.t1, induced field seg (1 / 2 + (0 : Nat) * 1) t) = 53 / 2 := by
      rw [show induced field seg (1 / 2 + (0 : Nat) * 1) = fun t => 160 * t + 86 from funext induced_seg]
      show (∫ t in (0 : ℝ)..(1 / 4), (160 * t + 86)) = 53 / 2
      rw [intervalIntegral.integral_add (Continuous.intervalIntegrable (by fun_prop) _ _) (Continuous.intervalIntegrable (by fun_prop) _ _), intervalIntegral.integral_const_mul, integral_id]
      norm_num
    rw [hint] at key
    have e : [7].getD 0 (0 : ℝ) - 1 * (53 / 2) = 7 - 53 / 2 := by norm_num
    rw [e] at key
    refine key.trans (le_of_eq ?_)
    unfold fieldError interpErr sampleErr
    have v1 : velX seg = 0 := by unfold velX seg; simp
    have v2 : velY seg = 0 := by unfold velY seg; simp
    have v3 : velZ seg = 4 := by unfold velZ seg; norm_num
    rw [v1, v2, v3, seg_intervals]
    simp only [seg]
    norm_num

end Ex92

end Verif.Meep
