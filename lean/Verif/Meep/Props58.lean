import Mathlib.Tactic.Linarith
import Mathlib.Tactic.FieldSimp
import Mathlib.Tactic.Ring
import Mathlib.Tactic.NormNum
import Mathlib.Algebra.Order.Floor.Ring
import Mathlib.Data.Rat.Floor
import Verif.Meep.Domain
import Verif.Meep.Props60
/-
C58: the coordinates of a Green's function that is calculated with MEEP.
-/
set_option linter.unusedSectionVars false
namespace Verif.Meep
open Verif Verif.ND Verif.Dist Verif.Tree Verif.Analytic

variable {K : Type} [Field K] [LinearOrder K] [IsStrictOrderedRing K] [FloorRing K]

/-! ### Specification -/

/-- The storage region is a non-empty part of the geometry; the MEEP volume has `nz` and `nr` cells of the size `1 / res`. -/
structure SetupOk (g : Geometry K) (req : CylRegion K) (res : K) (nz nr : Nat) : Prop where
  pos : 0 < res
  z : g.zMin ≤ req.zMin ∧ req.zMin < req.zMax ∧ req.zMax ≤ g.zMax
  r : 0 ≤ req.rMin ∧ req.rMin < req.rMax ∧ req.rMax ≤ g.rMax
  cells : (nz : K) = (g.zMax - g.zMin) * res ∧ (nr : K) = g.rMax * res
  small : nz < 2 ^ 62 ∧ nr < 2 ^ 62

/-- The cells `[i, i + n)` of size `1 / res`, counted from the coordinate `org`, are what is stored for the request `[lo, hi]`: they begin in the cell of `lo`, there are as many as fit into the length of the
    request; `[a, b]` are their coordinates. -/
structure StoresAxis (org res lo hi : K) (i n : Nat) (a b : K) : Prop where
  start : (i : K) ≤ (lo - org) * res ∧ (lo - org) * res < i + 1
  count : (n : K) ≤ (hi - lo) * res ∧ (hi - lo) * res < n + 1
  lower : a = org + i / res
  upper : b = org + (i + n : Nat) / res

/-! ### Proof: the storage domain -/

theorem fdiv_ok {a b : K} (h : b ≠ 0) : fdiv a b = .ok (a / b) := by unfold fdiv; rw [if_neg h]

theorem toSize_ok {x : K} (h0 : 0 ≤ x) (h1 : x < 2 ^ 62) : toSize x = .ok ⌊x⌋₊ := by
  unfold toSize
  rw [if_neg]
  rintro (h | h)
  · linarith
  · have : (2 : K) ^ 62 < 2 ^ 64 := by norm_num
    linarith

theorem floor_facts {x : K} (h0 : 0 ≤ x) : ((⌊x⌋₊ : Nat) : K) ≤ x ∧ x < (⌊x⌋₊ : Nat) + 1 := ⟨Nat.floor_le h0, Nat.lt_floor_add_one x⟩

theorem axis_ok {org top lo hi res : K} {N : Nat} (hres : 0 < res) (h1 : org ≤ lo) (h2 : lo < hi) (h3 : hi ≤ top) (hN : (N : K) = (top - org) * res) (hs : N < 2 ^ 62) :
    ∃ i n : Nat, (fdiv (lo - org) (top - org)).bind (fun a => toSize (a * (N : K))) = .ok i ∧ (fdiv (hi - lo) (top - org)).bind (fun a => toSize (a * (N : K))) = .ok n ∧ i + n ≤ N ∧
      StoresAxis org res lo hi i n (org + i / res) (org + (i + n : Nat) / res) := by
  have hp : 0 < top - org := by linarith
  have hb : ∀ {d : K}, 0 ≤ d → d ≤ top - org → (fdiv d (top - org)).bind (fun a => toSize (a * (N : K))) = .ok ⌊d * res⌋₊ := fun {d} h0 h1 => by
    rw [fdiv_ok hp.ne', Res.ok_bind]
    have e : d / (top - org) * N = d * res := by rw [hN]; field_simp
    rw [e]
    apply toSize_ok (mul_nonneg h0 hres.le)
    have : d * res ≤ N := by rw [hN]; exact mul_le_mul_of_nonneg_right h1 hres.le
    have : (N : K) < 2 ^ 62 := by exact_mod_cast hs
    linarith
  have a1 : 0 ≤ (lo - org) * res := mul_nonneg (by linarith) hres.le
  have a2 : 0 ≤ (hi - lo) * res := mul_nonneg (by linarith) hres.le
  obtain ⟨f1, f2⟩ := floor_facts a1
  obtain ⟨f3, f4⟩ := floor_facts a2
  refine ⟨⌊(lo - org) * res⌋₊, ⌊(hi - lo) * res⌋₊, hb (by linarith) (by linarith), hb (by linarith) (by linarith), ?_, ⟨f1, f2⟩, ⟨f3, f4⟩, rfl, rfl⟩
  have : ((⌊(lo - org) * res⌋₊ + ⌊(hi - lo) * res⌋₊ : Nat) : K) ≤ N := by
    push_cast
    rw [hN]
    have : (hi - org) * res ≤ (top - org) * res := mul_le_mul_of_nonneg_right (by linarith) hres.le
    nlinarith
  exact_mod_cast this

theorem isInteger_nat {n : Nat} {x : K} (h : (n : K) = x) : isInteger x = true := by
  unfold isInteger
  rw [← h]
  simp

theorem bind2 {α β γ : Type} {x : Res α} {f : α → Res β} {b : β} (h : x.bind f = .ok b) (g : β → Res γ) : (x.bind fun a => (f a).bind g) = g b := by
  obtain ⟨a, h1, h2⟩ := Res.bind_eq_ok.1 h
  rw [h1, Res.ok_bind, h2, Res.ok_bind]

/-- The storage domain. -/
theorem storage_ok {g : Geometry K} {req : CylRegion K} {res : K} {nz nr : Nat} (h : SetupOk g req res nz nr) :
    ∃ s : Storage K, storageDomain g req res nz nr = .ok s ∧ ∃ z0 r0 dz dr, s.start = [z0, r0] ∧ s.shape = [dz, dr] ∧ z0 + dz ≤ nz ∧ r0 + dr ≤ nr ∧
      StoresAxis g.zMin res req.zMin req.zMax z0 dz s.region.zMin s.region.zMax ∧ StoresAxis 0 res req.rMin req.rMax r0 dr s.region.rMin s.region.rMax := by
  obtain ⟨z0, dz, a1, a2, a3, a4⟩ := axis_ok h.pos h.z.1 h.z.2.1 h.z.2.2 h.cells.1 h.small.1
  obtain ⟨r0, dr, b1, b2, b3, b4⟩ := axis_ok (org := 0) (top := g.rMax) h.pos h.r.1 h.r.2.1 h.r.2.2 (by rw [sub_zero]; exact h.cells.2) h.small.2
  rw [sub_zero (G := K) (a := g.rMax)] at b1 b2
  have hz : isInteger ((g.zMax - g.zMin) * res) = true := isInteger_nat h.cells.1
  have hr : isInteger (g.rMax * res) = true := isInteger_nat h.cells.2
  have hne := h.pos.ne'
  have e1 : wadd r0 dr = r0 + dr := wadd_eq (by have := h.small.2; have hU : U64 = 2 ^ 64 := rfl; omega)
  have e2 : wadd z0 dz = z0 + dz := wadd_eq (by have := h.small.1; have hU : U64 = 2 ^ 64 := rfl; omega)
  have pos : ∀ n : Nat, (0 : K) ≤ (n : K) / res := fun n => div_nonneg (Nat.cast_nonneg _) h.pos.le
  have mono : ∀ n m : Nat, (n : K) / res ≤ ((n + m : Nat) : K) / res := fun n m => div_le_div_of_nonneg_right (Nat.cast_le.2 (Nat.le_add_right _ _)) h.pos.le
  have hreg : mkRegion ((r0 : K) / res + 0) (((r0 + dr : Nat) : K) / res + 0) ((z0 : K) / res + g.zMin) (((z0 + dz : Nat) : K) / res + g.zMin) =
      .ok ⟨(r0 : K) / res + 0, ((r0 + dr : Nat) : K) / res + 0, (z0 : K) / res + g.zMin, ((z0 + dz : Nat) : K) / res + g.zMin⟩ := by
    unfold mkRegion
    rw [if_neg, if_neg]
    · have := mono z0 dz
      intro hc
      linarith
    · have := mono r0 dr
      have := pos r0
      rintro (hc | hc | hc) <;> linarith
  refine ⟨⟨[z0, r0], [dz, dr], ⟨(r0 : K) / res + 0, ((r0 + dr : Nat) : K) / res + 0, (z0 : K) / res + g.zMin, ((z0 + dz : Nat) : K) / res + g.zMin⟩⟩, ?_, z0, r0, dz, dr, rfl, rfl, a3, b3,
    ⟨a4.start, a4.count, add_comm _ _, add_comm _ _⟩, ⟨b4.start, b4.count, add_comm _ _, add_comm _ _⟩⟩
  unfold storageDomain
  rw [hz, hr, if_neg (by decide), if_neg (by decide), bind2 a1, bind2 b1, bind2 a2, bind2 b2, e1, e2]
  rw [show decide ((nz : K) = (g.zMax - g.zMin) * res) = true from decide_eq_true h.cells.1, show decide ((nr : K) = g.rMax * res) = true from decide_eq_true h.cells.2]
  simp only [Res.assert, if_true, Res.ok_bind, fdiv_ok hne, hreg]

/-! ### Proof: the samples in time -/

theorem stepTo_ok {dt cur : K} (hdt : 0 < dt) {m : Nat} (h1 : cur ≤ m * dt) (h2 : ∀ i < m, (i : K) * dt < cur) : ∀ (fuel n : Nat), n ≤ m → m < fuel + n → 0 < fuel → stepTo dt cur fuel n = .ok m
  | 0, _, _, _, h => absurd h (lt_irrefl _)
  | fuel + 1, n, hn, hf, _ => by
      unfold stepTo
      by_cases h : (n : K) * dt < cur
      · rw [if_pos h]
        have : n ≠ m := by rintro rfl; exact absurd h (not_lt.2 h1)
        exact stepTo_ok hdt h1 h2 fuel (n + 1) (by omega) (by omega) (by omega)
      · rw [if_neg h]
        have : n = m := by
          by_contra hc
          exact h (h2 n (by omega))
        rw [this]

/-- The number of steps before the sample `k`. -/
def sampleStep (dt ts : K) (k : Nat) : Nat := ⌈(k : K) * ts / dt⌉₊

theorem sampleStep_facts {dt ts : K} (hdt : 0 < dt) (hts : 0 < ts) (k : Nat) : (k : K) * ts ≤ sampleStep dt ts k * dt ∧ (sampleStep dt ts k : K) * dt < k * ts + dt ∧ ∀ i < sampleStep dt ts k, (i : K) * dt < k * ts := by
  have h0 : 0 ≤ (k : K) * ts / dt := div_nonneg (mul_nonneg (Nat.cast_nonneg _) hts.le) hdt.le
  have a := Nat.le_ceil ((k : K) * ts / dt)
  have b := Nat.ceil_lt_add_one h0
  refine ⟨(div_le_iff₀ hdt).1 a, ?_, fun i hi => (lt_div_iff₀ hdt).1 (Nat.lt_ceil.1 hi)⟩
  have c : ((sampleStep dt ts k : Nat) : K) * dt < ((k : K) * ts / dt + 1) * dt := mul_lt_mul_of_pos_right b hdt
  have e : ((k : K) * ts / dt + 1) * dt = k * ts + dt := by field_simp
  rwa [e] at c

theorem sampleStep_mono {dt ts : K} (hdt : 0 < dt) (hts : 0 < ts) {k m : Nat} (h : k ≤ m) : sampleStep dt ts k ≤ sampleStep dt ts m := by
  apply Nat.ceil_mono
  apply div_le_div_of_nonneg_right _ hdt.le
  exact mul_le_mul_of_nonneg_right (Nat.cast_le.2 h) hts.le

theorem timeLoop_ok {dt ts tEnd : K} (hdt : 0 < dt) (hts : 0 < ts) {M inner : Nat} (hM : (M : K) * ts ≤ tEnd) (hM' : tEnd < (M + 1 : Nat) * ts) (hin : sampleStep dt ts M < inner) :
    ∀ (fuel k n : Nat), k ≤ M + 1 → M + 1 < fuel + k → (∀ i, k ≤ i → n ≤ sampleStep dt ts i) →
      timeLoop dt ts tEnd inner fuel ((k : K) * ts) n = .ok ((List.range (M + 1 - k)).map fun i => sampleStep dt ts (k + i))
  | 0, k, n, h1, h2, _ => by omega
  | fuel + 1, k, n, h1, h2, h3 => by
      unfold timeLoop
      by_cases h : k ≤ M
      · have hle : (k : K) * ts ≤ tEnd := le_trans (mul_le_mul_of_nonneg_right (Nat.cast_le.2 h) hts.le) hM
        obtain ⟨s1, s2, s3⟩ := sampleStep_facts hdt hts k
        have e : (k : K) * ts + ts = ((k + 1 : Nat) : K) * ts := by push_cast; ring
        have hmk := sampleStep_mono hdt hts h
        rw [if_pos hle, stepTo_ok hdt s1 s3 inner n (h3 k le_rfl) (by omega) (by omega), Res.ok_bind, e,
          timeLoop_ok hdt hts hM hM' hin fuel (k + 1) _ (by omega) (by omega) (fun i hi => sampleStep_mono hdt hts (by omega)), Res.ok_bind]
        have : M + 1 - k = (M + 1 - (k + 1)) + 1 := by omega
        rw [this, List.range_succ_eq_map, List.map_cons, List.map_map]
        congr 2
        apply List.map_congr_left
        intro i _
        show sampleStep dt ts (k + 1 + i) = sampleStep dt ts (k + (i + 1))
        congr 1
        omega
      · have hk : k = M + 1 := by omega
        subst hk
        rw [if_neg (not_le.2 hM'), Nat.sub_self]
        rfl

/-! ### Proof: the coordinates -/

/-- `n` indices with distance `d` in `m` cells. -/
theorem ceil_facts {m d : Nat} (hd : 0 < d) (hm : 0 < m) : d * ((m + d - 1) / d - 1) < m ∧ m ≤ d * ((m + d - 1) / d) := by
  have a := Nat.div_add_mod (m + d - 1) d
  have b := Nat.mod_lt (m + d - 1) hd
  have c : 0 < (m + d - 1) / d := Nat.div_pos (by omega) hd
  generalize (m + d - 1) / d = q at *
  obtain ⟨q', rfl⟩ : ∃ q', q = q' + 1 := ⟨q - 1, by omega⟩
  rw [Nat.mul_add, Nat.mul_one] at *
  simp only [Nat.add_sub_cancel]
  omega

/-- An array of `n` equidistant samples, of which `j`-th stands for `org + j * d`, is read as if the last one stood for `org + m`. -/
theorem stretch {m d : K} {n j : Nat} (hn : 2 ≤ n) (hj : j < n) (h1 : d * ((n : K) - 1) ≤ m) : (j : K) * d ≤ j * (m / ((n : K) - 1)) ∧ (j : K) * (m / ((n : K) - 1)) - j * d ≤ m - d * ((n : K) - 1) ∧
    (0 < j → d * ((n : K) - 1) < m → (j : K) * d < j * (m / ((n : K) - 1))) := by
  have hn' : (2 : K) ≤ n := by exact_mod_cast hn
  have hp : (0 : K) < (n : K) - 1 := by linarith
  have hj0 : (0 : K) ≤ j := Nat.cast_nonneg _
  have hj1 : (j : K) + 1 ≤ n := by exact_mod_cast hj
  have e : (j : K) * (m / ((n : K) - 1)) - j * d = (j / ((n : K) - 1)) * (m - d * ((n : K) - 1)) := by field_simp
  have r0 : 0 ≤ (j : K) / ((n : K) - 1) := div_nonneg hj0 hp.le
  have r1 : (j : K) / ((n : K) - 1) ≤ 1 := by rw [div_le_one hp]; linarith
  have hm : 0 ≤ m - d * ((n : K) - 1) := by linarith
  refine ⟨?_, ?_, fun hj' hlt => ?_⟩
  · have := mul_nonneg r0 hm
    linarith
  · rw [e]
    calc _ ≤ 1 * (m - d * ((n : K) - 1)) := mul_le_mul_of_nonneg_right r1 hm
      _ = _ := one_mul _
  · have : 0 < (j : K) / ((n : K) - 1) := div_pos (by exact_mod_cast hj') hp
    have := mul_pos this (show 0 < m - d * ((n : K) - 1) by linarith)
    linarith

/-! ### C58 -/

/-- C58 (regions). A region is accepted exactly if it is physical; a calculator exactly if its region is a non-empty part of the geometry. -/
theorem C58_accepts (rMin rMax zMin zMax : K) (g : Geometry K) (r : CylRegion K) :
    (mkRegion rMin rMax zMin zMax = .ok ⟨rMin, rMax, zMin, zMax⟩ ↔ 0 ≤ rMin ∧ rMin ≤ rMax ∧ zMin ≤ zMax) ∧ (mkRegion rMin rMax zMin zMax = .throw ↔ ¬ (0 ≤ rMin ∧ rMin ≤ rMax ∧ zMin ≤ zMax)) ∧
    (mkCalculator g r = .ok () ↔ (0 ≤ r.rMin ∧ r.rMax ≤ g.rMax ∧ g.zMin ≤ r.zMin ∧ r.zMax ≤ g.zMax) ∧ r.rMin ≠ r.rMax ∧ r.zMin ≠ r.zMax) ∧
    (mkCalculator g r = .throw ↔ ¬ ((0 ≤ r.rMin ∧ r.rMax ≤ g.rMax ∧ g.zMin ≤ r.zMin ∧ r.zMax ≤ g.zMax) ∧ r.rMin ≠ r.rMax ∧ r.zMin ≠ r.zMax)) := by
  have k1 : (0 ≤ rMin ∧ rMin ≤ rMax ∧ zMin ≤ zMax) ↔ ¬ (rMin < 0 ∨ rMax < 0 ∨ rMin > rMax) ∧ ¬ zMin > zMax := by
    constructor
    · rintro ⟨a, b, c⟩
      refine ⟨?_, not_lt.2 c⟩
      rintro (h | h | h) <;> linarith
    · rintro ⟨a, b⟩
      simp only [not_or, not_lt] at a b
      exact ⟨a.1, a.2.2, b⟩
  have k2 : g.contains r = true ↔ (0 ≤ r.rMin ∧ r.rMax ≤ g.rMax ∧ g.zMin ≤ r.zMin ∧ r.zMax ≤ g.zMax) := by
    unfold Geometry.contains
    simp only [Bool.and_eq_true, decide_eq_true_eq]
    tauto
  have k3 : r.isEmpty = true ↔ r.rMin = r.rMax ∨ r.zMin = r.zMax := by
    unfold CylRegion.isEmpty
    simp only [Bool.or_eq_true, decide_eq_true_eq]
  rw [k1, ← k2]
  unfold mkRegion mkCalculator
  by_cases h1 : rMin < 0 ∨ rMax < 0 ∨ rMin > rMax <;> by_cases h2 : zMin > zMax <;> by_cases h3 : g.contains r = true <;> by_cases h4 : r.isEmpty = true <;>
    simp only [h1, h2, h3, h4, if_true, if_false] <;> rw [k3] at h4 <;> simp_all <;> tauto

/-- C58 (the stored part). The storage domain consists of the cells that belong to the request, and lies in the domain of the simulation; the region that is reported is exactly what these cells cover. It
    starts less than one cell below the request and ends less than two cells below its end, and it is the request if this starts and ends at cells. If the size of the geometry is not a whole number of cells
    the calculation is refused. -/
theorem C58_storage {g : Geometry K} {req : CylRegion K} {res : K} {nz nr : Nat} (h : SetupOk g req res nz nr) :
    (∃ s : Storage K, storageDomain g req res nz nr = .ok s ∧ ∃ z0 r0 dz dr, s.start = [z0, r0] ∧ s.shape = [dz, dr] ∧ z0 + dz ≤ nz ∧ r0 + dr ≤ nr ∧
      StoresAxis g.zMin res req.zMin req.zMax z0 dz s.region.zMin s.region.zMax ∧ StoresAxis 0 res req.rMin req.rMax r0 dr s.region.rMin s.region.rMax) ∧
    (∀ (org lo hi a b : K) (i n : Nat), StoresAxis org res lo hi i n a b → (a ≤ lo ∧ lo < a + 1 / res) ∧ (b ≤ hi ∧ hi < b + 2 / res) ∧
      ((∃ m : Nat, lo = org + m / res) → (∃ m : Nat, hi = lo + m / res) → a = lo ∧ b = hi)) ∧
    ∀ (g' : Geometry K) (nz' nr' : Nat), (¬ (∃ m : Int, (m : K) = g'.rMax * res)) ∨ (¬ (∃ m : Int, (m : K) = (g'.zMax - g'.zMin) * res)) → storageDomain g' req res nz' nr' = .throw := by
  refine ⟨storage_ok h, fun org lo hi a b i n hs => ?_, fun g' nz' nr' hg => ?_⟩
  · have hr := h.pos
    have hlo : lo = org + (lo - org) * res / res := by field_simp; ring
    have hhi : hi = lo + (hi - lo) * res / res := by field_simp; ring
    have hm : ∀ {x y : K}, x ≤ y → x / res ≤ y / res := fun h => div_le_div_of_nonneg_right h hr.le
    have hml : ∀ {x y : K}, x < y → x / res < y / res := fun h => div_lt_div_of_pos_right h hr
    have e1 := hm hs.start.1
    have e2 := hml hs.start.2
    have e3 := hm hs.count.1
    have e4 := hml hs.count.2
    have e5 : (((i + n : Nat) : K)) / res = (i : K) / res + n / res := by push_cast; ring
    have e6 : ((i : K) + 1) / res = i / res + 1 / res := by ring
    have e7 : ((n : K) + 1) / res = n / res + 1 / res := by ring
    have e8 : (2 : K) / res = 1 / res + 1 / res := by ring
    have ha := hs.lower
    have hb := hs.upper
    rw [e5] at hb
    rw [e6] at e2
    rw [e7] at e4
    refine ⟨⟨by linarith, by linarith⟩, ⟨by linarith, by rw [e8]; linarith⟩, ?_⟩
    rintro ⟨m, hm1⟩ ⟨m', hm2⟩
    have f1 : (lo - org) * res = m := by rw [hm1]; field_simp; ring
    have f2 : (hi - lo) * res = m' := by rw [hm2]; field_simp; ring
    have g1 : i = m := by
      have a1 := hs.start.1
      have a2 := hs.start.2
      rw [f1] at a1 a2
      have b1 : i ≤ m := by exact_mod_cast a1
      have b2 : m < i + 1 := by exact_mod_cast a2
      omega
    have g2 : n = m' := by
      have a1 := hs.count.1
      have a2 := hs.count.2
      rw [f2] at a1 a2
      have b1 : n ≤ m' := by exact_mod_cast a1
      have b2 : m' < n + 1 := by exact_mod_cast a2
      omega
    subst g1 g2
    have : a = lo := by rw [ha, hm1]
    exact ⟨this, by rw [hb, hm2, hm1]; ring⟩
  · have hno : ∀ {x : K}, ¬ (∃ m : Int, (m : K) = x) → isInteger x = false := fun {x} hx => by
      unfold isInteger
      rw [decide_eq_false_iff_not]
      exact fun he => hx ⟨_, he⟩
    unfold storageDomain
    rcases hg with hg | hg
    · rw [if_pos (hno hg)]
    · by_cases hc : isInteger (g'.rMax * res) = false
      · rw [if_pos hc]
      · rw [if_neg hc, if_pos (hno hg)]

/-- C58 (times). The main loop ends, and takes one sample for each multiple of the time step up to the end; each of them is the field after the smallest number of steps of the simulation with which this time is
    reached. -/
theorem C58_times {dt ts tEnd : K} (hdt : 0 < dt) (hts : 0 < ts) (h0 : 0 ≤ tEnd) :
    ∃ (l : List Nat) (bound : Nat), (∀ inner fuel, bound ≤ inner → bound ≤ fuel → timeLoop dt ts tEnd inner fuel 0 0 = .ok l) ∧
      0 < l.length ∧ ((l.length - 1 : Nat) : K) * ts ≤ tEnd ∧ tEnd < (l.length : K) * ts ∧
      ∀ k < l.length, (k : K) * ts ≤ (l.getD k 0 : K) * dt ∧ (l.getD k 0 : K) * dt < k * ts + dt ∧ ∀ i < l.getD k 0, (i : K) * dt < k * ts := by
  have hq : 0 ≤ tEnd / ts := div_nonneg h0 hts.le
  obtain ⟨f1, f2⟩ := floor_facts hq
  have hM : ((⌊tEnd / ts⌋₊ : Nat) : K) * ts ≤ tEnd := (le_div_iff₀ hts).1 f1
  have hM' : tEnd < ((⌊tEnd / ts⌋₊ + 1 : Nat) : K) * ts := by push_cast; exact (div_lt_iff₀ hts).1 f2
  generalize ⌊tEnd / ts⌋₊ = M at *
  refine ⟨(List.range (M + 1)).map (sampleStep dt ts), M + 2 + sampleStep dt ts M, fun inner fuel hi hf => ?_, by simp, by simpa using hM, by simpa using hM', fun k hk => ?_⟩
  · have := timeLoop_ok hdt hts hM hM' (inner := inner) (by omega) fuel 0 0 (by omega) (by omega) (fun i _ => Nat.zero_le _)
    simpa using this
  · have hk' : k < M + 1 := by simpa using hk
    have e : ((List.range (M + 1)).map (sampleStep dt ts)).getD k 0 = sampleStep dt ts k := by
      simp only [List.getD_eq_getElem?_getD, List.getElem?_map, List.getElem?_range hk']; rfl
    rw [e]
    exact sampleStep_facts hdt hts k

/-- Along an axis, `n` samples with the coordinates `a + j * st` are recorded; the `j`-th was taken in the cell `i + ds * j`, at the position `δ` in this cell (0 is its lower edge, 1/2 its centre). -/
def Recorded (δ org res : K) (i ds n : Nat) (a st : K) (P : Nat → K → K → Prop) : Prop := ∀ j < n, P j (a + j * st) (org + (((i + ds * j : Nat) : K) + δ) / res)

/-- C58 (full statement, which does not hold): the coordinates are where the samples were taken. -/
def Exact (δ org res : K) (i ds n : Nat) (a st : K) : Prop := Recorded δ org res i ds n a st fun _ c x => c = x

/-- C58. The coordinates that the finished Green's function records are right to within the distance of two samples, along all axes, wherever in its cell the simulation has a sample:
    along a spatial axis they are wrong by at most `ds` cells, along the time axis too large by less than one time step, and there they are exact if the end is a multiple of the time step. (Missing: exactness along the spatial axes, see `C58_stretched`.) -/
theorem C58_coordinates_partial {g : Geometry K} {req : CylRegion K} {res : K} {nz nr : Nat} (h : SetupOk g req res nz nr) {ts tEnd : K} (hts : 0 < ts) {ds : Nat} (hds : 0 < ds) (δ : K) :
    ∀ (s : Storage K) (z0 r0 dz dr : Nat), storageDomain g req res nz nr = .ok s → s.start = [z0, r0] → s.shape = [dz, dr] → ∀ (N nR nZ : Nat), finalShape ds N s.shape = [nR, nZ, N] →
      2 ≤ nR → 2 ≤ nZ → 2 ≤ N → ((N - 1 : Nat) : K) * ts ≤ tEnd → tEnd < (N : K) * ts →
      ∃ a b st, coordsOf s.region tEnd (finalShape ds N s.shape) = .ok (a, b, st) ∧ a = [s.region.rMin, s.region.zMin, 0] ∧ b = [s.region.rMax, s.region.zMax, tEnd] ∧ st.length = 3 ∧
        Recorded δ 0 res r0 ds nR s.region.rMin (st.getD 0 0) (fun _ c x => x - δ / res ≤ c ∧ c ≤ x + (ds - δ) / res) ∧
        Recorded δ g.zMin res z0 ds nZ s.region.zMin (st.getD 1 0) (fun _ c x => x - δ / res ≤ c ∧ c ≤ x + (ds - δ) / res) ∧
        (∀ k < N, (k : K) * ts ≤ k * st.getD 2 0 ∧ (k : K) * st.getD 2 0 < k * ts + ts) ∧ (((N - 1 : Nat) : K) * ts = tEnd → st.getD 2 0 = ts) ∧
        (∀ e < 3, 0 < st.getD e 0) ∧
        (∀ e < 3, a.getD e 0 + (([nR, nZ, N].getD e 0 - 1 : Nat) : K) * st.getD e 0 = b.getD e 0) := by
  intro s z0 r0 dz dr hs hst hsh N nR nZ hfin hR hZ hN hlo hhi
  obtain ⟨s', e1, z0', r0', dz', dr', e2, e3, _, _, hz, hr⟩ := storage_ok h
  rw [hs] at e1
  cases e1
  rw [hst] at e2
  rw [hsh] at e3
  cases e2
  cases e3
  have hres := h.pos
  have hne := hres.ne'
  rw [hsh] at hfin ⊢
  have hfs : finalShape ds N [dz, dr] = [(dr + ds - 1) / ds, (dz + ds - 1) / ds, N] := rfl
  rw [hfs] at hfin ⊢
  injection hfin with q1 hfin
  injection hfin with q2 _
  rw [q1, q2]
  have nz : ∀ {n : Nat}, 2 ≤ n → ((n : K) - 1) ≠ 0 ∧ (0 : K) < (n : K) - 1 ∧ ((n - 1 : Nat) : K) = (n : K) - 1 := fun {n} hn => by
    have : (2 : K) ≤ n := by exact_mod_cast hn
    have hp : (0 : K) < (n : K) - 1 := by linarith
    exact ⟨hp.ne', hp, by rw [Nat.cast_sub (by omega)]; simp⟩
  have pos : ∀ {m n : Nat}, (m + ds - 1) / ds = n → 2 ≤ n → 0 < m := fun {m n} h1 h2 => by
    by_contra hc
    have : m = 0 := by omega
    subst this
    rw [Nat.div_eq_of_lt (by omega)] at h1
    omega
  -- along a spatial axis
  have ax : ∀ {org lo hi a b : K} {i m n : Nat}, StoresAxis org res lo hi i m a b → (m + ds - 1) / ds = n → 2 ≤ n →
      Recorded δ org res i ds n a ((b - a) / ((n : K) - 1)) (fun _ c x => x - δ / res ≤ c ∧ c ≤ x + (ds - δ) / res) ∧ 0 < (b - a) / ((n : K) - 1) := by
    intro org lo hi a b i m n hsx hmn hn
    have hm := pos hmn hn
    obtain ⟨c1, c2⟩ := ceil_facts hds hm
    rw [hmn] at c1 c2
    have eba : b - a = m / res := by rw [hsx.upper, hsx.lower]; push_cast; ring
    have d1 : (ds : K) * ((n : K) - 1) ≤ m := by rw [← (nz hn).2.2]; exact_mod_cast c1.le
    have d2 : (m : K) ≤ ds * n := by exact_mod_cast c2
    refine ⟨fun j hj => ?_, ?_⟩
    · obtain ⟨t1, t2, _⟩ := stretch (K := K) (m := m) (d := ds) hn hj d1
      have e : a + j * ((b - a) / ((n : K) - 1)) = a + (j * (m / ((n : K) - 1))) / res := by rw [eba]; field_simp
      have e' : org + (((i + ds * j : Nat) : K) + δ) / res = a + (j * ds) / res + δ / res := by rw [hsx.lower]; push_cast; ring
      have u1 : ((j : K) * ds) / res ≤ (j * (m / ((n : K) - 1))) / res := div_le_div_of_nonneg_right t1 hres.le
      have u2 : ((j : K) * (m / ((n : K) - 1))) / res ≤ (j * ds + ds) / res := div_le_div_of_nonneg_right (by linarith) hres.le
      rw [add_div] at u2
      have u3 : ((ds : K) - δ) / res = ds / res - δ / res := by ring
      show _ ≤ _ ∧ _ ≤ _
      rw [e, e', u3]
      exact ⟨by linarith, by linarith⟩
    · rw [eba]
      exact div_pos (div_pos (by exact_mod_cast hm) hres) (nz hn).2.1
  obtain ⟨x1, x2⟩ := ax hr q1 hR
  obtain ⟨y1, y2⟩ := ax hz q2 hZ
  have hlo' : ts * ((N : K) - 1) ≤ tEnd := by rw [← (nz hN).2.2]; linarith
  have tpos : 0 < tEnd / ((N : K) - 1) := div_pos (lt_of_lt_of_le (mul_pos hts (nz hN).2.1) hlo') (nz hN).2.1
  refine ⟨[s.region.rMin, s.region.zMin, 0], [s.region.rMax, s.region.zMax, tEnd], [(s.region.rMax - s.region.rMin) / ((nR : K) - 1), (s.region.zMax - s.region.zMin) / ((nZ : K) - 1), tEnd / ((N : K) - 1)], ?_,
    rfl, rfl, rfl, x1, y1, fun k hk => ?_, fun he => ?_, fun e he => ?_, fun e he => ?_⟩
  · unfold coordsOf
    show (fdiv _ ((nR : K) - 1)).bind _ = _
    rw [fdiv_ok (nz hR).1, Res.ok_bind]
    show (fdiv _ ((nZ : K) - 1)).bind _ = _
    rw [fdiv_ok (nz hZ).1, Res.ok_bind]
    show (fdiv _ ((N : K) - 1)).bind _ = _
    rw [fdiv_ok (nz hN).1, Res.ok_bind, sub_zero]
  · obtain ⟨t1, t2, _⟩ := stretch (m := tEnd) (d := ts) hN hk hlo'
    show _ ≤ (k : K) * (tEnd / ((N : K) - 1)) ∧ (k : K) * (tEnd / ((N : K) - 1)) < _
    exact ⟨t1, by linarith⟩
  · show tEnd / ((N : K) - 1) = ts
    rw [← he, (nz hN).2.2]
    field_simp [(nz hN).1]
  · match e, he with
    | 0, _ => exact x2
    | 1, _ => exact y2
    | 2, _ => exact tpos
  · have fin : ∀ {n : Nat} {a b : K}, 2 ≤ n → a + ((n - 1 : Nat) : K) * ((b - a) / ((n : K) - 1)) = b := fun {n a b} hn => by
      rw [(nz hn).2.2, mul_div_cancel₀ _ (nz hn).1]; ring
    match e, he with
    | 0, _ => exact fin hR
    | 1, _ => exact fin hZ
    | 2, _ =>
        have := fin (a := 0) (b := tEnd) hN
        rwa [sub_zero] at this

/-- C58, converse: along a spatial axis the recorded distance of two samples is always larger than the true one; so wherever in a cell the simulation has its samples the coordinates are not exact. (The program
    divides the length of the region by the number of samples minus one, but the region ends one sample after the last.) -/
theorem C58_stretched {org res lo hi a b : K} (hres : 0 < res) {i m ds n : Nat} (hds : 0 < ds) (hs : StoresAxis org res lo hi i m a b) (hn : (m + ds - 1) / ds = n) (h2 : 2 ≤ n) :
    (ds : K) / res < (b - a) / ((n : K) - 1) ∧ ∀ δ, ¬ Exact δ org res i ds n a ((b - a) / ((n : K) - 1)) := by
  have hm : 0 < m := by
    by_contra hc
    have : m = 0 := by omega
    subst this
    rw [Nat.div_eq_of_lt (by omega)] at hn
    omega
  obtain ⟨c1, _⟩ := ceil_facts hds hm
  rw [hn] at c1
  have hn1 : ((n - 1 : Nat) : K) = (n : K) - 1 := by rw [Nat.cast_sub (by omega)]; simp
  have d1 : (ds : K) * ((n : K) - 1) < m := by rw [← hn1]; exact_mod_cast c1
  have eba : b - a = m / res := by rw [hs.upper, hs.lower]; push_cast; ring
  have hne := hres.ne'
  have hp : (0 : K) < (n : K) - 1 := by
    have : (2 : K) ≤ n := by exact_mod_cast h2
    linarith
  have key : (ds : K) / res < (b - a) / ((n : K) - 1) := by
    rw [eba, lt_div_iff₀ hp, div_mul_eq_mul_div]
    exact div_lt_div_of_pos_right d1 hres
  refine ⟨key, fun δ hx => ?_⟩
  have x0 := hx 0 (by omega)
  have x1 := hx 1 (by omega)
  have e0 : org + (((i + ds * 0 : Nat) : K) + δ) / res = org + i / res + δ / res := by push_cast; ring
  have e1 : org + (((i + ds * 1 : Nat) : K) + δ) / res = org + i / res + δ / res + ds / res := by push_cast; ring
  simp only [e0, e1, Nat.cast_zero, Nat.cast_one, zero_mul, one_mul] at x0 x1
  linarith

/-- C58: with a single sample along an axis the distance of the samples is a division by zero. -/
theorem C58_single (reg : CylRegion K) (tEnd : K) (sh : List Nat) (h : ∃ e < 3, sh.getD e 0 = 1) : coordsOf reg tEnd sh = .ub := by
  have z : ∀ {a : K} {n : Nat}, n = 1 → fdiv a ((n : K) - 1) = .ub := fun {a n} hn => by unfold fdiv; rw [hn]; simp
  have hd : ∀ (a b : K), fdiv a b = .ub ∨ fdiv a b = .ok (a / b) := fun a b => by unfold fdiv; split <;> simp
  obtain ⟨e, he, h1⟩ := h
  unfold coordsOf
  match e, he with
  | 0, _ => rw [z h1]; rfl
  | 1, _ =>
      rcases hd (reg.rMax - reg.rMin) ((sh.getD 0 0 : K) - 1) with hh | hh <;> rw [hh]
      · rfl
      · rw [Res.ok_bind, z h1]; rfl
  | 2, _ =>
      rcases hd (reg.rMax - reg.rMin) ((sh.getD 0 0 : K) - 1) with hh | hh <;> rw [hh]
      · rfl
      · rw [Res.ok_bind]
        rcases hd (reg.zMax - reg.zMin) ((sh.getD 1 0 : K) - 1) with hh | hh <;> rw [hh]
        · rfl
        · rw [Res.ok_bind, z h1]; rfl

/-! ### A concrete case -/

namespace Ex58

/-- A geometry of 20 by 30 with 10 cells per unit, of which a part is requested that does not start at a cell. -/
def geom : Geometry ℚ := ⟨20, -20, 10⟩

def request : CylRegion ℚ := ⟨151 / 100, 12, -199 / 20, 5⟩

theorem setup : SetupOk geom request 10 300 200 := ⟨by norm_num, by norm_num [geom, request], by norm_num [geom, request], by norm_num [geom], by norm_num⟩

example : mkRegion (K := ℚ) (151 / 100) 12 (-199 / 20) 5 = .ok request ∧ mkCalculator geom request = .ok () :=
  ⟨(C58_accepts (151 / 100) 12 (-199 / 20) 5 geom request).1.2 (by norm_num), (C58_accepts 0 0 0 0 geom request).2.2.1.2 ⟨by norm_num [geom, request], by norm_num [geom, request]⟩⟩

/-- The storage domain: with a factor of 4 there are 26 samples along `r`, which stand for cells `15 + 4 * j`. -/
theorem stored : ∃ s : Storage ℚ, storageDomain geom request 10 300 200 = .ok s ∧ s.start = [100, 15] ∧ s.shape = [149, 104] ∧ finalShape 4 21 s.shape = [26, 38, 21] := by
  obtain ⟨s, h1, z0, r0, dz, dr, h2, h3, _, _, hz, hr⟩ := storage_ok setup
  have a1 := hz.start
  have a2 := hz.count
  have a3 := hr.start
  have a4 := hr.count
  simp only [geom, request] at a1 a2 a3 a4
  norm_num at a1 a2 a3 a4
  have k : ∀ {n m : Nat} {x : ℚ}, (n : ℚ) ≤ x → x < n + 1 → (m : ℚ) ≤ x → x < m + 1 → n = m := fun {n m x} b1 b2 b3 b4 => by
    have c1 : (n : ℚ) < m + 1 := by linarith
    have c2 : (m : ℚ) < n + 1 := by linarith
    have d1 : n < m + 1 := by exact_mod_cast c1
    have d2 : m < n + 1 := by exact_mod_cast c2
    omega
  have b1 : z0 = 100 := k a1.1 a1.2 (by norm_num) (by norm_num)
  have b2 : dz = 149 := k a2.1 a2.2 (by norm_num) (by norm_num)
  have b3 : r0 = 15 := k a3.1 a3.2 (by norm_num) (by norm_num)
  have b4 : dr = 104 := k a4.1 a4.2 (by norm_num) (by norm_num)
  subst b1 b2 b3 b4
  exact ⟨s, h1, h2, h3, by rw [h3]; decide⟩

example : ∃ l bound, (∀ inner fuel, bound ≤ inner → bound ≤ fuel → timeLoop (1 / 20 : ℚ) (1 / 8) (5 / 2) inner fuel 0 0 = .ok l) ∧ 0 < l.length :=
  let ⟨l, b, h1, h2, _⟩ := C58_times (K := ℚ) (dt := 1 / 20) (ts := 1 / 8) (tEnd := 5 / 2) (by norm_num) (by norm_num) (by norm_num)
  ⟨l, b, h1, h2⟩

example : ∃ s a b st, storageDomain geom request 10 300 200 = .ok s ∧ coordsOf s.region (5 / 2) (finalShape 4 21 s.shape) = .ok (a, b, st) := by
  obtain ⟨s, h1, h2, h3, h4⟩ := stored
  obtain ⟨a, b, st, h5, _⟩ := C58_coordinates_partial setup (ts := 1 / 8) (tEnd := 5 / 2) (by norm_num) (ds := 4) (by norm_num) (1 / 2) s _ _ _ _ h1 h2 h3 21 26 38 h4 (by norm_num) (by norm_num)
    (by norm_num) (by norm_num) (by norm_num)
  exact ⟨s, a, b, st, h1, h5⟩

end Ex58

end Verif.Meep
