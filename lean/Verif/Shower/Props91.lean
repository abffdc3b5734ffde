import Verif.Shower.Dimensions
import Verif.Shower.Props
import Mathlib.Analysis.SpecialFunctions.Pow.Real
/-
C91 (the printed region of a shower contains its tracks).
-/
namespace Verif.Shower
open Verif

/-! ### Specification -/

/-- The distance of a position from the axis of the antenna. -/
noncomputable def radius (p : Pos ℝ) : ℝ := √(p.x ^ 2 + p.y ^ 2)

/-- The position on a segment, from its begin (`u = 0`) to its end (`u = 1`). -/
def Segment.on (sg : Segment ℝ) (u : ℝ) : Pos ℝ :=
  ⟨sg.p0.x + u * (sg.p1.x - sg.p0.x), sg.p0.y + u * (sg.p1.y - sg.p0.y), sg.p0.z + u * (sg.p1.z - sg.p0.z)⟩

/-- A shower through ice of constant density `ρ` (as in ice_profile.cpp 4-6) whose profile ends at the grammage `max`. -/
structure Course.Ok (w : Course ℝ) (ρ max : ℝ) : Prop where
  zen : w.sinZ ^ 2 + w.cosZ ^ 2 = 1
  azi : w.sinA ^ 2 + w.cosA ^ 2 = 1
  light : 0 < w.c
  same : w.profile.charge.length = w.profile.grammage.length
  last : w.profile.grammage.getLast? = some max
  pos : 0 < max
  dense : 0 < ρ
  ice : ∀ p, w.density p = ρ

/-- The number of points with the step `dt` fits into an `int`, and the run is long enough. -/
def Course.Fits (w : Course ℝ) (ρ max dt : ℝ) (fuel : Nat) : Prop := max / (ρ * (dt * w.c)) + 1 < 2 ^ 31 ∧ max / (ρ * (dt * w.c)) + 1 < fuel

/-! ### Proof -/

theorem smin_exact (a b : ℝ) : smin (exact' ℝ) a b = min a b := by
  unfold smin
  by_cases h : b < a
  · rw [if_pos (by simpa [exact'] using h), min_eq_right h.le]
  · rw [if_neg (by simpa [exact'] using h), min_eq_left (not_lt.1 h)]

theorem smax_exact (a b : ℝ) : smax (exact' ℝ) a b = max a b := by
  unfold smax
  by_cases h : a < b
  · rw [if_pos (by simpa [exact'] using h), max_eq_right h.le]
  · rw [if_neg (by simpa [exact'] using h), max_eq_left (not_lt.1 h)]

theorem step_exact (d : Dims ℝ) (p : Pos ℝ) : d.step (exact' ℝ) Real.sqrt p = ⟨min d.rMin (radius p), max d.rMax (radius p), min d.zMin p.z, max d.zMax p.z⟩ := by
  unfold Dims.step radius
  simp only [smin_exact, smax_exact]
  simp only [exact', pow_two]

theorem fold_dims : ∀ (ps : List (Point ℝ)) (d : Dims ℝ), let e := ps.foldl (fun (d : Dims ℝ) (p : Point ℝ) => d.step (exact' ℝ) Real.sqrt p.pos) d
    (e.rMin ≤ d.rMin ∧ d.rMax ≤ e.rMax ∧ e.zMin ≤ d.zMin ∧ d.zMax ≤ e.zMax) ∧
    (∀ q ∈ ps, e.rMin ≤ radius q.pos ∧ radius q.pos ≤ e.rMax ∧ e.zMin ≤ q.pos.z ∧ q.pos.z ≤ e.zMax) ∧
    (e.rMin = d.rMin ∨ ∃ q ∈ ps, e.rMin = radius q.pos) ∧ (e.rMax = d.rMax ∨ ∃ q ∈ ps, e.rMax = radius q.pos) ∧
    (e.zMin = d.zMin ∨ ∃ q ∈ ps, e.zMin = q.pos.z) ∧ (e.zMax = d.zMax ∨ ∃ q ∈ ps, e.zMax = q.pos.z)
  | [], d => by simp
  | p :: ps, d => by
      obtain ⟨⟨h1, h2, h3, h4⟩, g, k1, k2, k3, k4⟩ := fold_dims ps (d.step (exact' ℝ) Real.sqrt p.pos)
      simp only [List.foldl_cons]
      generalize he : List.foldl _ _ ps = e at *
      rw [step_exact] at h1 h2 h3 h4 k1 k2 k3 k4
      simp only at h1 h2 h3 h4 k1 k2 k3 k4
      obtain ⟨a1, b1⟩ := le_min_iff.1 h1
      obtain ⟨a2, b2⟩ := max_le_iff.1 h2
      obtain ⟨a3, b3⟩ := le_min_iff.1 h3
      obtain ⟨a4, b4⟩ := max_le_iff.1 h4
      have mem : ∀ {P : Point ℝ → Prop}, (∃ q ∈ ps, P q) → ∃ q ∈ p :: ps, P q := fun ⟨q, hq, h⟩ => ⟨q, List.mem_cons_of_mem _ hq, h⟩
      have hd : p ∈ p :: ps := List.mem_cons_self
      refine ⟨⟨a1, a2, a3, a4⟩, fun q hq => ?_, ?_, ?_, ?_, ?_⟩
      · rcases List.mem_cons.1 hq with rfl | hq
        · exact ⟨b1, b2, b3, b4⟩
        · exact g q hq
      · rcases k1 with k1 | k1
        · rcases min_choice d.rMin (radius p.pos) with hm | hm
          · exact .inl (k1.trans hm)
          · exact .inr ⟨p, hd, k1.trans hm⟩
        · exact .inr (mem k1)
      · rcases k2 with k2 | k2
        · rcases max_choice d.rMax (radius p.pos) with hm | hm
          · exact .inl (k2.trans hm)
          · exact .inr ⟨p, hd, k2.trans hm⟩
        · exact .inr (mem k2)
      · rcases k3 with k3 | k3
        · rcases min_choice d.zMin p.pos.z with hm | hm
          · exact .inl (k3.trans hm)
          · exact .inr ⟨p, hd, k3.trans hm⟩
        · exact .inr (mem k3)
      · rcases k4 with k4 | k4
        · rcases max_choice d.zMax p.pos.z with hm | hm
          · exact .inl (k4.trans hm)
          · exact .inr ⟨p, hd, k4.trans hm⟩
        · exact .inr (mem k4)

theorem radius_sq (p : Pos ℝ) : radius p ^ 2 = p.x ^ 2 + p.y ^ 2 := Real.sq_sqrt (by positivity)

theorem radius_nonneg (p : Pos ℝ) : 0 ≤ radius p := Real.sqrt_nonneg _

theorem radius_le {p : Pos ℝ} {R : ℝ} (hR : 0 ≤ R) : radius p ≤ R ↔ p.x ^ 2 + p.y ^ 2 ≤ R ^ 2 := by
  rw [← radius_sq]
  exact ⟨fun h => pow_le_pow_left₀ (radius_nonneg p) h 2, fun h => le_of_sq_le_sq' h hR⟩
where
  le_of_sq_le_sq' {a b : ℝ} (h : a ^ 2 ≤ b ^ 2) (hb : 0 ≤ b) : a ≤ b := abs_le_of_sq_le_sq' h hb |>.2

/-- Moving by `(e, f)` changes the distance from the axis by at most the length of `(e, f)`. -/
theorem radius_move (p q : Pos ℝ) (h : (p.x - q.x) ^ 2 + (p.y - q.y) ^ 2 ≤ 1) : radius p ≤ radius q + 1 := by
  have hq := radius_nonneg q
  rw [radius_le (by linarith)]
  have hs := radius_sq q
  have hc : q.x * (p.x - q.x) + q.y * (p.y - q.y) ≤ radius q := by
    refine (abs_le_of_sq_le_sq' ?_ hq).2
    rw [hs]
    nlinarith [sq_nonneg (q.x * (p.y - q.y) - q.y * (p.x - q.x)), sq_nonneg q.x, sq_nonneg q.y]
  nlinarith

theorem radius_div (p : Pos ℝ) {c : ℝ} (hc : 0 < c) : radius ⟨p.x / c, p.y / c, p.z / c⟩ = radius p / c := by
  unfold radius
  simp only [div_pow]
  rw [← add_div, Real.sqrt_div (by positivity), Real.sqrt_sq hc.le]

theorem posAt_exact (s : Setup ℝ) (k : Nat) : posAt (exact' ℝ) s k = ⟨s.start.x + k * s.step.x, s.start.y + k * s.step.y, s.start.z + k * s.step.z⟩ := by
  induction k with
  | zero => simp [posAt]
  | succ k ih =>
    show (posAt (exact' ℝ) s k).move (exact' ℝ) s.step = _
    rw [ih]
    simp only [Pos.move, exact', Pos.mk.injEq]
    push_cast
    exact ⟨by ring, by ring, by ring⟩

theorem gramAt_exact (w : Course ℝ) {ρ : ℝ} (hρ : ∀ p, w.density p = ρ) (dt : ℝ) (k : Nat) : gramAt (exact' ℝ) (w.setup (exact' ℝ) dt) k = k * (ρ * (dt * w.c)) := by
  induction k with
  | zero => simp [gramAt, exact']
  | succ k ih =>
    show gramAt (exact' ℝ) (w.setup (exact' ℝ) dt) k + w.density _ * (dt * w.c) = _
    rw [ih, hρ]
    push_cast; ring

/-- The number of points. -/
theorem ends_of {w : Course ℝ} {ρ max dt : ℝ} (hw : w.Ok ρ max) (hdt : 0 < dt) {fuel : Nat} (hf : w.Fits ρ max dt fuel) :
    ∃ n, EndsAfter (exact' ℝ) (w.setup (exact' ℝ) dt) n ∧ 0 < n ∧ n < 2 ^ 31 ∧ n < fuel ∧ max ≤ n * (ρ * (dt * w.c)) ∧ (n - 1 : ℝ) * (ρ * (dt * w.c)) < max := by
  have hp : 0 < ρ * (dt * w.c) := mul_pos hw.dense (mul_pos hdt hw.light)
  have hq : 0 < max / (ρ * (dt * w.c)) := div_pos hw.pos hp
  have hlt : (⌈max / (ρ * (dt * w.c))⌉₊ : ℝ) < max / (ρ * (dt * w.c)) + 1 := Nat.ceil_lt_add_one hq.le
  have hge := Nat.le_ceil (max / (ρ * (dt * w.c)))
  have h1 : max ≤ (⌈max / (ρ * (dt * w.c))⌉₊ : ℝ) * (ρ * (dt * w.c)) := (div_le_iff₀ hp).1 hge
  have h2 : ((⌈max / (ρ * (dt * w.c))⌉₊ : ℝ) - 1) * (ρ * (dt * w.c)) < max := by
    rw [← lt_div_iff₀ hp]
    linarith
  refine ⟨_, ⟨max, hw.last, ?_, fun k hk => ?_⟩, Nat.ceil_pos.2 hq, ?_, ?_, h1, h2⟩
  · rw [gramAt_exact w hw.ice]
    simpa [exact'] using h1
  · rw [gramAt_exact w hw.ice]
    have : (k : ℝ) < max / (ρ * (dt * w.c)) := Nat.lt_ceil.1 hk
    simpa [exact'] using (lt_div_iff₀ hp).1 this
  · have := hlt.trans hf.1
    exact_mod_cast this
  · have := hlt.trans hf.2
    exact_mod_cast this

/-- The printed region, in terms of the positions after `k` steps. -/
theorem dims_ok {w : Course ℝ} (hc : 0 < w.c) (hl : w.profile.charge.length = w.profile.grammage.length) {n : Nat} (hend : EndsAfter (exact' ℝ) (w.setup (exact' ℝ) 1) n)
    (h0 : 0 < n) (hn : n < 2 ^ 31) {fuel : Nat} (hf : n < fuel) : ∃ D, printDimensions (exact' ℝ) Real.sqrt 1 fuel w = .ok D ∧
      (∀ k < n, D.rMin ≤ radius (posAt (exact' ℝ) (w.setup (exact' ℝ) 1) k) / w.c ∧ radius (posAt (exact' ℝ) (w.setup (exact' ℝ) 1) k) / w.c ≤ D.rMax ∧
        D.zMin ≤ (posAt (exact' ℝ) (w.setup (exact' ℝ) 1) k).z / w.c ∧ (posAt (exact' ℝ) (w.setup (exact' ℝ) 1) k).z / w.c ≤ D.zMax) ∧
      (∃ k < n, D.rMin = radius (posAt (exact' ℝ) (w.setup (exact' ℝ) 1) k) / w.c) ∧
      (D.rMax = √(w.start.x ^ 2 + w.start.y ^ 2 + w.start.z ^ 2) / w.c ∨ ∃ k < n, D.rMax = radius (posAt (exact' ℝ) (w.setup (exact' ℝ) 1) k) / w.c) ∧
      (∃ k < n, D.zMin = (posAt (exact' ℝ) (w.setup (exact' ℝ) 1) k).z / w.c) ∧ (∃ k < n, D.zMax = (posAt (exact' ℝ) (w.setup (exact' ℝ) 1) k).z / w.c) ∧
      √(w.start.x ^ 2 + w.start.y ^ 2 + w.start.z ^ 2) / w.c ≤ D.rMax := by
  obtain ⟨ps, h1, h2, h3⟩ := C51_in_bounds (exact' ℝ) exact_ok _ (by exact hl) hend h0 hn fuel hf
  cases ps with
  | nil => simp at h2; omega
  | cons q l =>
    have hq := (h3 0 q rfl).2
    have hq' : q.pos = w.start := hq
    have idx : ∀ p ∈ q :: l, ∃ k < n, p.pos = posAt (exact' ℝ) (w.setup (exact' ℝ) 1) k := by
      intro p hp
      obtain ⟨k, hk, rfl⟩ := List.getElem_of_mem hp
      exact ⟨k, by omega, (h3 k _ (List.getElem?_eq_getElem hk)).2⟩
    have val : ∀ k < n, ∃ p ∈ q :: l, p.pos = posAt (exact' ℝ) (w.setup (exact' ℝ) 1) k := by
      intro k hk
      exact ⟨_, List.getElem_mem (by omega : k < (q :: l).length), (h3 k _ (List.getElem?_eq_getElem (by omega))).2⟩
    let r0 := √(q.pos.x * q.pos.x + q.pos.y * q.pos.y + q.pos.z * q.pos.z)
    obtain ⟨⟨b1, b2, b3, b4⟩, g, k1, k2, k3, k4⟩ := fold_dims (q :: l) ⟨r0, r0, q.pos.z, q.pos.z⟩
    have hr : printDimensions (exact' ℝ) Real.sqrt 1 fuel w = .ok (let d := (q :: l).foldl (fun (d : Dims ℝ) (p : Point ℝ) => d.step (exact' ℝ) Real.sqrt p.pos) ⟨r0, r0, q.pos.z, q.pos.z⟩
        ⟨d.rMin / w.c, d.rMax / w.c, d.zMin / w.c, d.zMax / w.c⟩) := by
      unfold printDimensions
      rw [h1]; rfl
    generalize he : List.foldl _ _ (q :: l) = e at *
    simp only at b1 b2 b3 b4 k1 k2 k3 k4
    have hqm : q ∈ q :: l := List.mem_cons_self
    refine ⟨_, hr, fun k hk => ?_, ?_, ?_, ?_, ?_, ?_⟩
    · obtain ⟨p, hp, hpe⟩ := val k hk
      obtain ⟨c1, c2, c3, c4⟩ := g p hp
      rw [hpe] at c1 c2 c3 c4
      exact ⟨div_le_div_of_nonneg_right c1 hc.le, div_le_div_of_nonneg_right c2 hc.le, div_le_div_of_nonneg_right c3 hc.le, div_le_div_of_nonneg_right c4 hc.le⟩
    · rcases k1 with k1 | ⟨p, hp, k1⟩
      · refine ⟨0, h0, ?_⟩
        have hle : radius q.pos ≤ r0 := by
          refine Real.sqrt_le_sqrt ?_
          nlinarith [sq_nonneg q.pos.z]
        have := (g q hqm).1
        show e.rMin / w.c = _
        rw [show e.rMin = radius q.pos from le_antisymm this (hle.trans k1.ge), hq]
      · obtain ⟨k, hk, hpe⟩ := idx p hp
        exact ⟨k, hk, by show e.rMin / w.c = _; rw [k1, hpe]⟩
    · rcases k2 with k2 | ⟨p, hp, k2⟩
      · left
        show e.rMax / w.c = _
        rw [k2]
        show √(q.pos.x * q.pos.x + q.pos.y * q.pos.y + q.pos.z * q.pos.z) / w.c = _
        rw [hq', pow_two, pow_two, pow_two]
      · obtain ⟨k, hk, hpe⟩ := idx p hp
        exact .inr ⟨k, hk, by show e.rMax / w.c = _; rw [k2, hpe]⟩
    · rcases k3 with k3 | ⟨p, hp, k3⟩
      · exact ⟨0, h0, by show e.zMin / w.c = _; rw [k3, hq]⟩
      · obtain ⟨k, hk, hpe⟩ := idx p hp
        exact ⟨k, hk, by show e.zMin / w.c = _; rw [k3, hpe]⟩
    · rcases k4 with k4 | ⟨p, hp, k4⟩
      · exact ⟨0, h0, by show e.zMax / w.c = _; rw [k4, hq]⟩
      · obtain ⟨k, hk, hpe⟩ := idx p hp
        exact ⟨k, hk, by show e.zMax / w.c = _; rw [k4, hpe]⟩
    · refine div_le_div_of_nonneg_right ?_ hc.le
      rw [← hq', pow_two, pow_two, pow_two]
      exact b2

/-- The tracks, in terms of the positions after `k` steps. -/
theorem tracks_ok {w : Course ℝ} (hl : w.profile.charge.length = w.profile.grammage.length) (dt : ℝ) {n : Nat} (hend : EndsAfter (exact' ℝ) (w.setup (exact' ℝ) dt) n)
    (h0 : 0 < n) (hn : n < 2 ^ 31) {fuel : Nat} (hf : n < fuel) : ∃ sgs, tracksOf (exact' ℝ) fuel w dt = .ok sgs ∧ sgs.length = n - 1 ∧
      ∀ sg ∈ sgs, ∃ k, k + 1 < n ∧
        sg.p0 = (fun p : Pos ℝ => ⟨p.x / w.c, p.y / w.c, p.z / w.c⟩) (posAt (exact' ℝ) (w.setup (exact' ℝ) dt) k) ∧
        sg.p1 = (fun p : Pos ℝ => ⟨p.x / w.c, p.y / w.c, p.z / w.c⟩) (posAt (exact' ℝ) (w.setup (exact' ℝ) dt) (k + 1)) := by
  obtain ⟨sgs, h1, h2, _, h3⟩ := C51_contiguous (exact' ℝ) exact_ok (w.setup (exact' ℝ) dt) (by exact hl) hend h0 hn fuel hf
    (fun p => ⟨(exact' ℝ).div p.x w.c, (exact' ℝ).div p.y w.c, (exact' ℝ).div p.z w.c⟩) id id
  refine ⟨sgs, h1, h2, fun sg hm => ?_⟩
  obtain ⟨k, hk, rfl⟩ := List.getElem_of_mem hm
  obtain ⟨a, b, _⟩ := h3 k _ (List.getElem?_eq_getElem hk)
  exact ⟨k, by omega, a, b⟩

/-- **C91.** The region that is printed for a shower contains the tracks that `fill_tracks` makes with the same step (`1.`), whatever the density: on all of every track the
    height is between the printed heights and the distance from the axis is at most the printed maximum; at the begin and end of every track the distance from the axis is at least
    the printed minimum (`_partial`: between them it can be less, see `C91_rmin_not_kept`). -/
theorem C91_same_step_partial (w : Course ℝ) (hc : 0 < w.c) (hl : w.profile.charge.length = w.profile.grammage.length) {n : Nat}
    (hend : EndsAfter (exact' ℝ) (w.setup (exact' ℝ) 1) n) (h0 : 0 < n) (hn : n < 2 ^ 31) {fuel : Nat} (hf : n < fuel) :
    ∃ D sgs, printDimensions (exact' ℝ) Real.sqrt 1 fuel w = .ok D ∧ tracksOf (exact' ℝ) fuel w 1 = .ok sgs ∧ sgs.length = n - 1 ∧
      ∀ sg ∈ sgs, (∀ u, 0 ≤ u → u ≤ 1 → radius (sg.on u) ≤ D.rMax ∧ D.zMin ≤ (sg.on u).z ∧ (sg.on u).z ≤ D.zMax) ∧ D.rMin ≤ radius sg.p0 ∧ D.rMin ≤ radius sg.p1 := by
  obtain ⟨D, hD, hin, _⟩ := dims_ok hc hl hend h0 hn hf
  obtain ⟨sgs, hs, hlen, htr⟩ := tracks_ok hl 1 hend h0 hn hf
  refine ⟨D, sgs, hD, hs, hlen, fun sg hm => ?_⟩
  obtain ⟨k, hk, e0, e1⟩ := htr sg hm
  obtain ⟨a1, a2, a3, a4⟩ := hin k (by omega)
  obtain ⟨b1, b2, b3, b4⟩ := hin (k + 1) hk
  rw [← radius_div _ hc] at a1 a2 b1 b2
  have f0 : radius sg.p0 ≤ D.rMax := by rw [e0]; exact a2
  have f1 : radius sg.p1 ≤ D.rMax := by rw [e1]; exact b2
  have z0 : D.zMin ≤ sg.p0.z ∧ sg.p0.z ≤ D.zMax := by rw [e0]; exact ⟨a3, a4⟩
  have z1 : D.zMin ≤ sg.p1.z ∧ sg.p1.z ≤ D.zMax := by rw [e1]; exact ⟨b3, b4⟩
  have hR : 0 ≤ D.rMax := (radius_nonneg _).trans f0
  rw [radius_le hR] at f0 f1
  refine ⟨fun u hu hu1 => ⟨?_, ?_, ?_⟩, by rw [e0]; exact a1, by rw [e1]; exact b1⟩
  · rw [radius_le hR]
    have hx : (sg.p0.x + u * (sg.p1.x - sg.p0.x)) ^ 2 ≤ (1 - u) * sg.p0.x ^ 2 + u * sg.p1.x ^ 2 := by
      nlinarith [mul_nonneg (mul_nonneg hu (sub_nonneg.2 hu1)) (sq_nonneg (sg.p1.x - sg.p0.x))]
    have hy : (sg.p0.y + u * (sg.p1.y - sg.p0.y)) ^ 2 ≤ (1 - u) * sg.p0.y ^ 2 + u * sg.p1.y ^ 2 := by
      nlinarith [mul_nonneg (mul_nonneg hu (sub_nonneg.2 hu1)) (sq_nonneg (sg.p1.y - sg.p0.y))]
    have t0 := mul_le_mul_of_nonneg_left f0 (sub_nonneg.2 hu1)
    have t1 := mul_le_mul_of_nonneg_left f1 hu
    show (sg.p0.x + u * (sg.p1.x - sg.p0.x)) ^ 2 + (sg.p0.y + u * (sg.p1.y - sg.p0.y)) ^ 2 ≤ _
    nlinarith
  · show D.zMin ≤ sg.p0.z + u * (sg.p1.z - sg.p0.z)
    nlinarith [mul_nonneg (sub_nonneg.2 hu1) (sub_nonneg.2 z0.1), mul_nonneg hu (sub_nonneg.2 z1.1)]
  · show sg.p0.z + u * (sg.p1.z - sg.p0.z) ≤ D.zMax
    nlinarith [mul_nonneg (sub_nonneg.2 hu1) (sub_nonneg.2 z0.2), mul_nonneg hu (sub_nonneg.2 z1.2)]

theorem sq_sum_small {v a b : ℝ} (hv0 : 0 ≤ v) (hv1 : v ≤ 1) (h : a ^ 2 + b ^ 2 = 1) : v ^ 2 * a ^ 2 ≤ 1 ∧ v * |b| ≤ 1 := by
  have ha : a ^ 2 ≤ 1 := by nlinarith [sq_nonneg b]
  have hb : |b| ≤ 1 := abs_le_one_iff_mul_self_le_one.2 (by nlinarith [sq_nonneg a])
  exact ⟨mul_le_one₀ (pow_le_one₀ hv0 hv1) (sq_nonneg a) ha, mul_le_one₀ hv1 (abs_nonneg b) hb⟩

/-- **C91.** In ice of constant density, every position on a track made with any other step is within the printed region enlarged by one unit (the light path of the step `1.`) on each side
    (`_partial`: the region itself can be left, see `C91_finer_step_leaves`). -/
theorem C91_any_step_partial (w : Course ℝ) {ρ max : ℝ} (hw : w.Ok ρ max) {dt : ℝ} (hdt : 0 < dt) {fuel : Nat} (hf1 : w.Fits ρ max 1 fuel) (hf : w.Fits ρ max dt fuel) :
    ∃ D sgs, printDimensions (exact' ℝ) Real.sqrt 1 fuel w = .ok D ∧ tracksOf (exact' ℝ) fuel w dt = .ok sgs ∧
      ∀ sg ∈ sgs, ∀ u, 0 ≤ u → u ≤ 1 → D.rMin - 1 ≤ radius (sg.on u) ∧ radius (sg.on u) ≤ D.rMax + 1 ∧ D.zMin - 1 ≤ (sg.on u).z ∧ (sg.on u).z ≤ D.zMax + 1 := by
  have hc := hw.light
  obtain ⟨n, hend, h0, hn, hnf, hmax, _⟩ := ends_of hw one_pos hf1
  obtain ⟨m, mend, m0, mn, mf, _, hlt⟩ := ends_of hw hdt hf
  obtain ⟨D, hD, hin, _⟩ := dims_ok hc hw.same hend h0 hn hnf
  obtain ⟨sgs, hs, hlen, htr⟩ := tracks_ok hw.same dt mend m0 mn mf
  refine ⟨D, sgs, hD, hs, fun sg hm u hu hu1 => ?_⟩
  obtain ⟨k, hk, e0, e1⟩ := htr sg hm
  -- the path so far
  have hk' : (k : ℝ) + 1 ≤ m - 1 := by
    have : ((k + 1 + 1 : Nat) : ℝ) ≤ m := by exact_mod_cast hk
    push_cast at this; linarith
  have hk0 : (0 : ℝ) ≤ k := Nat.cast_nonneg k
  have hσ0 : 0 ≤ ((k : ℝ) + u) * dt := mul_nonneg (by linarith) hdt.le
  have hσ : ((k : ℝ) + u) * dt < n := by
    have hp : 0 < ρ * w.c := mul_pos hw.dense hc
    have h1 : ((k : ℝ) + u) * dt ≤ (m - 1) * dt := mul_le_mul_of_nonneg_right (by linarith) hdt.le
    have h2 : ((m : ℝ) - 1) * dt * (ρ * w.c) < n * (ρ * w.c) := by nlinarith
    exact h1.trans_lt (lt_of_mul_lt_mul_right h2 hp.le)
  obtain ⟨j, hj⟩ : ∃ j : Nat, j = ⌊((k : ℝ) + u) * dt⌋₊ := ⟨_, rfl⟩
  have hj1 : (j : ℝ) ≤ ((k : ℝ) + u) * dt := by rw [hj]; exact Nat.floor_le hσ0
  have hj2 : ((k : ℝ) + u) * dt < j + 1 := by rw [hj]; exact Nat.lt_floor_add_one _
  have hjn : j < n := by exact_mod_cast hj1.trans_lt hσ
  obtain ⟨a1, a2, a3, a4⟩ := hin j hjn
  rw [← radius_div _ hc] at a1 a2
  obtain ⟨v, hv⟩ : ∃ v, v = ((k : ℝ) + u) * dt - j := ⟨_, rfl⟩
  have hv0 : 0 ≤ v := by linarith
  have hv1 : v ≤ 1 := by linarith
  obtain ⟨P, hP⟩ : ∃ P : Pos ℝ, P = ⟨(posAt (exact' ℝ) (w.setup (exact' ℝ) 1) j).x / w.c, (posAt (exact' ℝ) (w.setup (exact' ℝ) 1) j).y / w.c,
      (posAt (exact' ℝ) (w.setup (exact' ℝ) 1) j).z / w.c⟩ := ⟨_, rfl⟩
  rw [← hP] at a1 a2
  have hPz : (posAt (exact' ℝ) (w.setup (exact' ℝ) 1) j).z / w.c = P.z := by rw [hP]
  rw [hPz] at a3 a4
  -- the position relative to the point before
  have hx : (sg.on u).x - P.x = v * (w.sinZ * w.cosA) := by
    unfold Segment.on
    rw [e0, e1, hP, posAt_exact, posAt_exact, posAt_exact, hv]
    simp only [Course.setup, exact']
    field_simp; push_cast; ring
  have hy : (sg.on u).y - P.y = v * (w.sinZ * w.sinA) := by
    unfold Segment.on
    rw [e0, e1, hP, posAt_exact, posAt_exact, posAt_exact, hv]
    simp only [Course.setup, exact']
    field_simp; push_cast; ring
  have hz : (sg.on u).z - P.z = v * w.cosZ := by
    unfold Segment.on
    rw [e0, e1, hP, posAt_exact, posAt_exact, posAt_exact, hv]
    simp only [Course.setup, exact']
    field_simp; push_cast; ring
  have hd : ((sg.on u).x - P.x) ^ 2 + ((sg.on u).y - P.y) ^ 2 ≤ 1 := by
    rw [hx, hy]
    have : (v * (w.sinZ * w.cosA)) ^ 2 + (v * (w.sinZ * w.sinA)) ^ 2 = v ^ 2 * w.sinZ ^ 2 * (w.sinA ^ 2 + w.cosA ^ 2) := by ring
    rw [this, hw.azi, mul_one]
    exact (sq_sum_small hv0 hv1 hw.zen).1
  have hd' : (P.x - (sg.on u).x) ^ 2 + (P.y - (sg.on u).y) ^ 2 ≤ 1 := by rw [← neg_sub P.x, ← neg_sub P.y, neg_sq, neg_sq] at hd; exact hd
  have hzz : |(sg.on u).z - P.z| ≤ 1 := by
    rw [hz, abs_mul, abs_of_nonneg hv0]
    exact (sq_sum_small hv0 hv1 hw.zen).2
  obtain ⟨z1, z2⟩ := abs_le.1 hzz
  have r1 := radius_move _ _ hd
  have r2 := radius_move _ _ hd'
  exact ⟨by linarith, by linarith, by linarith, by linarith⟩

/-- **C91.** No printed limit but the maximal distance can be replaced by a tighter one: the other three are reached at the begin or the end of a track. The maximal distance
    is reached as well, or it is the distance of the start of the shower from the origin (not from the axis). -/
theorem C91_reached_partial (w : Course ℝ) (hc : 0 < w.c) (hl : w.profile.charge.length = w.profile.grammage.length) {n : Nat}
    (hend : EndsAfter (exact' ℝ) (w.setup (exact' ℝ) 1) n) (h0 : 1 < n) (hn : n < 2 ^ 31) {fuel : Nat} (hf : n < fuel) :
    ∃ D sgs, printDimensions (exact' ℝ) Real.sqrt 1 fuel w = .ok D ∧ tracksOf (exact' ℝ) fuel w 1 = .ok sgs ∧
      (∃ sg ∈ sgs, D.rMin = radius sg.p0 ∨ D.rMin = radius sg.p1) ∧
      (D.rMax = √(w.start.x ^ 2 + w.start.y ^ 2 + w.start.z ^ 2) / w.c ∨ ∃ sg ∈ sgs, D.rMax = radius sg.p0 ∨ D.rMax = radius sg.p1) ∧
      (∃ sg ∈ sgs, D.zMin = sg.p0.z ∨ D.zMin = sg.p1.z) ∧ ∃ sg ∈ sgs, D.zMax = sg.p0.z ∨ D.zMax = sg.p1.z := by
  obtain ⟨D, hD, _, k1, k2, k3, k4, _⟩ := dims_ok hc hl hend (by omega) hn hf
  obtain ⟨sgs, h1, h2, _, h3⟩ := C51_contiguous (exact' ℝ) exact_ok (w.setup (exact' ℝ) 1) (by exact hl) hend (by omega) hn fuel hf
    (fun p => ⟨(exact' ℝ).div p.x w.c, (exact' ℝ).div p.y w.c, (exact' ℝ).div p.z w.c⟩) id id
  have key : ∀ k < n, ∃ sg ∈ sgs, (⟨(posAt (exact' ℝ) (w.setup (exact' ℝ) 1) k).x / w.c, (posAt (exact' ℝ) (w.setup (exact' ℝ) 1) k).y / w.c,
      (posAt (exact' ℝ) (w.setup (exact' ℝ) 1) k).z / w.c⟩ : Pos ℝ) = sg.p0 ∨ (⟨(posAt (exact' ℝ) (w.setup (exact' ℝ) 1) k).x / w.c, (posAt (exact' ℝ) (w.setup (exact' ℝ) 1) k).y / w.c,
      (posAt (exact' ℝ) (w.setup (exact' ℝ) 1) k).z / w.c⟩ : Pos ℝ) = sg.p1 := by
    intro k hk
    by_cases hk' : k < n - 1
    · exact ⟨_, List.getElem_mem (by omega : k < sgs.length), .inl (h3 k _ (List.getElem?_eq_getElem (by omega))).1.symm⟩
    · have hk2 : k = (k - 1) + 1 := by omega
      refine ⟨_, List.getElem_mem (by omega : k - 1 < sgs.length), .inr ?_⟩
      have := (h3 (k - 1) _ (List.getElem?_eq_getElem (by omega))).2.1
      rw [← hk2] at this
      exact this.symm
  have rad : ∀ {R : ℝ}, (∃ k < n, R = radius (posAt (exact' ℝ) (w.setup (exact' ℝ) 1) k) / w.c) → ∃ sg ∈ sgs, R = radius sg.p0 ∨ R = radius sg.p1 := by
    rintro R ⟨k, hk, hR⟩
    obtain ⟨sg, hm, h⟩ := key k hk
    refine ⟨sg, hm, ?_⟩
    rw [← radius_div _ hc] at hR
    rcases h with h | h
    · left; rw [hR, h]
    · right; rw [hR, h]
  have hgt : ∀ {R : ℝ}, (∃ k < n, R = (posAt (exact' ℝ) (w.setup (exact' ℝ) 1) k).z / w.c) → ∃ sg ∈ sgs, R = sg.p0.z ∨ R = sg.p1.z := by
    rintro R ⟨k, hk, hR⟩
    obtain ⟨sg, hm, h⟩ := key k hk
    refine ⟨sg, hm, ?_⟩
    rcases h with h | h
    · left; rw [hR, ← h]
    · right; rw [hR, ← h]
  exact ⟨D, sgs, hD, h1, rad k1, k2.imp_right rad, hgt k3, hgt k4⟩

/-! ### The claims without `_partial` do not hold; the hypotheses can be met -/

namespace Ex91

/-- Speed of light and density 1, a profile that ends at the grammage 2. -/
noncomputable def down (start : Pos ℝ) : Course ℝ := ⟨start, 0, -1, 0, 1, 1, fun _ => 1, ⟨[0, 2], [5, 7]⟩, 1⟩

noncomputable def across (start : Pos ℝ) : Course ℝ := ⟨start, 1, 0, 0, 1, 1, fun _ => 1, ⟨[0, 2], [5, 7]⟩, 1⟩

theorem down_ok (p : Pos ℝ) : (down p).Ok 1 2 := ⟨by norm_num [down], by norm_num [down], one_pos, rfl, rfl, by norm_num, one_pos, fun _ => rfl⟩

theorem across_ok (p : Pos ℝ) : (across p).Ok 1 2 := ⟨by norm_num [across], by norm_num [across], one_pos, rfl, rfl, by norm_num, one_pos, fun _ => rfl⟩

theorem fits (p : Pos ℝ) (dt : ℝ) (h : 1 / 4 ≤ dt) : (down p).Fits 1 2 dt 10 ∧ (across p).Fits 1 2 dt 10 := by
  have : 2 / (1 * (dt * 1)) ≤ (8 : ℝ) := by rw [div_le_iff₀ (by linarith)]; linarith
  refine ⟨⟨?_, ?_⟩, ?_, ?_⟩ <;> · show 2 / (1 * (dt * 1)) + 1 < _; norm_num at this ⊢; linarith

theorem ends (w : Course ℝ) (hw : w = down w.start ∨ w = across w.start) : EndsAfter (exact' ℝ) (w.setup (exact' ℝ) 1) 2 := by
  have ice : ∀ p, w.density p = 1 := by rcases hw with h | h <;> · rw [h]; exact fun _ => rfl
  have hc : w.c = 1 := by rcases hw with h | h <;> · rw [h]; rfl
  refine ⟨2, by rcases hw with h | h <;> · rw [h]; rfl, ?_, fun k hk => ?_⟩
  · rw [gramAt_exact w ice, hc]; norm_num [exact']
  · rw [gramAt_exact w ice, hc]
    have : (k : ℝ) < 2 := by exact_mod_cast hk
    simpa [exact'] using this

/-- Both theorems apply to a shower that goes down, and to one that goes across. -/
example : EndsAfter (exact' ℝ) ((down ⟨3, 4, -5⟩).setup (exact' ℝ) 1) 2 ∧ (down ⟨3, 4, -5⟩).Ok 1 2 ∧ (down ⟨3, 4, -5⟩).Fits 1 2 1 10 ∧ (down ⟨3, 4, -5⟩).Fits 1 2 (1 / 2) 10 :=
  ⟨ends _ (.inl rfl), down_ok _, (fits _ 1 (by norm_num)).1, (fits _ (1 / 2) (by norm_num)).1⟩

end Ex91

/-- **C91** does not hold for the minimal distance: a track can pass the axis between its begin and its end. -/
theorem C91_rmin_not_kept : ∃ (w : Course ℝ) (D : Dims ℝ) (sgs : List (Segment ℝ)) (sg : Segment ℝ) (u : ℝ), w.Ok 1 2 ∧
    printDimensions (exact' ℝ) Real.sqrt 1 10 w = .ok D ∧ tracksOf (exact' ℝ) 10 w 1 = .ok sgs ∧ sg ∈ sgs ∧ 0 ≤ u ∧ u ≤ 1 ∧ radius (sg.on u) < D.rMin := by
  have hend := Ex91.ends (Ex91.across ⟨-1 / 2, 0, 0⟩) (.inr rfl)
  obtain ⟨D, hD, _, ⟨k, hk, hr⟩, _⟩ := dims_ok (w := Ex91.across ⟨-1 / 2, 0, 0⟩) one_pos rfl hend (by decide) (by decide) (by decide : 2 < 10)
  obtain ⟨sgs, hs, hl, htr⟩ := tracks_ok (w := Ex91.across ⟨-1 / 2, 0, 0⟩) rfl 1 hend (by decide) (by decide) (by decide : 2 < 10)
  match sgs, hl with
  | [sg], _ =>
    obtain ⟨j, hj, e0, e1⟩ := htr sg List.mem_cons_self
    obtain rfl : j = 0 := by omega
    refine ⟨_, D, _, sg, 1 / 2, Ex91.across_ok _, hD, hs, List.mem_cons_self, by norm_num, by norm_num, ?_⟩
    have h0 : radius (sg.on (1 / 2)) = 0 := by
      unfold Segment.on radius
      rw [e0, e1, posAt_exact, posAt_exact]
      simp only [Ex91.across, Course.setup, exact']
      norm_num
    rw [h0, hr]
    have : 0 < radius (posAt (exact' ℝ) ((Ex91.across ⟨-1 / 2, 0, 0⟩).setup (exact' ℝ) 1) k) := by
      rw [posAt_exact]
      unfold radius
      apply Real.sqrt_pos.2
      simp only [Ex91.across, Course.setup, exact']
      have : k = 0 ∨ k = 1 := by omega
      rcases this with rfl | rfl <;> norm_num
    exact div_pos this one_pos

/-- **C91** does not hold for the tightness of the maximal distance: a shower that goes down along the axis, at the depth 3, is said to need a region up to the distance 3. -/
theorem C91_rmax_not_reached : ∃ (w : Course ℝ) (D : Dims ℝ) (sgs : List (Segment ℝ)), w.Ok 1 2 ∧
    printDimensions (exact' ℝ) Real.sqrt 1 10 w = .ok D ∧ tracksOf (exact' ℝ) 10 w 1 = .ok sgs ∧ sgs ≠ [] ∧ 3 ≤ D.rMax ∧ ∀ sg ∈ sgs, ∀ u, radius (sg.on u) = 0 := by
  have hend := Ex91.ends (Ex91.down ⟨0, 0, -3⟩) (.inl rfl)
  obtain ⟨D, hD, _, _, _, _, _, hst⟩ := dims_ok (w := Ex91.down ⟨0, 0, -3⟩) one_pos rfl hend (by decide) (by decide) (by decide : 2 < 10)
  obtain ⟨sgs, hs, hl, htr⟩ := tracks_ok (w := Ex91.down ⟨0, 0, -3⟩) rfl 1 hend (by decide) (by decide) (by decide : 2 < 10)
  refine ⟨_, D, sgs, Ex91.down_ok _, hD, hs, ?_, ?_, fun sg hm u => ?_⟩
  · rintro rfl; simp at hl
  · refine le_trans (le_of_eq ?_) hst
    simp only [Ex91.down]
    rw [show (0 : ℝ) ^ 2 + 0 ^ 2 + (-3) ^ 2 = 3 ^ 2 by norm_num, Real.sqrt_sq (by norm_num), div_one]
  · obtain ⟨j, _, e0, e1⟩ := htr sg hm
    unfold Segment.on radius
    rw [e0, e1, posAt_exact, posAt_exact]
    simp [Ex91.down, Course.setup, exact']

/-- **C91** does not hold for tracks made with a finer step (examples/shower_profile/02calculate_shower_emission.cpp 43, 57 prints the region and then makes tracks with the step
    `0.2`): they can go deeper than the printed minimal height. -/
theorem C91_finer_step_leaves : ∃ (w : Course ℝ) (D : Dims ℝ) (sgs : List (Segment ℝ)) (sg : Segment ℝ), w.Ok 1 2 ∧
    printDimensions (exact' ℝ) Real.sqrt 1 10 w = .ok D ∧ tracksOf (exact' ℝ) 10 w (1 / 2) = .ok sgs ∧ sg ∈ sgs ∧ sg.p1.z = D.zMin - 1 / 2 := by
  have hend := Ex91.ends (Ex91.down ⟨0, 0, 0⟩) (.inl rfl)
  obtain ⟨D, hD, hin, _, _, ⟨k, hk, hz⟩, _⟩ := dims_ok (w := Ex91.down ⟨0, 0, 0⟩) one_pos rfl hend (by decide) (by decide) (by decide : 2 < 10)
  have mend : EndsAfter (exact' ℝ) ((Ex91.down ⟨0, 0, 0⟩).setup (exact' ℝ) (1 / 2)) 4 := by
    refine ⟨2, rfl, ?_, fun k hk => ?_⟩
    · rw [gramAt_exact _ (ρ := 1) (fun _ => rfl)]; norm_num [exact', Ex91.down]
    · rw [gramAt_exact _ (ρ := 1) (fun _ => rfl)]
      have : (k : ℝ) < 4 := by exact_mod_cast hk
      have h : (k : ℝ) * (1 * (1 / 2 * 1)) < 2 := by linarith
      simpa [exact', Ex91.down] using h
  obtain ⟨sgs, h1, h2, _, h3⟩ := C51_contiguous (exact' ℝ) exact_ok ((Ex91.down ⟨0, 0, 0⟩).setup (exact' ℝ) (1 / 2)) (by rfl) mend (by decide) (by decide) 10 (by decide)
    (fun p => ⟨(exact' ℝ).div p.x 1, (exact' ℝ).div p.y 1, (exact' ℝ).div p.z 1⟩) id id
  have hlt : 2 < sgs.length := by omega
  obtain ⟨_, e1, _⟩ := h3 2 _ (List.getElem?_eq_getElem hlt)
  refine ⟨_, D, sgs, _, Ex91.down_ok _, hD, h1, List.getElem_mem hlt, ?_⟩
  have hz1 := (hin 1 (by decide)).2.2.1
  have hk' : k = 0 ∨ k = 1 := by omega
  have hD1 : D.zMin = -1 := by
    rw [posAt_exact] at hz hz1
    simp only [Ex91.down, Course.setup, exact'] at hz hz1
    rcases hk' with rfl | rfl
    · rw [hz] at hz1; norm_num at hz1
    · rw [hz]; norm_num
  rw [e1, hD1, posAt_exact]
  simp only [Ex91.down, Course.setup, exact']
  norm_num

end Verif.Shower
