import Verif.Shower.Props91
import Verif.Green.Signal
import Verif.Green.Convolution
/-
C94: the signal of a shower. Model of the use of the tracks of a shower for the calculation of a signal (/repo/examples/shower_profile/02calculate_shower_emission.cpp), and the signal of a charge that
changes with time.
-/
namespace Verif.Shower
open Verif Set
open MeasureTheory (volume)
open Verif.Green (GMeta Grid Kern Library Scratch TrackReq accumulateSignal runCalls keys Answers Accuracy GoodField Region TrackCovered SignalOk induced lineSignal trueSignal lastTime fieldError
  interpErr atX atY atZ atR velX velY velZ intervals)

/-! ### The program -/

/-- 02calculate_shower_emission.cpp 71: the arguments of `AccumulateSignal` for a track of `fill_tracks`. -/
def Segment.req (sg : Segment ℝ) (tsig tsamp : ℝ) (n : Nat) : TrackReq :=
  ⟨⟨sg.p0.x, sg.p0.y, sg.p0.z⟩, ⟨sg.p1.x, sg.p1.y, sg.p1.z⟩, sg.t0, sg.t1, sg.charge, tsig, tsamp, n, 1⟩

/-- The calls for a list of tracks; `m i` is the contents of uninitialised memory during the call `i`. -/
def calls (sgs : List (Segment ℝ)) (tsig tsamp : ℝ) (n : Nat) (m : Nat → Scratch) : List (TrackReq × Scratch) :=
  sgs.zipIdx.map fun a => (a.1.req tsig tsamp n, m a.2)

variable {σ : Type}

/-- 02calculate_shower_emission.cpp 60-61 and 66-71: `fill_tracks(delta_t, tracks)`, and `AccumulateSignal` for each of the tracks. -/
noncomputable def showerSignal (L : Library σ ℝ) (G : GMeta ℝ) (grow : ℝ → ℝ) (fuel : Nat) (w : Course ℝ) (dt tsig tsamp : ℝ) (n : Nat) (m : Nat → Scratch) (out : List ℝ) (s : σ) : Res (σ × List ℝ) :=
  (tracksOf (exact' ℝ) fuel w dt).bind fun sgs => runCalls (accumulateSignal L G grow) (calls sgs tsig tsamp n m) out s

/-- 02calculate_shower_emission.cpp 51-81: the values that the example writes. The loop over the tracks is in a loop that is run twice (line 63). -/
noncomputable def exampleSignal (L : Library σ ℝ) (G : GMeta ℝ) (grow : ℝ → ℝ) (fuel : Nat) (w : Course ℝ) (dt tsig tsamp : ℝ) (n : Nat) (m : Nat → Nat → Scratch) (s : σ) : Res (σ × List ℝ) :=
  (tracksOf (exact' ℝ) fuel w dt).bind fun sgs =>
  (runCalls (accumulateSignal L G grow) (calls sgs tsig tsamp n (m 0)) (List.replicate n 0) s).bind fun st =>
  runCalls (accumulateSignal L G grow) (calls sgs tsig tsamp n (m 1)) st.2 st.1

/-! ### Specification -/

/-- The axis of a shower in units in which the speed of light is 1, as the track of a unit charge: from the vertex at time 0, with the speed of light in the direction of the angles, until the time `T`. -/
noncomputable def Course.axis (w : Course ℝ) (T : ℝ) : Green.Segment ℝ :=
  ⟨⟨w.start.x / w.c, w.start.y / w.c, w.start.z / w.c⟩,
   ⟨w.start.x / w.c + T * (w.sinZ * w.cosA), w.start.y / w.c + T * (w.sinZ * w.sinA), w.start.z / w.c + T * w.cosZ⟩, 0, T, 1⟩

/-- `q t` is the charge excess at time `t`: the scaled value of the profile at the grammage that has been crossed, `ρ` being the density. -/
def IsCharge (w : Course ℝ) (ρ T : ℝ) (q : ℝ → ℝ) : Prop := ∀ t ∈ Icc 0 T, ∃ v, Interpolated w.profile (ρ * (w.c * t)) v ∧ q t = v * w.scaling

/-- A profile with increasing grammages, charges of at most `Q`, and slopes of at most `Λ`. -/
structure Profile.Ok (p : Profile ℝ) (Q Λ : ℝ) : Prop where
  sorted : p.grammage.Pairwise (· < ·)
  bound : ∀ c ∈ p.charge, |c| ≤ Q
  slope : ∀ i g0 g1 c0 c1, p.grammage[i]? = some g0 → p.grammage[i + 1]? = some g1 → p.charge[i]? = some c0 → p.charge[i + 1]? = some c1 → |c1 - c0| ≤ Λ * (g1 - g0)
  pos : 0 ≤ Λ

/-- The signal at time `τ` of the charge `q` that moves along the axis until the time `T`. -/
noncomputable def axisSignal (F : Nat → ℝ → ℝ → ℝ → ℝ) (w : Course ℝ) (T : ℝ) (q : ℝ → ℝ) (τ : ℝ) : ℝ := -∫ t in (0 : ℝ)..max 0 (min T τ), q t * induced F (w.axis T) τ t

/-! ### The profile as a function -/

theorem Profile.Ok.lt {p : Profile ℝ} {Q Λ : ℝ} (h : p.Ok Q Λ) {i j : Nat} {a b : ℝ} (hi : p.grammage[i]? = some a) (hj : p.grammage[j]? = some b) (hij : i < j) : a < b := by
  obtain ⟨hi', rfl⟩ := List.getElem?_eq_some_iff.1 hi
  obtain ⟨hj', rfl⟩ := List.getElem?_eq_some_iff.1 hj
  exact List.pairwise_iff_getElem.1 h.sorted i j hi' hj' hij

theorem Profile.Ok.le {p : Profile ℝ} {Q Λ : ℝ} (h : p.Ok Q Λ) {i j : Nat} {a b : ℝ} (hi : p.grammage[i]? = some a) (hj : p.grammage[j]? = some b) (hij : i ≤ j) : a ≤ b := by
  rcases hij.eq_or_lt with rfl | hlt
  · rw [hi] at hj; exact le_of_eq (Option.some.inj hj)
  · exact (h.lt hi hj hlt).le

/-- From entry to entry. -/
theorem Profile.Ok.entries {p : Profile ℝ} {Q Λ : ℝ} (h : p.Ok Q Λ) (hl : p.charge.length = p.grammage.length) {i : Nat} {g c : ℝ} (hg : p.grammage[i]? = some g) (hc : p.charge[i]? = some c) :
    ∀ {j : Nat} {g' c' : ℝ}, i ≤ j → p.grammage[j]? = some g' → p.charge[j]? = some c' → |c' - c| ≤ Λ * (g' - g) := by
  intro j
  induction j with
  | zero =>
    intro g' c' hij h1 h2
    obtain rfl : i = 0 := by omega
    rw [hg] at h1; rw [hc] at h2
    obtain rfl := Option.some.inj h1
    obtain rfl := Option.some.inj h2
    simp
  | succ j ih =>
    intro g' c' hij h1 h2
    rcases Nat.lt_or_ge i (j + 1) with hlt | hge
    · have hj : j + 1 < p.grammage.length := (List.getElem?_eq_some_iff.1 h1).1
      have e1 : p.grammage[j]? = some p.grammage[j] := List.getElem?_eq_getElem (by omega)
      have e2 : p.charge[j]? = some (p.charge[j]'(by omega)) := List.getElem?_eq_getElem (by omega)
      have a1 := ih (by omega) e1 e2
      have a2 := h.slope j _ _ _ _ e1 h1 e2 h2
      rw [abs_le] at a1 a2 ⊢
      constructor <;> nlinarith [a1.1, a1.2, a2.1, a2.2]
    · obtain rfl : i = j + 1 := by omega
      rw [hg] at h1; rw [hc] at h2
      obtain rfl := Option.some.inj h1
      obtain rfl := Option.some.inj h2
      simp

/-- A value between the entries `i` and `i + 1`. -/
theorem within {g0 g1 c0 c1 g Λ : ℝ} (h0 : g0 < g) (h1 : g ≤ g1) (hs : |c1 - c0| ≤ Λ * (g1 - g0)) :
    |c0 + (c1 - c0) * ((g - g0) / (g1 - g0)) - c0| ≤ Λ * (g - g0) ∧ |c1 - (c0 + (c1 - c0) * ((g - g0) / (g1 - g0)))| ≤ Λ * (g1 - g) := by
  have hp : 0 < g1 - g0 := by linarith
  constructor
  · rw [add_sub_cancel_left, abs_mul, abs_of_nonneg (by have := sub_pos.2 h0; positivity : 0 ≤ (g - g0) / (g1 - g0)), mul_div_assoc', div_le_iff₀ hp]
    nlinarith
  · have e : c1 - (c0 + (c1 - c0) * ((g - g0) / (g1 - g0))) = (c1 - c0) * ((g1 - g) / (g1 - g0)) := by field_simp; ring
    rw [e, abs_mul, abs_of_nonneg (div_nonneg (by linarith) hp.le : 0 ≤ (g1 - g) / (g1 - g0)), mul_div_assoc', div_le_iff₀ hp]
    nlinarith

/-- The profile does not change faster than its slopes. -/
theorem Interpolated.lip {p : Profile ℝ} {Q Λ : ℝ} (h : p.Ok Q Λ) (hl : p.charge.length = p.grammage.length) {g g' v v' : ℝ} (hv : Interpolated p g v) (hv' : Interpolated p g' v') (hg : g ≤ g') :
    |v' - v| ≤ Λ * (g' - g) := by
  have hΛ := h.pos
  rcases hv with ⟨a0, b0, e1, e2, e3, rfl⟩ | ⟨i, a0, a1, b0, b1, e1, e2, e3, e4, e5, e6, rfl⟩
  · rcases hv' with ⟨a, b, f1, f2, f3, rfl⟩ | ⟨j, x0, x1, y0, y1, f1, f2, f3, f4, f5, f6, rfl⟩
    · rw [e2] at f2
      obtain rfl := Option.some.inj f2
      rw [sub_self, abs_zero]
      exact mul_nonneg hΛ (by linarith)
    · have k1 := h.entries hl e1 e2 (Nat.zero_le j) f1 f3
      have k2 := (within f5 f6 (h.slope j _ _ _ _ f1 f2 f3 f4)).1
      have k3 : Λ * (a0 - g) ≥ 0 := mul_nonneg hΛ (by linarith)
      rw [abs_le] at k1 k2 ⊢
      constructor <;> linarith [k1.1, k1.2, k2.1, k2.2]
  · rcases hv' with ⟨a, b, f1, f2, f3, rfl⟩ | ⟨j, x0, x1, y0, y1, f1, f2, f3, f4, f5, f6, rfl⟩
    · exact absurd (h.le f1 e1 (Nat.zero_le i)) (by linarith)
    · have s1 := h.slope i _ _ _ _ e1 e2 e3 e4
      have s2 := h.slope j _ _ _ _ f1 f2 f3 f4
      rcases Nat.lt_trichotomy i j with hij | rfl | hij
      · have k1 := (within e5 e6 s1).2
        have k2 := h.entries hl e2 e4 (by omega : i + 1 ≤ j) f1 f3
        have k3 := (within f5 f6 s2).1
        rw [abs_le] at k1 k2 k3 ⊢
        constructor <;> linarith [k1.1, k1.2, k2.1, k2.2, k3.1, k3.2]
      · rw [e1] at f1; rw [e2] at f2; rw [e3] at f3; rw [e4] at f4
        obtain rfl := Option.some.inj f1
        obtain rfl := Option.some.inj f2
        obtain rfl := Option.some.inj f3
        obtain rfl := Option.some.inj f4
        have hp : 0 < a1 - a0 := by linarith
        have e : b0 + (b1 - b0) * ((g' - a0) / (a1 - a0)) - (b0 + (b1 - b0) * ((g - a0) / (a1 - a0))) = (b1 - b0) * ((g' - g) / (a1 - a0)) := by field_simp; ring
        rw [e, abs_mul, abs_of_nonneg (div_nonneg (by linarith) hp.le : 0 ≤ (g' - g) / (a1 - a0)), mul_div_assoc', div_le_iff₀ hp]
        nlinarith
      · exact absurd (h.le f2 e1 (by omega : j + 1 ≤ i)) (by linarith)

theorem Interpolated.unique {p : Profile ℝ} {Q Λ : ℝ} (h : p.Ok Q Λ) (hl : p.charge.length = p.grammage.length) {g v v' : ℝ} (hv : Interpolated p g v) (hv' : Interpolated p g v') : v = v' := by
  have := Interpolated.lip h hl hv hv' le_rfl
  rw [sub_self, mul_zero] at this
  have := abs_eq_zero.1 (le_antisymm this (abs_nonneg _))
  linarith

theorem Interpolated.le {p : Profile ℝ} {Q Λ : ℝ} (h : p.Ok Q Λ) {g v : ℝ} (hv : Interpolated p g v) : |v| ≤ Q := by
  rcases hv with ⟨a0, b0, e1, e2, e3, rfl⟩ | ⟨i, a0, a1, b0, b1, e1, e2, e3, e4, e5, e6, rfl⟩
  · exact h.bound _ (List.mem_of_getElem? e2)
  · have k0 := h.bound _ (List.mem_of_getElem? e3)
    have k1 := h.bound _ (List.mem_of_getElem? e4)
    have hp : 0 < a1 - a0 := by linarith
    have l0 : 0 ≤ (g - a0) / (a1 - a0) := div_nonneg (by linarith) hp.le
    have l1 : (g - a0) / (a1 - a0) ≤ 1 := (div_le_one hp).2 (by linarith)
    rw [abs_le] at k0 k1 ⊢
    constructor <;> nlinarith [k0.1, k0.2, k1.1, k1.2]

/-- There is a value at every grammage up to the end of the profile. -/
theorem Interpolated.exists {p : Profile ℝ} (hl : p.charge.length = p.grammage.length) {max : ℝ} (hm : p.grammage.getLast? = some max) {g : ℝ} (hg : g ≤ max) : ∃ v, Interpolated p g v := by
  have hne : p.grammage ≠ [] := by rintro e; rw [e] at hm; cases hm
  have hpos : 0 < p.grammage.length := List.length_pos_iff.2 hne
  classical
  have hex : ∃ i, ∃ x, p.grammage[i]? = some x ∧ g ≤ x := ⟨p.grammage.length - 1, max, by rw [← hm, List.getLast?_eq_getElem?], hg⟩
  obtain ⟨x, e1, e2⟩ := Nat.find_spec hex
  have hlt := (List.getElem?_eq_some_iff.1 e1).1
  rcases hi : Nat.find hex with _ | i
  · rw [hi] at e1
    exact ⟨p.charge[0]'(by omega), .inl ⟨x, _, e1, List.getElem?_eq_getElem (by omega), e2, rfl⟩⟩
  · rw [hi] at e1 hlt
    have hn : ¬ ∃ x, p.grammage[i]? = some x ∧ g ≤ x := Nat.find_min hex (by omega)
    refine ⟨_, .inr ⟨i, p.grammage[i], x, p.charge[i]'(by omega), p.charge[i + 1]'(by omega), List.getElem?_eq_getElem (by omega), e1, List.getElem?_eq_getElem (by omega), List.getElem?_eq_getElem (by omega), ?_,
      e2, rfl⟩⟩
    by_contra hc
    exact hn ⟨_, List.getElem?_eq_getElem (by omega), not_lt.1 hc⟩

/-- Every shower has a charge. -/
theorem charge_exists {w : Course ℝ} {ρ max : ℝ} (hw : w.Ok ρ max) : ∃ q, IsCharge w ρ (max / (ρ * w.c)) q := by
  have hp : 0 < ρ * w.c := mul_pos hw.dense hw.light
  have : ∀ t : ℝ, ∃ y, t ∈ Icc 0 (max / (ρ * w.c)) → ∃ v, Interpolated w.profile (ρ * (w.c * t)) v ∧ y = v * w.scaling := by
    intro t
    by_cases ht : t ∈ Icc 0 (max / (ρ * w.c))
    · obtain ⟨v, hv⟩ := Interpolated.exists hw.same hw.last (g := ρ * (w.c * t)) (by have := (le_div_iff₀ hp).1 ht.2; linarith)
      exact ⟨_, fun _ => ⟨v, hv, rfl⟩⟩
    · exact ⟨0, fun h => absurd h ht⟩
  choose q hq using this
  exact ⟨q, hq⟩

section
variable {w : Course ℝ} {ρ T Q Λ : ℝ} {q : ℝ → ℝ}

theorem IsCharge.bound (hq : IsCharge w ρ T q) (h : w.profile.Ok Q Λ) {t : ℝ} (ht : t ∈ Icc 0 T) : |q t| ≤ Q * |w.scaling| := by
  obtain ⟨v, hv, e⟩ := hq t ht
  rw [e, abs_mul]
  exact mul_le_mul_of_nonneg_right (hv.le h) (abs_nonneg _)

theorem IsCharge.lip (hq : IsCharge w ρ T q) (h : w.profile.Ok Q Λ) (hl : w.profile.charge.length = w.profile.grammage.length) (hρ : 0 < ρ) (hc : 0 < w.c) {s t : ℝ} (hs : s ∈ Icc 0 T) (ht : t ∈ Icc 0 T) :
    |q t - q s| ≤ Λ * (ρ * w.c) * |w.scaling| * |t - s| := by
  wlog hst : s ≤ t generalizing s t
  · rw [abs_sub_comm, abs_sub_comm t]
    exact this ht hs (le_of_not_ge hst)
  obtain ⟨v, hv, e⟩ := hq s hs
  obtain ⟨v', hv', e'⟩ := hq t ht
  have := Interpolated.lip h hl hv hv' (mul_le_mul_of_nonneg_left (mul_le_mul_of_nonneg_left hst hc.le) hρ.le)
  rw [e, e', ← sub_mul, abs_mul, abs_of_nonneg (sub_nonneg.2 hst)]
  refine (mul_le_mul_of_nonneg_right this (abs_nonneg _)).trans (le_of_eq ?_)
  ring

end

/-! ### The tracks are pieces of the axis -/

/-- The piece of the axis from time `k dt` to `(k + 1) dt`, with the charge `e`. -/
noncomputable def Course.piece (w : Course ℝ) (dt : ℝ) (k : Nat) (e : ℝ) : Green.Segment ℝ :=
  ⟨⟨w.start.x / w.c + k * dt * (w.sinZ * w.cosA), w.start.y / w.c + k * dt * (w.sinZ * w.sinA), w.start.z / w.c + k * dt * w.cosZ⟩,
   ⟨w.start.x / w.c + (k + 1) * dt * (w.sinZ * w.cosA), w.start.y / w.c + (k + 1) * dt * (w.sinZ * w.sinA), w.start.z / w.c + (k + 1) * dt * w.cosZ⟩, k * dt, (k + 1) * dt, e⟩

theorem tracks_pieces {w : Course ℝ} {ρ max dt : ℝ} (hw : w.Ok ρ max) {Q Λ : ℝ} (hp : w.profile.Ok Q Λ) (hdt : 0 < dt) {fuel : Nat} (hf : w.Fits ρ max dt fuel) {q : ℝ → ℝ} (hq : IsCharge w ρ (max / (ρ * w.c)) q) :
    ∃ (n : Nat) (sgs : List (Segment ℝ)) (ce : Nat → ℝ), tracksOf (exact' ℝ) fuel w dt = .ok sgs ∧ sgs.length = n ∧ n * dt < max / (ρ * w.c) ∧ max / (ρ * w.c) ≤ (n + 1) * dt ∧
      (∀ k < n, ∀ sg, sgs[k]? = some sg → ∀ tsig tsamp N, (sg.req tsig tsamp N).seg = w.piece dt k (ce k)) ∧ (w.profile.charge[0]? = some (ce 0) ∨ n = 0) ∧ ∀ k, 0 < k → k < n → ce k = q (k * dt) := by
  obtain ⟨n, hend, h0, hn, hnf, h1, h2⟩ := ends_of hw hdt hf
  have hc := hw.light
  have hpos : 0 < ρ * w.c := mul_pos hw.dense hw.light
  obtain ⟨ps, e1, e2, e3⟩ := C51_interpolation_partial (w.setup (exact' ℝ) dt) hw.same (fun p => by show 0 ≤ w.density p; rw [hw.ice]; exact hw.dense.le) (by exact (mul_pos hdt hc).le) hend h0 hn fuel hnf
  obtain ⟨g1, g2⟩ := segments_get (fun p : Pos ℝ => (⟨(exact' ℝ).div p.x w.c, (exact' ℝ).div p.y w.c, (exact' ℝ).div p.z w.c⟩ : Pos ℝ)) id id ps
  have a1 : ((n - 1 : Nat) : ℝ) = n - 1 := by rw [Nat.cast_sub h0]; norm_num
  refine ⟨n - 1, _, fun k => (ps.getD k ⟨0, ⟨0, 0, 0⟩, 0⟩).ce, ?_, by rw [g1, e2], ?_, ?_, fun k hk sg hsg tsig tsamp N => ?_, ?_, fun k hk hkn => ?_⟩
  · unfold tracksOf fillTracks
    rw [e1]
    rfl
  · rw [a1, lt_div_iff₀ hpos]; linarith
  · rw [a1, div_le_iff₀ hpos]; linarith
  · obtain ⟨a, b, f1, f2, rfl⟩ := g2 k sg hsg
    obtain ⟨x1, x2, _⟩ := e3 k a f1
    obtain ⟨y1, y2, _⟩ := e3 (k + 1) b f2
    have hce : (ps.getD k ⟨0, ⟨0, 0, 0⟩, 0⟩).ce = a.ce := by rw [List.getD_eq_getElem?_getD, f1]; rfl
    dsimp only
    rw [hce]
    unfold Segment.req TrackReq.seg Course.piece
    rw [posAt_exact] at x2 y2
    have hpz : ∀ (u v z : ℝ), (u + v * (dt * w.c * z)) / w.c = u / w.c + v * dt * z := fun u v z => by field_simp
    simp only [x1, x2, y1, y2, id, exact', Course.setup]
    push_cast
    have e' : ∀ (u v z z' : ℝ), (u + v * (dt * w.c * z * z')) / w.c = u / w.c + v * dt * (z * z') := fun u v z z' => by field_simp
    rw [e', e', e', e', hpz, hpz]
  · rcases Nat.eq_zero_or_pos (n - 1) with hz | hz
    · exact .inr hz
    · left
      have hlt : 0 < ps.length := by omega
      obtain ⟨_, _, _, x⟩ := e3 0 ps[0] (List.getElem?_eq_getElem hlt)
      have x : w.profile.charge[0]? = some ps[0].ce := x rfl
      rw [x]
      dsimp only
      rw [List.getD_eq_getElem?_getD, List.getElem?_eq_getElem hlt]
      rfl
  · have hlt : k < ps.length := by omega
    obtain ⟨_, _, x, _⟩ := e3 k ps[k] (List.getElem?_eq_getElem hlt)
    obtain ⟨v, hv, e⟩ := x hk
    have hv : Interpolated w.profile (gramAt (exact' ℝ) (w.setup (exact' ℝ) dt) k) v := hv
    rw [gramAt_exact w hw.ice] at hv
    have hkr : (k : ℝ) < n - 1 := by rw [← a1]; exact_mod_cast hkn
    obtain ⟨v', hv', e'⟩ := hq (k * dt) ⟨by positivity, by
      rw [le_div_iff₀ hpos]
      nlinarith [mul_pos hpos hdt]⟩
    have : ρ * (w.c * (k * dt)) = k * (ρ * (dt * w.c)) := by ring
    rw [this] at hv'
    show (ps.getD k ⟨0, ⟨0, 0, 0⟩, 0⟩).ce = _
    rw [List.getD_eq_getElem?_getD, List.getElem?_eq_getElem hlt]
    show ps[k].ce = _
    rw [e, e', hv.unique hp hw.same hv']
    rfl

section
variable {w : Course ℝ} {dt e T : ℝ} {k : Nat}

theorem piece_at (hdt : dt ≠ 0) (t : ℝ) : atX (w.piece dt k e) t = w.start.x / w.c + t * (w.sinZ * w.cosA) ∧ atY (w.piece dt k e) t = w.start.y / w.c + t * (w.sinZ * w.sinA) ∧
    atZ (w.piece dt k e) t = w.start.z / w.c + t * w.cosZ := by
  have h : ((k : ℝ) + 1) * dt - k * dt ≠ 0 := by rwa [add_mul, one_mul, add_sub_cancel_left]
  have h' : ((k : ℝ) + 1) * dt - k * dt = dt := by ring
  unfold atX atY atZ Course.piece
  dsimp only
  rw [h']
  refine ⟨?_, ?_, ?_⟩ <;> field_simp <;> ring

theorem axis_at (hT : T ≠ 0) (t : ℝ) : atX (w.axis T) t = w.start.x / w.c + t * (w.sinZ * w.cosA) ∧ atY (w.axis T) t = w.start.y / w.c + t * (w.sinZ * w.sinA) ∧
    atZ (w.axis T) t = w.start.z / w.c + t * w.cosZ := by
  unfold atX atY atZ Course.axis
  dsimp only
  refine ⟨?_, ?_, ?_⟩ <;> field_simp <;> ring

theorem piece_vel (hdt : dt ≠ 0) : velX (w.piece dt k e) = w.sinZ * w.cosA ∧ velY (w.piece dt k e) = w.sinZ * w.sinA ∧ velZ (w.piece dt k e) = w.cosZ := by
  have h' : ((k : ℝ) + 1) * dt - k * dt = dt := by ring
  unfold velX velY velZ Course.piece
  dsimp only
  rw [h']
  refine ⟨?_, ?_, ?_⟩ <;> field_simp <;> ring

theorem axis_vel (hT : T ≠ 0) : velX (w.axis T) = w.sinZ * w.cosA ∧ velY (w.axis T) = w.sinZ * w.sinA ∧ velZ (w.axis T) = w.cosZ := by
  unfold velX velY velZ Course.axis
  dsimp only
  refine ⟨?_, ?_, ?_⟩ <;> field_simp <;> ring

theorem piece_induced (hdt : dt ≠ 0) (hT : T ≠ 0) (F : Nat → ℝ → ℝ → ℝ → ℝ) (τ t : ℝ) : induced F (w.piece dt k e) τ t = e * induced F (w.axis T) τ t := by
  obtain ⟨a1, a2, a3⟩ := piece_at (w := w) (k := k) (e := e) hdt t
  obtain ⟨b1, b2, b3⟩ := axis_at (w := w) hT t
  obtain ⟨c1, c2, c3⟩ := piece_vel (w := w) (k := k) (e := e) hdt
  obtain ⟨d1, d2, d3⟩ := axis_vel (w := w) hT
  unfold induced atR
  rw [a1, a2, a3, b1, b2, b3, c1, c2, c3, d1, d2, d3]
  show _ * (e * _ / _) + _ * (e * _) = e * (_ * (1 * _ / _) + _ * (1 * _))
  ring

theorem piece_covered {G : GMeta ℝ} {kn : Kern ℝ} {g : Grid} {B : Region} {τ : ℝ} (hdt : 0 < dt) (hT : (k + 1) * dt ≤ T) (h : TrackCovered G kn g B (w.axis T) τ) : TrackCovered G kn g B (w.piece dt k e) τ := by
  have hk : 0 ≤ (k : ℝ) * dt := by positivity
  have hT0 : T ≠ 0 := by nlinarith
  intro t ht
  have t0 : (k : ℝ) * dt ≤ t := ht.1
  have t1 : t ≤ min (((k : ℝ) + 1) * dt) τ := ht.2
  have := h t ⟨hk.trans t0, t1.trans (min_le_min_right τ hT)⟩
  obtain ⟨a1, a2, a3⟩ := piece_at (w := w) (k := k) (e := e) hdt.ne' t
  obtain ⟨b1, b2, b3⟩ := axis_at (w := w) hT0 t
  unfold atR at this ⊢
  rw [b1, b2, b3] at this
  rw [a1, a2, a3]
  exact this

theorem dir_le {ρ max : ℝ} (hw : w.Ok ρ max) : Real.sqrt ((w.sinZ * w.cosA) ^ 2 + (w.sinZ * w.sinA) ^ 2) ≤ 1 ∧ |w.cosZ| ≤ 1 := by
  have h1 := hw.zen
  have h2 := hw.azi
  have e : (w.sinZ * w.cosA) ^ 2 + (w.sinZ * w.sinA) ^ 2 = w.sinZ ^ 2 * (w.sinA ^ 2 + w.cosA ^ 2) := by ring
  constructor
  · rw [e, h2, mul_one, Real.sqrt_le_iff]
    exact ⟨zero_le_one, by nlinarith [sq_nonneg w.cosZ]⟩
  · rw [← sq_le_one_iff_abs_le_one]
    nlinarith [sq_nonneg w.sinZ]

end

/-! ### One track -/

/-- What of the time `t` has passed at time `τ`. -/
noncomputable def cl (τ t : ℝ) : ℝ := max 0 (min t τ)

noncomputable def passed (τ t : ℝ) : ℝ := if t ≤ τ then 1 else 0

theorem cl_mono (τ : ℝ) : Monotone (cl τ) := fun _ _ h => max_le_max_left 0 (min_le_min_right τ h)

theorem cl_sub (τ : ℝ) {s t : ℝ} (h : s ≤ t) : cl τ t - cl τ s ≤ t - s := by
  unfold cl
  rcases le_total t τ with h1 | h1 <;> rcases le_total s τ with h2 | h2 <;> rcases le_total 0 s with h3 | h3 <;> rcases le_total 0 t with h4 | h4 <;> rcases le_total 0 τ with h5 | h5 <;>
    simp only [min_eq_left, min_eq_right, max_eq_left, max_eq_right, h1, h2, h3, h4, h5] <;> linarith

theorem cl_zero (τ : ℝ) : cl τ 0 = 0 := max_eq_left (min_le_left _ _)

theorem cl_nonneg (τ t : ℝ) : 0 ≤ cl τ t := le_max_left _ _

variable {G : GMeta ℝ} {kn : Kern ℝ} {A : Nat → Int → Int → Int → ℝ} {F : Nat → ℝ → ℝ → ℝ → ℝ} {g : Grid} {B : Region} {d : Nat} {E N δ : ℝ} {Mr Mz Mt : Nat → ℝ} {w : Course ℝ}

theorem line_near (h : Accuracy kn d E N) (hG : 0 < G.dr ∧ 0 < G.dz ∧ 0 < G.dt) (hF : GoodField G d F A B δ Mr Mz Mt) {seg : Green.Segment ℝ} (hseg : seg.t0 < seg.t1) {tsig tsamp : ℝ} {k : Nat}
    (hc : TrackCovered G kn g B seg (tsig + k * tsamp)) {K : NNReal} {b : ℝ} (hb : 0 ≤ b) (hK : LipschitzOnWith K (induced F seg (tsig + k * tsamp)) (Icc seg.t0 (min seg.t1 (tsig + k * tsamp))))
    (hB : ∀ t ∈ Icc seg.t0 (min seg.t1 (tsig + k * tsamp)), |induced F seg (tsig + k * tsamp) t| ≤ b) :
    |lineSignal G kn A g seg tsig tsamp 1 k - -∫ t in seg.t0..max seg.t0 (min seg.t1 (tsig + k * tsamp)), induced F seg (tsig + k * tsamp) t| ≤
      fieldError seg (interpErr G d E N (Mr 0) (Mz 0) (Mt 0) δ) (interpErr G d E N (Mr 1) (Mz 1) (Mt 1) δ) +
        (seg.t1 - seg.t0) / intervals seg / 2 * (K * (seg.t1 - seg.t0) + if seg.t1 ≤ tsig + k * tsamp then 0 else b) := by
  have h1 := Green.sum_near (g := g) h hG hF hseg hc
  have h2 := Green.quad_cut (Nat.ceil_pos.2 (sub_pos.2 hseg)) hseg _ hK hb hB
  have h3 := Green.abs_sub_le3 h1 h2
  unfold lineSignal
  refine le_trans (le_of_eq ?_) h3
  rw [← abs_neg]
  congr 1
  unfold intervals
  ring

theorem piece_near {ρ mx dt T : ℝ} (hw : w.Ok ρ mx) (h : Accuracy kn d E N) (hG : 0 < G.dr ∧ 0 < G.dz ∧ 0 < G.dt) (hF : GoodField G d F A B δ Mr Mz Mt) (hdt : 0 < dt) {j : Nat} (hj : (j + 1) * dt ≤ T) {tsig tsamp τ : ℝ}
    {k : Nat} (hτ : τ = tsig + k * tsamp) (hc : TrackCovered G kn g B (w.axis T) τ) {K : NNReal} {b Q e : ℝ} (hb : 0 ≤ b) (hQ : |e| ≤ Q)
    (hK : LipschitzOnWith K (induced F (w.axis T) τ) (Icc 0 (min T τ))) (hB : ∀ t ∈ Icc 0 (min T τ), |induced F (w.axis T) τ t| ≤ b) :
    |lineSignal G kn A g (w.piece dt j e) tsig tsamp 1 k - -∫ t in cl τ (j * dt)..cl τ ((j + 1) * dt), e * induced F (w.axis T) τ t| ≤
      dt * Q * (interpErr G d E N (Mr 0) (Mz 0) (Mt 0) δ + interpErr G d E N (Mr 1) (Mz 1) (Mt 1) δ) + dt / 2 * Q * (K * dt + b * (passed τ (j * dt) - passed τ ((j + 1) * dt))) := by
  have hj0 : 0 ≤ (j : ℝ) * dt := by positivity
  have hT : T ≠ 0 := by nlinarith
  have hlt : (w.piece dt j e).t0 < (w.piece dt j e).t1 := by show (j : ℝ) * dt < (j + 1) * dt; linarith
  have hlen : (w.piece dt j e).t1 - (w.piece dt j e).t0 = dt := by show ((j : ℝ) + 1) * dt - j * dt = dt; ring
  have hcov := piece_covered (e := e) hdt hj hc
  have hsub : Icc ((j : ℝ) * dt) (min ((j + 1) * dt) τ) ⊆ Icc 0 (min T τ) := Icc_subset_Icc hj0 (min_le_min_right τ hj)
  have he0 := hF.errors h hG 0 (by decide)
  have he1 := hF.errors h hG 1 (by decide)
  have hQ0 : 0 ≤ Q := (abs_nonneg e).trans hQ
  obtain ⟨v1, v2, v3⟩ := piece_vel (w := w) (k := j) (e := e) hdt.ne'
  have hfe : fieldError (w.piece dt j e) (interpErr G d E N (Mr 0) (Mz 0) (Mt 0) δ) (interpErr G d E N (Mr 1) (Mz 1) (Mt 1) δ) ≤
      dt * Q * (interpErr G d E N (Mr 0) (Mz 0) (Mt 0) δ + interpErr G d E N (Mr 1) (Mz 1) (Mt 1) δ) := by
    unfold fieldError
    rw [v1, v2, v3, hlen]
    obtain ⟨d1, d2⟩ := dir_le hw
    refine mul_le_mul (mul_le_mul_of_nonneg_left hQ hdt.le) (add_le_add (mul_le_of_le_one_right he0 d1) (mul_le_of_le_one_right he1 d2)) ?_ (by positivity)
    exact add_nonneg (mul_nonneg he0 (Real.sqrt_nonneg _)) (mul_nonneg he1 (abs_nonneg _))
  have hint : (1 : ℝ) ≤ intervals (w.piece dt j e) := by exact_mod_cast Nat.ceil_pos.2 (sub_pos.2 hlt)
  have hstep : dt / intervals (w.piece dt j e) ≤ dt := div_le_self hdt.le hint
  have hstep0 : 0 ≤ dt / intervals (w.piece dt j e) := by positivity
  have hind : ∀ t, induced F (w.piece dt j e) τ t = e * induced F (w.axis T) τ t := fun t => piece_induced hdt.ne' hT F τ t
  have hint2 : (∫ t in (w.piece dt j e).t0..max (w.piece dt j e).t0 (min (w.piece dt j e).t1 τ), induced F (w.piece dt j e) τ t) = ∫ t in cl τ (j * dt)..cl τ ((j + 1) * dt), e * induced F (w.axis T) τ t := by
    rw [show (fun t => induced F (w.piece dt j e) τ t) = fun t => e * induced F (w.axis T) τ t from funext hind]
    show (∫ t in (j * dt : ℝ)..Max.max (j * dt : ℝ) (Min.min ((j + 1) * dt : ℝ) τ), _) = _
    unfold cl
    rcases le_total (j * dt) τ with h1 | h1
    · rw [min_eq_left h1, max_eq_right hj0, max_eq_right (le_min (by linarith) h1), max_eq_right (hj0.trans (le_min (by linarith) h1))]
    · rw [min_eq_right h1, min_eq_right (by linarith : τ ≤ (j + 1) * dt), max_eq_left h1, intervalIntegral.integral_same, intervalIntegral.integral_same]
  by_cases hp : j * dt ≤ τ
  · have hK' : LipschitzOnWith (‖e‖₊ * K) (induced F (w.piece dt j e) τ) (Icc (w.piece dt j e).t0 (min (w.piece dt j e).t1 τ)) := by
      refine LipschitzOnWith.of_dist_le_mul fun x hx y hy => ?_
      rw [hind, hind, Real.dist_eq, ← mul_sub, abs_mul, NNReal.coe_mul, mul_assoc]
      exact mul_le_mul_of_nonneg_left ((Real.dist_eq _ _).symm.le.trans ((hK.mono hsub).dist_le_mul x hx y hy)) (abs_nonneg e)
    have hB' : ∀ t ∈ Icc (w.piece dt j e).t0 (min (w.piece dt j e).t1 τ), |induced F (w.piece dt j e) τ t| ≤ |e| * b := fun t ht => by
      rw [hind, abs_mul]
      exact mul_le_mul_of_nonneg_left (hB t (hsub ht)) (abs_nonneg e)
    have := line_near (tsig := tsig) (tsamp := tsamp) (k := k) h hG hF hlt (by rw [← hτ]; exact hcov) (b := |e| * b) (by positivity) (by rw [← hτ]; exact hK') (by rw [← hτ]; exact hB')
    rw [← hτ, hint2, hlen] at this
    refine this.trans (add_le_add hfe ?_)
    have e1 : (w.piece dt j e).t1 = (j + 1) * dt := rfl
    have e2 : ((‖e‖₊ * K : NNReal) : ℝ) = |e| * K := by rw [NNReal.coe_mul]; rfl
    rw [e1, e2]
    unfold passed
    rw [if_pos hp]
    have hif : (if ((j : ℝ) + 1) * dt ≤ τ then (0 : ℝ) else |e| * b) = |e| * (b * (1 - if ((j : ℝ) + 1) * dt ≤ τ then 1 else 0)) := by split <;> ring
    rw [hif]
    have hn : 0 ≤ b * (1 - if ((j : ℝ) + 1) * dt ≤ τ then 1 else 0) := by split <;> simp [hb]
    have hX : 0 ≤ (K : ℝ) * dt + b * (1 - if ((j : ℝ) + 1) * dt ≤ τ then 1 else 0) := add_nonneg (by positivity) hn
    calc dt / intervals (w.piece dt j e) / 2 * (|e| * K * dt + |e| * (b * (1 - if ((j : ℝ) + 1) * dt ≤ τ then 1 else 0)))
        = (dt / intervals (w.piece dt j e) / 2 * |e|) * (K * dt + b * (1 - if ((j : ℝ) + 1) * dt ≤ τ then 1 else 0)) := by ring
      _ ≤ (dt / 2 * Q) * (K * dt + b * (1 - if ((j : ℝ) + 1) * dt ≤ τ then 1 else 0)) := mul_le_mul_of_nonneg_right (mul_le_mul (by linarith) hQ (abs_nonneg _) (by positivity)) hX
  · have hem : Icc (w.piece dt j e).t0 (min (w.piece dt j e).t1 τ) = ∅ := Icc_eq_empty fun hh => hp (hh.trans (min_le_right _ _))
    have := line_near (tsig := tsig) (tsamp := tsamp) (k := k) h hG hF hlt (by rw [← hτ]; exact hcov) (b := 0) le_rfl (K := 0) (by rw [← hτ, hem]; exact lipschitzOnWith_empty _ _)
      (by rw [← hτ, hem]; exact fun t ht => absurd ht (notMem_empty t))
    rw [← hτ, hint2, hlen] at this
    refine this.trans (add_le_add hfe ?_)
    have p1 : passed τ (j * dt) = 0 := if_neg hp
    have p2 : passed τ ((j + 1) * dt) = 0 := if_neg (by push Not at hp; linarith)
    rw [p1, p2, sub_zero, mul_zero, add_zero, NNReal.coe_zero, zero_mul, ite_self, add_zero, mul_zero]
    positivity

/-! ### All tracks -/

open intervalIntegral in
/-- The charge of the track instead of that at each time. -/
theorem charge_near {dt T τ : ℝ} {f q : ℝ → ℝ} {j : Nat} (hdt : 0 < dt) (hj : (j + 1) * dt ≤ T) {b e D : ℝ} (hb : 0 ≤ b) (hD0 : 0 ≤ D) (hf : ContinuousOn f (Icc 0 (min T τ))) (hfb : ∀ t ∈ Icc 0 (min T τ), |f t| ≤ b)
    (hqc : ContinuousOn q (Icc 0 T)) (hD : ∀ t ∈ Icc (j * dt) ((j + 1) * dt), |e - q t| ≤ D) :
    |(∫ t in cl τ (j * dt)..cl τ ((j + 1) * dt), e * f t) - ∫ t in cl τ (j * dt)..cl τ ((j + 1) * dt), q t * f t| ≤ D * b * dt := by
  have hj0 : 0 ≤ (j : ℝ) * dt := by positivity
  have hle : (j : ℝ) * dt ≤ (j + 1) * dt := by linarith
  by_cases hp : (j : ℝ) * dt ≤ τ
  · have a1 : cl τ (j * dt) = j * dt := by unfold cl; rw [min_eq_left hp, max_eq_right hj0]
    have a2 : cl τ ((j + 1) * dt) = min ((j + 1) * dt) τ := by unfold cl; rw [max_eq_right (hj0.trans (le_min hle hp))]
    have a3 : (j : ℝ) * dt ≤ min ((j + 1) * dt) τ := le_min hle hp
    have hsub : Icc ((j : ℝ) * dt) (min ((j + 1) * dt) τ) ⊆ Icc 0 (min T τ) := Icc_subset_Icc hj0 (min_le_min_right τ hj)
    have hsub' : Icc ((j : ℝ) * dt) (min ((j + 1) * dt) τ) ⊆ Icc 0 T := hsub.trans (Icc_subset_Icc_right (min_le_left _ _))
    rw [a1, a2]
    have i1 : IntervalIntegrable (fun t => e * f t) volume (j * dt) (min ((j + 1) * dt) τ) := ContinuousOn.intervalIntegrable_of_Icc a3 (continuousOn_const.mul (hf.mono hsub))
    have i2 : IntervalIntegrable (fun t => q t * f t) volume (j * dt) (min ((j + 1) * dt) τ) := ContinuousOn.intervalIntegrable_of_Icc a3 ((hqc.mono hsub').mul (hf.mono hsub))
    rw [← integral_sub i1 i2]
    have := norm_integral_le_of_norm_le_const (a := (j : ℝ) * dt) (b := min ((j + 1) * dt) τ) (C := D * b) (f := fun t => e * f t - q t * f t) fun t ht => by
      rw [uIoc_of_le a3] at ht
      have ht' : t ∈ Icc ((j : ℝ) * dt) (min ((j + 1) * dt) τ) := ⟨ht.1.le, ht.2⟩
      rw [Real.norm_eq_abs, ← sub_mul, abs_mul]
      exact mul_le_mul (hD t ⟨ht'.1, ht'.2.trans (min_le_left _ _)⟩) (hfb t (hsub ht')) (abs_nonneg _) hD0
    refine this.trans (mul_le_mul_of_nonneg_left ?_ (mul_nonneg hD0 hb))
    rw [abs_of_nonneg (by linarith)]
    linarith [min_le_left (((j : ℝ) + 1) * dt) τ]
  · push Not at hp
    have : cl τ (j * dt) = cl τ ((j + 1) * dt) := by unfold cl; rw [min_eq_right hp.le, min_eq_right (by linarith)]
    rw [this, integral_same, integral_same, sub_self, abs_zero]
    positivity

/-- The charge of the track `k`: that of the profile at its start, but for the first track `c0`. -/
noncomputable def stepCharge (c0 : ℝ) (q : ℝ → ℝ) (dt : ℝ) (k : Nat) : ℝ := if k = 0 then c0 else q (k * dt)

open intervalIntegral in
theorem pieces_near {ρ mx dt T : ℝ} (hw : w.Ok ρ mx) (h : Accuracy kn d E N) (hG : 0 < G.dr ∧ 0 < G.dz ∧ 0 < G.dt) (hF : GoodField G d F A B δ Mr Mz Mt) (hdt : 0 < dt) (hT : 0 < T) {n : Nat} (hn : n * dt ≤ T)
    (hn' : T ≤ (n + 1) * dt) {tsig tsamp τ : ℝ} {k : Nat} (hτ : τ = tsig + k * tsamp) (hc : TrackCovered G kn g B (w.axis T) τ) {K : NNReal} {b Q Λ c0 : ℝ} (hb : 0 ≤ b) {q : ℝ → ℝ} (hc0 : |c0| ≤ Q)
    (hqb : ∀ t ∈ Icc 0 T, |q t| ≤ Q) (hΛ : 0 ≤ Λ) (hql : ∀ s ∈ Icc 0 T, ∀ t ∈ Icc 0 T, |q t - q s| ≤ Λ * |t - s|)
    (hK : LipschitzOnWith K (induced F (w.axis T) τ) (Icc 0 (min T τ))) (hB : ∀ t ∈ Icc 0 (min T τ), |induced F (w.axis T) τ t| ≤ b) :
    |(∑ j ∈ Finset.range n, lineSignal G kn A g (w.piece dt j (stepCharge c0 q dt j)) tsig tsamp 1 k) - axisSignal F w T q τ| ≤
      T * Q * (interpErr G d E N (Mr 0) (Mz 0) (Mt 0) δ + interpErr G d E N (Mr 1) (Mz 1) (Mt 1) δ) + dt * (Q * (K * T + b) / 2 + Λ * T * b + |c0 - q 0| * b + Q * b) := by
  have he0 := hF.errors h hG 0 (by decide)
  have he1 := hF.errors h hG 1 (by decide)
  obtain ⟨ee, hee⟩ : ∃ ee, ee = interpErr G d E N (Mr 0) (Mz 0) (Mt 0) δ + interpErr G d E N (Mr 1) (Mz 1) (Mt 1) δ := ⟨_, rfl⟩
  have hee0 : 0 ≤ ee := by rw [hee]; linarith
  have hQ0 : 0 ≤ Q := (abs_nonneg c0).trans hc0
  obtain ⟨f, hf⟩ : ∃ f, f = induced F (w.axis T) τ := ⟨_, rfl⟩
  have hle : ∀ j < n, ((j : ℝ) + 1) * dt ≤ T := fun j hj => by
    have : ((j : ℝ) + 1) ≤ n := by exact_mod_cast hj
    nlinarith
  have hqc : ContinuousOn q (Icc 0 T) := by
    have : LipschitzOnWith (Real.toNNReal Λ) q (Icc 0 T) := LipschitzOnWith.of_dist_le_mul fun x hx y hy => by
      rw [Real.dist_eq, Real.dist_eq, Real.coe_toNNReal Λ hΛ]
      exact hql y hy x hx
    exact this.continuousOn
  have hfc : ContinuousOn f (Icc 0 (min T τ)) := by rw [hf]; exact hK.continuousOn
  have hce : ∀ j < n, |stepCharge c0 q dt j| ≤ Q := fun j hj => by
    unfold stepCharge
    split
    · exact hc0
    · exact hqb _ ⟨by positivity, by have := hle j hj; nlinarith⟩
  -- the charge of the tracks
  have hD : ∀ j < n, ∀ t ∈ Icc (j * dt) ((j + 1) * dt), |stepCharge c0 q dt j - q t| ≤ (if j = 0 then |c0 - q 0| else 0) + Λ * dt := by
    intro j hj t ht
    have hj0 : 0 ≤ (j : ℝ) * dt := by positivity
    have m1 : (j : ℝ) * dt ∈ Icc 0 T := ⟨hj0, by have := hle j hj; nlinarith⟩
    have m2 : t ∈ Icc 0 T := ⟨hj0.trans ht.1, ht.2.trans (hle j hj)⟩
    have l1 : |q (j * dt) - q t| ≤ Λ * dt := by
      refine (hql t m2 _ m1).trans (mul_le_mul_of_nonneg_left ?_ hΛ)
      rw [abs_sub_comm, abs_of_nonneg (by linarith [ht.1])]
      linarith [ht.2]
    unfold stepCharge
    by_cases hz : j = 0
    · subst hz
      rw [if_pos rfl, if_pos rfl]
      rw [Nat.cast_zero, zero_mul] at l1
      calc |c0 - q t| = |(c0 - q 0) + (q 0 - q t)| := by congr 1; ring
        _ ≤ _ := (abs_add_le _ _).trans (add_le_add le_rfl l1)
    · rw [if_neg hz, if_neg hz, zero_add]
      exact l1
  -- each track
  have hterm : ∀ j ∈ Finset.range n, |lineSignal G kn A g (w.piece dt j (stepCharge c0 q dt j)) tsig tsamp 1 k - -∫ t in cl τ (j * dt)..cl τ ((j + 1 : Nat) * dt), q t * f t| ≤
      (dt * Q * ee + dt / 2 * Q * (K * dt + b * (passed τ (j * dt) - passed τ ((j + 1 : Nat) * dt)))) + (((if j = 0 then |c0 - q 0| else 0) + Λ * dt) * b * dt) := by
    intro j hj
    have hj := Finset.mem_range.1 hj
    have a := piece_near (A := A) hw h hG hF hdt (hle j hj) hτ hc hb (hce j hj) hK hB
    have c := charge_near (τ := τ) hdt (hle j hj) hb (e := stepCharge c0 q dt j) (D := (if j = 0 then |c0 - q 0| else 0) + Λ * dt) (by have := mul_nonneg hΛ hdt.le; split <;> [positivity; linarith]) hfc
      (by rw [hf]; exact hB) hqc (hD j hj)
    rw [← hee] at a
    push_cast
    rw [hf] at *
    rw [abs_le] at a c ⊢
    constructor <;> linarith [a.1, a.2, c.1, c.2]
  -- the sum of the integrals
  have hint : ∀ s t, s ∈ Icc 0 T → t ∈ Icc 0 T → s ≤ t → IntervalIntegrable (fun t => q t * f t) volume (cl τ s) (cl τ t) := by
    intro s t hs ht hst
    rcases lt_or_ge τ 0 with h0 | h0
    · have : ∀ x, 0 ≤ x → cl τ x = 0 := fun x hx => by unfold cl; exact max_eq_left ((min_le_right _ _).trans h0.le)
      rw [this s hs.1, this t ht.1]
    · refine ContinuousOn.intervalIntegrable_of_Icc (cl_mono τ hst) ?_
      have hsub : Icc (cl τ s) (cl τ t) ⊆ Icc 0 (min T τ) := by
        refine Icc_subset_Icc (cl_nonneg _ _) ?_
        unfold cl
        rw [max_eq_right (le_min ht.1 h0)]
        exact min_le_min_right τ ht.2
      exact (hqc.mono (hsub.trans (Icc_subset_Icc_right (min_le_left _ _)))).mul (hfc.mono hsub)
  have hmem : ∀ j ≤ n, (j : ℝ) * dt ∈ Icc 0 T := fun j hj => ⟨by positivity, by
    have : (j : ℝ) ≤ n := by exact_mod_cast hj
    nlinarith⟩
  have hsum : ∑ j ∈ Finset.range n, (∫ t in cl τ (j * dt)..cl τ ((j + 1 : Nat) * dt), q t * f t) = ∫ t in cl τ 0..cl τ (n * dt), q t * f t := by
    have := sum_integral_adjacent_intervals (f := fun t => q t * f t) (μ := volume) (a := fun j : Nat => cl τ (j * dt)) (n := n) fun j hj => hint _ _ (hmem j hj.le) (hmem (j + 1) hj) (by push_cast; linarith)
    rw [Nat.cast_zero, zero_mul] at this
    exact this
  have hwhole : axisSignal F w T q τ = -((∫ t in cl τ 0..cl τ (n * dt), q t * f t) + ∫ t in cl τ (n * dt)..cl τ T, q t * f t) := by
    rw [integral_add_adjacent_intervals (hint _ _ ⟨le_rfl, hT.le⟩ (hmem n le_rfl) (hmem n le_rfl).1) (hint _ _ (hmem n le_rfl) ⟨hT.le, le_rfl⟩ hn), cl_zero]
    unfold axisSignal
    rw [hf]
    rfl
  have htail : |∫ t in cl τ (n * dt)..cl τ T, q t * f t| ≤ Q * b * dt := by
    have := norm_integral_le_of_norm_le_const (a := cl τ (n * dt)) (b := cl τ T) (C := Q * b) (f := fun t => q t * f t) fun t ht => by
      rw [uIoc_of_le (cl_mono τ hn)] at ht
      have t0 : 0 ≤ t := (cl_nonneg _ _).trans ht.1.le
      have t1 : t ≤ min T τ := by
        have := ht.2
        unfold cl at this
        rcases le_max_iff.1 this with h1 | h1
        · have hz : 0 < t := (cl_nonneg _ _).trans_lt ht.1
          linarith
        · exact h1
      rw [Real.norm_eq_abs, abs_mul]
      exact mul_le_mul (hqb t ⟨t0, t1.trans (min_le_left _ _)⟩) (by rw [hf]; exact hB t ⟨t0, t1⟩) (abs_nonneg _) hQ0
    refine this.trans (mul_le_mul_of_nonneg_left ?_ (mul_nonneg hQ0 hb))
    rw [abs_of_nonneg (sub_nonneg.2 (cl_mono τ hn))]
    linarith [cl_sub τ hn]
  have hmain := (Finset.abs_sum_le_sum_abs _ _).trans (Finset.sum_le_sum hterm)
  rw [Finset.sum_sub_distrib, Finset.sum_neg_distrib, hsum] at hmain
  have htel : ∑ j ∈ Finset.range n, (passed τ (j * dt) - passed τ ((j + 1 : Nat) * dt)) ≤ 1 := by
    rw [Finset.sum_range_sub' (fun j : Nat => passed τ (j * dt))]
    have : ∀ x, 0 ≤ passed τ x ∧ passed τ x ≤ 1 := fun x => by unfold passed; split <;> norm_num
    linarith [(this ((0 : Nat) * dt)).2, (this (n * dt)).1]
  have hfirst : ∑ j ∈ Finset.range n, (if j = 0 then |c0 - q 0| else 0) ≤ |c0 - q 0| := by
    rw [Finset.sum_ite_eq' (Finset.range n) 0 fun _ => |c0 - q 0|]
    by_cases hz : 0 ∈ Finset.range n
    · rw [if_pos hz]
    · rw [if_neg hz]; exact abs_nonneg _
  have hrhs : ∑ j ∈ Finset.range n, ((dt * Q * ee + dt / 2 * Q * (K * dt + b * (passed τ (j * dt) - passed τ ((j + 1 : Nat) * dt)))) + (((if j = 0 then |c0 - q 0| else 0) + Λ * dt) * b * dt)) ≤
      T * Q * ee + dt * (Q * (K * T + b) / 2 + Λ * T * b + |c0 - q 0| * b) := by
    have e1 : ∑ j ∈ Finset.range n, ((dt * Q * ee + dt / 2 * Q * (K * dt + b * (passed τ (j * dt) - passed τ ((j + 1 : Nat) * dt)))) + (((if j = 0 then |c0 - q 0| else 0) + Λ * dt) * b * dt)) =
        n * dt * (Q * ee) + dt / 2 * Q * K * (n * dt) + dt / 2 * Q * b * ∑ j ∈ Finset.range n, (passed τ (j * dt) - passed τ ((j + 1 : Nat) * dt)) +
          b * dt * ∑ j ∈ Finset.range n, (if j = 0 then |c0 - q 0| else 0) + n * dt * (Λ * b * dt) := by
      rw [Finset.mul_sum, Finset.mul_sum]
      have c : ∀ x : ℝ, (n : ℝ) * x = ∑ _j ∈ Finset.range n, x := fun x => by rw [Finset.sum_const, Finset.card_range, nsmul_eq_mul]
      rw [show n * dt * (Q * ee) = n * (dt * (Q * ee)) by ring, show dt / 2 * Q * K * (n * dt) = n * (dt / 2 * Q * K * dt) by ring, show n * dt * (Λ * b * dt) = n * (dt * (Λ * b * dt)) by ring, c, c, c,
        ← Finset.sum_add_distrib, ← Finset.sum_add_distrib, ← Finset.sum_add_distrib, ← Finset.sum_add_distrib]
      exact Finset.sum_congr rfl fun j _ => by ring
    rw [e1]
    have k1 : n * dt * (Q * ee) ≤ T * (Q * ee) := mul_le_mul_of_nonneg_right hn (mul_nonneg hQ0 hee0)
    have k2 : dt / 2 * Q * K * (n * dt) ≤ dt / 2 * Q * K * T := mul_le_mul_of_nonneg_left hn (by have := K.coe_nonneg; positivity)
    have k3 := mul_le_mul_of_nonneg_left htel (by positivity : 0 ≤ dt / 2 * Q * b)
    have k4 := mul_le_mul_of_nonneg_left hfirst (by positivity : 0 ≤ b * dt)
    have k5 : n * dt * (Λ * b * dt) ≤ T * (Λ * b * dt) := mul_le_mul_of_nonneg_right hn (by positivity)
    linarith
  have := hmain.trans hrhs
  rw [hwhole, ← hee]
  rw [abs_le] at this htail ⊢
  constructor <;> linarith [this.1, this.2, htail.1, htail.2]

end Verif.Shower
