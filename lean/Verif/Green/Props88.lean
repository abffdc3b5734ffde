import Verif.Green.Convolution
import Verif.Green.Props85
/-
Examples for C87 and C88.
-/
namespace Verif.Green
open Verif Verif.ND Verif.Dist Verif.Tree Verif.NullSup Set

/-! ### A chunk with the samples of any field -/

/-- The samples of the field `F`, in the order in which they are stored, for the chunk `room` with its overlap. -/
noncomputable def roomData (F : Nat → ℝ → ℝ → ℝ → ℝ) : List ℝ :=
  (List.range (14 * 14 * 70 * 2)).map fun q => F (q % 2) ((q / 2 / 70 / 14 : Nat) - 3) ((q / 2 / 70 % 14 : Nat) - 3) ((q / 2 % 70 : Nat) - 3)

theorem roomData_length (F : Nat → ℝ → ℝ → ℝ → ℝ) : (roomData F).length = volume 2 (room.shape.map (· + 2 * room.overlap)) := by
  unfold roomData
  rw [List.length_map, List.length_range]
  rfl

theorem roomField_data (F : Nat → ℝ → ℝ → ℝ → ℝ) {c : Nat} (hc : c < 2) {i j k : Int} (hi : -3 ≤ i ∧ i ≤ 10) (hj : -3 ≤ j ∧ j ≤ 10) (hk : -3 ≤ k ∧ k ≤ 66) :
    roomField (roomData F) c i j k = F c i j k := by
  unfold roomField
  have hs : room.start = [0, 0, 0] := rfl
  have ho : room.overlap = 3 := rfl
  have hp : room.shape.map (· + 2 * room.overlap) = [14, 14, 70] := rfl
  rw [hp, hs, ho]
  obtain ⟨a, ha⟩ : ∃ a : Nat, i + 3 = a := ⟨(i + 3).toNat, by omega⟩
  obtain ⟨b, hb⟩ : ∃ b : Nat, j + 3 = b := ⟨(j + 3).toNat, by omega⟩
  obtain ⟨e, he⟩ : ∃ e : Nat, k + 3 = e := ⟨(k + 3).toNat, by omega⟩
  unfold component
  have e1 : (i - (([0, 0, 0] : List Nat).getD 0 0 : Nat) + (3 : Nat)).toNat = a := by show (i - (0 : Nat) + (3 : Nat)).toNat = a; omega
  have e2 : (j - (([0, 0, 0] : List Nat).getD 1 0 : Nat) + (3 : Nat)).toNat = b := by show (j - (0 : Nat) + (3 : Nat)).toNat = b; omega
  have e3 : (k - (([0, 0, 0] : List Nat).getD 2 0 : Nat) + (3 : Nat)).toNat = e := by show (k - (0 : Nat) + (3 : Nat)).toNat = e; omega
  rw [e1, e2, e3]
  have hf : flatInd (mkHdr 2 [14, 14, 70]) [a, b, e] = 2 * ((a * 14 + b) * 70 + e) := by
    show 0 + a * (1 * 70 * 14 * 2) + b * (1 * 70 * 2) + e * (1 * 2) = _
    ring
  have hlen := roomData_length F
  rw [hp] at hlen
  have hv : volume 2 [14, 14, 70] = 27440 := rfl
  rw [hv] at hlen
  have hin : hasIndex (mkHdr 2 [14, 14, 70]).shape [a, b, e] = true := by
    show (List.zipWith (fun i s => decide (i < s)) [a, b, e] [14, 14, 70]).all id = true
    simp
    omega
  unfold ND.read
  rw [if_pos hin, hf, if_pos (by omega)]
  dsimp only
  rw [List.getD_eq_getElem?_getD, List.getElem?_take, if_pos hc, List.getElem?_drop]
  unfold roomData
  rw [List.getElem?_map, List.getElem?_range (by omega)]
  have q1 : (2 * ((a * 14 + b) * 70 + e) + c) % 2 = c := by omega
  have q2 : (2 * ((a * 14 + b) * 70 + e) + c) / 2 = (a * 14 + b) * 70 + e := by omega
  have q3 : ((a * 14 + b) * 70 + e) % 70 = e := by omega
  have q4 : ((a * 14 + b) * 70 + e) / 70 = a * 14 + b := by omega
  have q5 : (a * 14 + b) % 14 = b := by omega
  have q6 : (a * 14 + b) / 14 = a := by omega
  show F ((2 * ((a * 14 + b) * 70 + e) + c) % 2) _ _ _ = _
  rw [q1, q2, q3, q4, q5, q6]
  have c1 : ((a : Nat) : ℝ) - 3 = i := by rw [sub_eq_iff_eq_add]; exact_mod_cast ha.symm
  have c2 : ((b : Nat) : ℝ) - 3 = j := by rw [sub_eq_iff_eq_add]; exact_mod_cast hb.symm
  have c3 : ((e : Nat) : ℝ) - 3 = k := by rw [sub_eq_iff_eq_add]; exact_mod_cast he.symm
  rw [c1, c2, c3]

/-- The grid with steps 1. -/
noncomputable def unitG : GMeta ℝ := ⟨0, 0, 0, 1, 1, 1⟩

/-- The box with the samples. -/
noncomputable def roomBox : Region := ⟨-3, 10, -3, 10, -3, 66⟩

theorem roomSampled (F : Nat → ℝ → ℝ → ℝ → ℝ) {c : Nat} (hc : c < 2) : Sampled unitG (F c) (roomField (roomData F) c) roomBox 0 := by
  intro i j k hi hj hk
  simp only [unitG, roomBox, mul_one, zero_add, mem_Icc] at hi hj hk ⊢
  rw [roomField_data F hc ⟨by exact_mod_cast hi.1, by exact_mod_cast hi.2⟩ ⟨by exact_mod_cast hj.1, by exact_mod_cast hj.2⟩ ⟨by exact_mod_cast hk.1, by exact_mod_cast hk.2⟩, sub_self, abs_zero]

/-! ### The field of the example -/

/-- The component along `r` is `r t`, the one along `z` is `t³ + z`. -/
noncomputable def exF (c : Nat) (r z t : ℝ) : ℝ := if c = 0 then r * t else t ^ 3 + z

theorem deriv3 {f f1 f2 f3 : ℝ → ℝ} (hf : ContDiff ℝ 3 f) (h1 : ∀ x, HasDerivAt f (f1 x) x) (h2 : ∀ x, HasDerivAt f1 (f2 x) x) (h3 : ∀ x, HasDerivAt f2 (f3 x) x) {a b M : ℝ} (hab : a < b)
    (hM : ∀ x, |f3 x| ≤ M) : BoundedDeriv 3 f a b M := by
  refine ⟨hf.contDiffOn, fun u hu => ?_⟩
  rw [iteratedDerivWithin_eq_iteratedDeriv (uniqueDiffOn_Icc hab) hf.contDiffAt hu, iteratedDeriv_succ, iteratedDeriv_succ, iteratedDeriv_one,
    show deriv f = f1 from funext fun x => (h1 x).deriv, show deriv f1 = f2 from funext fun x => (h2 x).deriv, (h3 u).deriv]
  exact hM u

theorem affine3 (p q : ℝ) {a b : ℝ} (hab : a < b) : BoundedDeriv 3 (fun x => p * x + q) a b 0 := by
  refine deriv3 (f1 := fun _ => p) (f2 := fun _ => 0) (f3 := fun _ => 0) (by fun_prop) (fun x => ?_) (fun x => hasDerivAt_const x p) (fun x => hasDerivAt_const x 0) hab (fun x => by simp)
  simpa using ((hasDerivAt_id x).const_mul p).add_const q

theorem cube3 (q : ℝ) {a b : ℝ} (hab : a < b) : BoundedDeriv 3 (fun x => x ^ 3 + q) a b 6 := by
  refine deriv3 (f1 := fun x => 3 * x ^ 2) (f2 := fun x => 6 * x) (f3 := fun _ => 6) (by fun_prop) (fun x => ?_) (fun x => ?_) (fun x => ?_) hab (fun x => by norm_num)
  · simpa using (hasDerivAt_pow 3 x).add_const q
  · have := (hasDerivAt_pow 2 x).const_mul (3 : ℝ)
    refine this.congr_deriv ?_
    norm_num; ring
  · simpa using (hasDerivAt_id x).const_mul (6 : ℝ)

theorem exSmooth : SmoothField 3 (exF 0) roomBox 0 0 0 ∧ SmoothField 3 (exF 1) roomBox 0 0 6 := by
  have h1 : roomBox.ra < roomBox.rb := by norm_num [roomBox]
  have h2 : roomBox.za < roomBox.zb := by norm_num [roomBox]
  have h3 : roomBox.ta < roomBox.tb := by norm_num [roomBox]
  refine ⟨⟨fun z _ t _ => ?_, fun r _ t _ => ?_, fun r _ z _ => ?_⟩, ⟨fun z _ t _ => ?_, fun r _ t _ => ?_, fun r _ z _ => ?_⟩⟩
  · exact (show (fun r => exF 0 r z t) = fun r => t * r + 0 by funext r; simp [exF]; ring) ▸ affine3 t 0 h1
  · exact (show (fun z => exF 0 r z t) = fun z => 0 * z + r * t by funext z; simp [exF]) ▸ affine3 0 (r * t) h2
  · exact (show (fun t => exF 0 r z t) = fun t => r * t + 0 by funext t; simp [exF]) ▸ affine3 r 0 h3
  · exact (show (fun r => exF 1 r z t) = fun r => 0 * r + (t ^ 3 + z) by funext r; simp [exF]) ▸ affine3 0 (t ^ 3 + z) h1
  · exact (show (fun z => exF 1 r z t) = fun z => 1 * z + t ^ 3 by funext z; simp [exF]; ring) ▸ affine3 1 (t ^ 3) h2
  · exact (show (fun t => exF 1 r z t) = fun t => t ^ 3 + z by funext t; simp [exF]) ▸ cube3 z h3

/-- C87 for the component along `z`: the interpolation of `t³ + z` with the cubic kernel is exact up to 0.88 grid steps cubed. -/
example (r z t : ℝ) (hr : 0 ≤ r ∧ r ≤ 7) (hz : 0 ≤ z ∧ z ≤ 7) (ht : 0 ≤ t ∧ t ≤ 63) : |greenAt unitG (keys (Real.sqrt 7)) (roomField (roomData exF)) 1 r z t - (t ^ 3 + z)| ≤ 0.88 := by
  have := C87_interpolation .keys3 unitG (by norm_num [unitG]) (exF 1) (roomField (roomData exF)) 1 roomBox (roomSampled exF (by decide)) exSmooth.2 r z t
    (by
      refine ⟨axisIn_of_margin (by norm_num [unitG]) ?_, axisIn_of_margin (by norm_num [unitG]) ?_, axisIn_of_margin (by norm_num [unitG]) ?_⟩ <;> norm_num [unitG, roomBox, keys] <;> constructor <;>
        linarith [hr.1, hr.2, hz.1, hz.2, ht.1, ht.2])
  refine le_trans this ?_
  norm_num [interpErr, unitG]

/-! ### The signal of the example -/

theorem room_ends : room.start = [0, 0, 0] ∧ room.stop = [8, 8, 64] := ⟨rfl, by decide +kernel⟩

theorem roomChunks : Chunks ⟨7, 7, 63, 64, 3, false⟩ [room] where
  pts := by decide
  cover x y w := by
    constructor
    · rintro ⟨m, hm, -, -, h⟩
      rw [List.mem_singleton.1 hm] at h
      rw [room_ends.2] at h
      have h0 := (h 0 (show 0 < 3 by decide)).2
      have h1 := (h 1 (show 1 < 3 by decide)).2
      have h2 := (h 2 (show 2 < 3 by decide)).2
      change x < 8 at h0
      change y < 8 at h1
      change w < 64 at h2
      show x ≤ 7 ∧ y ≤ 7 ∧ w ≤ 63
      omega
    · rintro ⟨h0, h1, h2⟩
      change x ≤ 7 at h0
      change y ≤ 7 at h1
      change w ≤ 63 at h2
      refine ⟨room, by simp, ?_⟩
      rw [room_ends.1, room_ends.2]
      refine ⟨rfl, rfl, fun d hd => ?_⟩
      have hd : d < 3 := hd
      interval_cases d
      · exact ⟨Nat.zero_le _, show x < 8 by omega⟩
      · exact ⟨Nat.zero_le _, show y < 8 by omega⟩
      · exact ⟨Nat.zero_le _, show w < 64 by omega⟩
  box m hm := by
    rw [List.mem_singleton.1 hm, room_ends.1, room_ends.2]
    refine ⟨rfl, rfl, fun d hd => ?_⟩
    have hd : d < 3 := hd
    interval_cases d <;> exact ⟨by decide, by decide, by decide, by decide, ⟨0, by decide⟩, by decide⟩
  uniq m hm m' hm' _ := by rw [List.mem_singleton.1 hm, List.mem_singleton.1 hm']
  specified _ m hm := by rw [List.mem_singleton.1 hm]; rfl
  overlap m hm := by rw [List.mem_singleton.1 hm]; rfl

theorem roomAnswers (F : Nat → ℝ → ℝ → ℝ → ℝ) : Answers (roomLib (roomData F)) (fun _ => True) unitG (keys (Real.sqrt 7)) (roomField (roomData F)) ⟨7, 7, 63, 64, 3, false⟩ :=
  answers roomChunks (roomLib_serves (roomData_length F)) .keys (by decide) (by decide) unitG (by norm_num [unitG]) (fun _ _ _ _ => trivial) (fun _ _ _ _ _ _ _ _ _ _ _ _ _ => trivial)

theorem walk_pos (t : ℝ) : atX (walk 1) t = 1 + t ∧ atY (walk 1) t = t ∧ atZ (walk 1) t = 2 + t := by
  unfold atX atY atZ walk
  refine ⟨?_, ?_, ?_⟩ <;> norm_num

theorem walk_radius {t : ℝ} (h0 : 0 ≤ t) (h1 : t ≤ 1) : 1 ≤ atR (walk 1) t ∧ atR (walk 1) t ≤ 3 := by
  obtain ⟨e1, e2, _⟩ := walk_pos t
  unfold atR
  rw [e1, e2]
  constructor
  · rw [Real.one_le_sqrt]; nlinarith
  · rw [Real.sqrt_le_left (by norm_num)]; nlinarith

theorem walk_vel : velX (walk 1) = 1 ∧ velY (walk 1) = 1 ∧ velZ (walk 1) = 1 := by
  unfold velX velY velZ walk
  norm_num

theorem walk_intervals : intervals (walk 1) = 1 := by
  unfold intervals walk
  norm_num

/-- The induced signal is a polynomial. -/
theorem walk_induced (τ : ℝ) {t : ℝ} (h0 : 0 ≤ t) (h1 : t ≤ 1) : induced exF (walk 1) τ t = (τ - t) * (1 + 2 * t) + (τ - t) ^ 3 + 2 + t := by
  obtain ⟨e1, e2, e3⟩ := walk_pos t
  obtain ⟨v1, v2, v3⟩ := walk_vel
  have hr := (walk_radius h0 h1).1
  unfold induced
  rw [v1, v2, v3, e1, e2, e3]
  have : (walk 1).charge = 1 := rfl
  rw [this]
  simp only [exF, if_true, one_ne_zero, if_false]
  generalize atR (walk 1) t = R at *
  have : R ≠ 0 := by linarith
  field_simp
  ring

/-- The line at the integration points. -/
theorem walk_line {p : Nat} (hp : p ≤ 1) : ∃ t : ℝ, 0 ≤ t ∧ t ≤ 1 ∧ lineTime (walk 1) p = t ∧ lineR (walk 1) p = atR (walk 1) t ∧ lineZ (walk 1) p = 2 + t := by
  obtain ⟨-, -, e3, e4⟩ := line_pos (seg := walk 1) (by norm_num [walk]) p
  have ht : lineTime (walk 1) p = p := by
    unfold lineTime
    rw [walk_intervals]
    norm_num [walk]
  rw [ht] at e3 e4
  refine ⟨p, by positivity, by exact_mod_cast hp, ht, e4.symm, ?_⟩
  rw [← e3, (walk_pos p).2.2]

theorem walk_ok (A : Nat → Int → Int → Int → ℝ) : SignalOk unitG (keys (Real.sqrt 7)) A ⟨7, 7, 63, 64, 3, false⟩ (walk 1) 0 (1 / 2) 10 .raise := by
  have gx : ∀ r, unitG.x r = r := fun r => by unfold GMeta.x unitG; norm_num
  have gy : ∀ r, unitG.y r = r := fun r => by unfold GMeta.y unitG; norm_num
  have gt : ∀ r, unitG.t r = r := fun r => by unfold GMeta.t unitG; norm_num
  have del : ∀ {p k : Nat} {t : ℝ}, lineTime (walk 1) p = t → delay (walk 1) 0 (1 / 2) p k = k / 2 - t := fun {p k t} h => by unfold delay; rw [h]; ring
  have kl : ∀ {k : Nat}, k < 10 → (k : ℝ) ≤ 9 := fun {k} h => by exact_mod_cast Nat.lt_succ_iff.1 h
  have sup : (keys (Real.sqrt 7)).support = 2 := rfl
  refine ⟨by norm_num [walk], by norm_num, by norm_num [walk], by norm_num, fun p hp => ?_, by norm_num [unitG], fun p hp => ?_, fun p hp => ?_, fun p k hp hk hd => ?_, fun p k hp hk hd => ?_,
    fun p j k hp _ _ _ hn => (by cases hn), fun _ p k hp hk hd => ?_, fun h => (by cases h)⟩
  all_goals rw [walk_intervals] at hp; obtain ⟨t, t0, t1, l1, l2, l3⟩ := walk_line hp
  · rw [l1]; constructor <;> norm_num <;> linarith
  · have := walk_radius t0 t1
    rw [gx, l2]; constructor <;> norm_num <;> linarith [this.1, this.2]
  · rw [gy, l3]; constructor <;> norm_num <;> linarith
  · have := kl hk
    rw [gt, del l1] at *
    exact ⟨hd, by norm_num; linarith⟩
  · refine ⟨fun h => (by rw [sup] at h; cases h), fun _ => Or.inl ?_⟩
    rw [gx, l2]; exact (walk_radius t0 t1).1
  · have h1 := walk_radius t0 t1
    have h2 := kl hk
    rw [del l1] at hd
    rw [gx, gy, gt, del l1, l2, l3]
    refine ⟨⟨by linarith [h1.1], ?_⟩, ⟨by linarith, ?_⟩, hd, ?_⟩ <;> norm_num <;> linarith [h1.2]

theorem walk_covered (k : Nat) (hk : k < 10) : TrackCovered unitG (keys (Real.sqrt 7)) ⟨7, 7, 63, 64, 3, false⟩ roomBox (walk 1) (0 + k * (1 / 2)) := by
  intro t ht
  have hk' : (k : ℝ) ≤ 9 := by exact_mod_cast Nat.lt_succ_iff.1 hk
  have t0 : 0 ≤ t := ht.1
  have t1 : t ≤ 1 := ht.2.trans (min_le_left _ _)
  have t2 : t ≤ 0 + k * (1 / 2) := ht.2.trans (min_le_right _ _)
  have hr := walk_radius t0 t1
  rw [(walk_pos t).2.2]
  constructor
  · unfold GMeta.x GMeta.y GMeta.t unitG
    refine ⟨⟨?_, ?_⟩, ⟨?_, ?_⟩, ?_, ?_⟩ <;> norm_num <;> linarith [hr.1, hr.2]
  · refine ⟨axisIn_of_margin (by norm_num [unitG]) ?_, axisIn_of_margin (by norm_num [unitG]) ?_, axisIn_of_margin (by norm_num [unitG]) ?_⟩ <;> norm_num [unitG, roomBox, keys] <;> constructor <;>
      linarith [hr.1, hr.2]

theorem exGood : GoodField unitG 3 exF (roomField (roomData exF)) roomBox 0 (fun _ => 0) (fun _ => 0) (fun c => 6 * c) where
  sampled _ hc := roomSampled exF hc
  smooth c hc := by
    interval_cases c
    · simpa using exSmooth.1
    · simpa using exSmooth.2
  bounds := ⟨le_refl 0, fun c _ => ⟨le_refl 0, le_refl 0, by positivity⟩⟩

theorem deriv2 {f f1 f2 : ℝ → ℝ} {a b : ℝ} (hab : a < b) {g : ℝ → ℝ} (hg : EqOn g f (Icc a b)) (hf : ContDiff ℝ 2 f) (h1 : ∀ x, HasDerivAt f (f1 x) x) (h2 : ∀ x, HasDerivAt f1 (f2 x) x) {M : ℝ}
    (hM : ∀ x ∈ Icc a b, |f2 x| ≤ M) : BoundedDeriv 2 g a b M := by
  refine ⟨hf.contDiffOn.congr hg, fun u hu => ?_⟩
  rw [iteratedDerivWithin_congr hg hu, iteratedDerivWithin_eq_iteratedDeriv (uniqueDiffOn_Icc hab) hf.contDiffAt hu, iteratedDeriv_succ, iteratedDeriv_one,
    show deriv f = f1 from funext fun x => (h1 x).deriv, (h2 u).deriv]
  exact hM u hu

/-- C88 with one step of the trapezoidal rule. Sample 1, at time 0.5, when half of the track has an effect, and sample 9, at time 4.5, when the whole track has: the integrals are 1.3 and 68. -/
example : ∃ out', apply (roomLib (roomData exF)) unitG (keys (Real.sqrt 7)) id (fun _ _ _ => 9) (fun _ => 9) 100 100 (walk 1) 0 (1 / 2) 10 (List.replicate 10 0) .raise 1 () = .ok ((), out') ∧
    |out'.getD 1 0 - -∫ t in (0 : ℝ)..1 / 2, induced exF (walk 1) (1 / 2) t| ≤ 3 ∧ |out'.getD 9 0 - -∫ t in (0 : ℝ)..1, induced exF (walk 1) (9 / 2) t| ≤ 3 := by
  have hG : 0 < unitG.dr ∧ 0 < unitG.dz ∧ 0 < unitG.dt := by norm_num [unitG]
  have he : fieldError (walk 1) (interpErr unitG 3 (3 / 32) (5 / 4) 0 0 (6 * (0 : Nat)) 0) (interpErr unitG 3 (3 / 32) (5 / 4) 0 0 (6 * (1 : Nat)) 0) ≤ 0.88 := by
    unfold fieldError interpErr
    rw [walk_vel.1, walk_vel.2.1, walk_vel.2.2]
    norm_num [unitG, walk]
  obtain ⟨⟨⟩, out', a1, -, a3, a4, a5⟩ := C88_signal (roomAnswers exF) .keys3 hG exGood (grow := id) rfl (fun _ _ _ => 9) (fun _ => 9) (maxI := 100) (maxS := 100) (by norm_num) (by norm_num)
    (tsig := 0) (tsamp := 1 / 2) (n := 10) (out := List.replicate 10 0) (by simp) (oob := .raise) 1 (walk_ok _) (s := ()) trivial
  obtain ⟨⟨⟩, out2, b1, -, b3, b4, b5⟩ := C88_smooth (roomAnswers exF) .keys3 hG exGood (grow := id) rfl (fun _ _ _ => 9) (fun _ => 9) (maxI := 100) (maxS := 100) (by norm_num) (by norm_num)
    (tsig := 0) (tsamp := 1 / 2) (n := 10) (out := List.replicate 10 0) (by simp) (oob := .raise) 1 (walk_ok _) (s := ()) trivial
  rw [a1] at b1
  obtain rfl : out' = out2 := congrArg Prod.snd (Res.ok.inj b1)
  refine ⟨out', a1, ?_, ?_⟩
  · have e1 : min (walk 1).t1 (0 + ((1 : Nat) : ℝ) * (1 / 2)) = 1 / 2 := by norm_num [walk]
    have := a5 1 (by decide) (walk_covered 1 (by decide)) 1 3 (by norm_num) (by
        rw [e1]
        have e2 : (0 : ℝ) + ((1 : Nat) : ℝ) * (1 / 2) = 1 / 2 := by norm_num
        rw [e2]
        refine LipschitzOnWith.of_dist_le_mul fun x hx y hy => ?_
        have hx0 : (0 : ℝ) ≤ x := hx.1
        have hy0 : (0 : ℝ) ≤ y := hy.1
        have hx1 : x ≤ 1 / 2 := hx.2
        have hy1 : y ≤ 1 / 2 := hy.2
        rw [walk_induced _ hx0 (by linarith), walk_induced _ hy0 (by linarith), Real.dist_eq, Real.dist_eq, NNReal.coe_one, one_mul]
        have : (1 / 2 - x) * (1 + 2 * x) + (1 / 2 - x) ^ 3 + 2 + x - ((1 / 2 - y) * (1 + 2 * y) + (1 / 2 - y) ^ 3 + 2 + y) =
            (1 - 2 * (x + y) - ((1 / 2 - x) ^ 2 + (1 / 2 - x) * (1 / 2 - y) + (1 / 2 - y) ^ 2)) * (x - y) := by ring
        rw [this, abs_mul]
        refine mul_le_of_le_one_left (abs_nonneg _) (abs_le.2 ⟨?_, ?_⟩)
        · nlinarith
        · nlinarith [mul_nonneg (sub_nonneg.2 hx1) (sub_nonneg.2 hy1), sq_nonneg (1 / 2 - x), sq_nonneg (1 / 2 - y)]) (fun t ht => by
        rw [e1] at ht
        have t0 : (0 : ℝ) ≤ t := ht.1
        have t1 : t ≤ 1 / 2 := ht.2
        have e2 : (0 : ℝ) + ((1 : Nat) : ℝ) * (1 / 2) = 1 / 2 := by norm_num
        rw [e2, walk_induced _ t0 (by linarith), abs_le]
        constructor
        · nlinarith [mul_nonneg (sub_nonneg.2 t1) t0, pow_nonneg (sub_nonneg.2 t1) 3]
        · nlinarith [mul_nonneg (sub_nonneg.2 t1) t0, mul_nonneg (mul_nonneg (sub_nonneg.2 t1) t0) t0, pow_nonneg (sub_nonneg.2 t1) 2])
    unfold trueSignal lastTime at this
    rw [e1, walk_intervals] at this
    have e0 : max (walk 1).t0 (1 / 2) = 1 / 2 := by norm_num [walk]
    have ew : (walk 1).t0 = 0 ∧ (walk 1).t1 = 1 := ⟨rfl, rfl⟩
    have e2 : (0 : ℝ) + ((1 : Nat) : ℝ) * (1 / 2) = 1 / 2 := by norm_num
    rw [e0, e2, ew.1, ew.2, if_neg (by norm_num)] at this
    rw [show (List.replicate 10 (0 : ℝ)).getD 1 0 = 0 from rfl] at this
    simp only [one_mul, zero_add, abs_one] at this
    norm_num at this he ⊢
    linarith
  · have e2 : (0 : ℝ) + ((9 : Nat) : ℝ) * (1 / 2) = 9 / 2 := by norm_num
    have := b5 9 (by decide) (walk_covered 9 (by decide)) (by norm_num [walk]) 23 (by
      rw [e2]
      refine deriv2 (f := fun t => (9 / 2 - t) * (1 + 2 * t) + (9 / 2 - t) ^ 3 + 2 + t) (f1 := fun t => 9 - 4 * t - 3 * (9 / 2 - t) ^ 2) (f2 := fun t => 6 * (9 / 2 - t) - 4) (by norm_num [walk])
        (fun t ht => walk_induced _ ht.1 ht.2) (by fun_prop) (fun t => ?_) (fun t => ?_) (fun t ht => ?_)
      · have h1 := (hasDerivAt_id t).const_sub (9 / 2)
        have h2 := ((hasDerivAt_id t).const_mul 2).const_add 1
        refine ((((h1.mul h2).add (h1.pow 3)).add_const 2).add (hasDerivAt_id t)).congr_deriv ?_
        simp
        ring
      · have h1 := (hasDerivAt_id t).const_sub (9 / 2)
        refine ((((hasDerivAt_id t).const_mul 4).const_sub 9).sub ((h1.pow 2).const_mul 3)).congr_deriv ?_
        simp
        ring
      · have t0 : (0 : ℝ) ≤ t := ht.1
        have t1 : t ≤ 1 := ht.2
        rw [abs_le]; constructor <;> linarith)
    rw [e2, walk_intervals] at this
    have ew : (walk 1).t0 = 0 ∧ (walk 1).t1 = 1 := ⟨rfl, rfl⟩
    rw [ew.1, ew.2] at this
    rw [show (List.replicate 10 (0 : ℝ)).getD 9 0 = 0 from rfl] at this
    simp only [one_mul, zero_sub, abs_one] at this
    norm_num at this he ⊢
    linarith

end Verif.Green
