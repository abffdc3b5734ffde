import Verif.Shower.Signal
import Verif.Green.Props88
/-
C94: the signal of a shower is that of its charge excess along its axis, up to an error that is proportional to the steps.
-/
namespace Verif.Shower
open Verif Set
open Verif.Green (GMeta Grid Kern Library Scratch TrackReq accumulateSignal runCalls keys Answers Accuracy GoodField Region TrackCovered SignalOk induced lineSignal interpErr)

variable {σ : Type} {L : Library σ ℝ} {I : σ → Prop} {G : GMeta ℝ} {A : Nat → Int → Int → Int → ℝ} {F : Nat → ℝ → ℝ → ℝ → ℝ} {g : Grid} {B : Region} {d : Nat} {E N δ : ℝ} {Mr Mz Mt : Nat → ℝ}
  {w : Course ℝ}

/-! ### Proof -/

theorem sum_range_list (f : Nat → ℝ) (n : Nat) : ((List.range n).map f).sum = ∑ j ∈ Finset.range n, f j := by
  induction n with
  | zero => simp
  | succ n ih => rw [List.range_succ, List.map_append, List.sum_append, ih, Finset.sum_range_succ]; simp

theorem calls_mem {sgs : List (Segment ℝ)} {tsig tsamp : ℝ} {n : Nat} {m : Nat → Scratch} {a : TrackReq × Scratch} (h : a ∈ calls sgs tsig tsamp n m) : ∃ sg ∈ sgs, a.1 = sg.req tsig tsamp n := by
  unfold calls at h
  obtain ⟨⟨sg, i⟩, h1, rfl⟩ := List.mem_map.1 h
  exact ⟨sg, List.fst_mem_of_mem_zipIdx h1, rfl⟩

theorem calls_sum (sgs : List (Segment ℝ)) (tsig tsamp : ℝ) (n : Nat) (m : Nat → Scratch) (f : TrackReq → ℝ) : ((calls sgs tsig tsamp n m).map fun q => f q.1) = sgs.map fun sg => f (sg.req tsig tsamp n) := by
  unfold calls
  rw [List.map_map]
  conv_rhs => rw [← List.zipIdx_map_fst 0 sgs, List.map_map]
  rfl

/-- The calls for all tracks of the shower. -/
theorem shower_ok (hA : Answers L I G (keys (Real.sqrt 7)) A g) {grow : ℝ → ℝ} (hg : grow 0 = 0) {tsig tsamp : ℝ} {n : Nat} (m : Nat → Scratch) {out : List ℝ} (hn : n ≤ out.length) {s : σ} (hs : I s)
    (sgs : List (Segment ℝ)) (hok : ∀ sg ∈ sgs, (sg.req tsig tsamp n).Ok G (keys (Real.sqrt 7)) A g .raise) :
    ∃ s' out', runCalls (accumulateSignal L G grow) (calls sgs tsig tsamp n m) out s = .ok (s', out') ∧ I s' ∧ out'.length = out.length ∧
      ∀ k, out'.getD k 0 = out.getD k 0 + (sgs.map fun sg => if k < n then lineSignal G (keys (Real.sqrt 7)) A g (sg.req tsig tsamp n).seg tsig tsamp 1 k else 0).sum := by
  obtain ⟨s', out', e1, e2, e3, e4⟩ := Green.C70_superposition hA hg (calls sgs tsig tsamp n m) out s hs fun a ha => by
    obtain ⟨sg, h1, h2⟩ := calls_mem ha
    rw [h2]
    exact ⟨hok sg h1, hn⟩
  refine ⟨s', out', e1, e2, e3, fun k => ?_⟩
  rw [e4, calls_sum sgs tsig tsamp n m fun q => q.adds G (keys (Real.sqrt 7)) A g 1 k]
  rfl

theorem shower_pieces {ρ mx dt : ℝ} (hw : w.Ok ρ mx) {Q Λ c0 : ℝ} (hp : w.profile.Ok Q Λ) (hc0 : w.profile.charge[0]? = some c0) (hdt : 0 < dt) {fuel : Nat} (hf : w.Fits ρ mx dt fuel) {q : ℝ → ℝ}
    (hq : IsCharge w ρ (mx / (ρ * w.c)) q) :
    ∃ (n : Nat) (sgs : List (Segment ℝ)), tracksOf (exact' ℝ) fuel w dt = .ok sgs ∧ n * dt ≤ mx / (ρ * w.c) ∧ mx / (ρ * w.c) ≤ (n + 1) * dt ∧
      ∀ (tsig tsamp : ℝ) (nn : Nat) (f : Green.Segment ℝ → ℝ), (sgs.map fun sg => f (sg.req tsig tsamp nn).seg).sum = ∑ j ∈ Finset.range n, f (w.piece dt j (stepCharge c0 q dt j)) := by
  obtain ⟨n, sgs, ce, a1, a2, a3, a4, a5, a6, a7⟩ := tracks_pieces hw hp hdt hf hq
  refine ⟨n, sgs, a1, a3.le, a4, fun tsig tsamp nn f => ?_⟩
  rw [← sum_range_list]
  congr 1
  refine List.ext_getElem (by simp [a2]) fun i h1 h2 => ?_
  rw [List.getElem_map, List.getElem_map, List.getElem_range]
  have hi : i < n := by simpa using h2
  rw [a5 i hi _ (List.getElem?_eq_getElem (by omega)) tsig tsamp nn]
  congr 2
  unfold stepCharge
  split
  · next hz =>
    subst hz
    rcases a6 with a6 | a6
    · rw [hc0] at a6; exact (Option.some.inj a6).symm
    · omega
  · next hz => exact a7 i (by omega) hi

/-! ### C94 -/

/-- **C94.** A shower with the profile of its charge excess (entries of at most `Q`, slopes of at most `Λ`) in ice of the density `ρ`: it ends after the time `T = max / (ρ c)`, and `q t` is its charge at
    time `t`. The tracks that `fill_tracks` makes with the step `dt`, given to `AccumulateSignal` one after the other, add to each sample of the signal minus the integral along the axis of charge
    times field, up to: the error of the interpolated field (C87), and the step times a constant. This constant contains the change of the field along the axis (at most `K`), the largest field
    (`b`), the change of the charge in time, and the charge of the first track, which is taken from the profile without the scaling. Samples behind those requested are not changed. -/
theorem C94_signal (hA : Answers L I G (keys (Real.sqrt 7)) A g) (h : Accuracy (keys (Real.sqrt 7)) d E N) (hG : 0 < G.dr ∧ 0 < G.dz ∧ 0 < G.dt) (hF : GoodField G d F A B δ Mr Mz Mt) {grow : ℝ → ℝ}
    (hg : grow 0 = 0) {ρ mx dt : ℝ} (hw : w.Ok ρ mx) {Q Λ c0 : ℝ} (hp : w.profile.Ok Q Λ) (hc0 : w.profile.charge[0]? = some c0) (hdt : 0 < dt) {fuel : Nat} (hf : w.Fits ρ mx dt fuel) {q : ℝ → ℝ}
    {T : ℝ} (hT : T = mx / (ρ * w.c)) (hq : IsCharge w ρ T q) {tsig tsamp : ℝ} {n : Nat} (m : Nat → Scratch) {out : List ℝ} (hn : n ≤ out.length) {s : σ} (hs : I s)
    (hok : ∀ sgs, tracksOf (exact' ℝ) fuel w dt = .ok sgs → ∀ sg ∈ sgs, (sg.req tsig tsamp n).Ok G (keys (Real.sqrt 7)) A g .raise) :
    ∃ s' out', showerSignal L G grow fuel w dt tsig tsamp n m out s = .ok (s', out') ∧ I s' ∧ out'.length = out.length ∧ (∀ k, n ≤ k → out'.getD k 0 = out.getD k 0) ∧
      ∀ k < n, ∀ τ, τ = tsig + k * tsamp → TrackCovered G (keys (Real.sqrt 7)) g B (w.axis T) τ → ∀ (K : NNReal) (b : ℝ), 0 ≤ b → LipschitzOnWith K (induced F (w.axis T) τ) (Icc 0 (min T τ)) →
        (∀ t ∈ Icc 0 (min T τ), |induced F (w.axis T) τ t| ≤ b) →
        |out'.getD k 0 - (out.getD k 0 + axisSignal F w T q τ)| ≤
          T * (Q * max 1 |w.scaling|) * (interpErr G d E N (Mr 0) (Mz 0) (Mt 0) δ + interpErr G d E N (Mr 1) (Mz 1) (Mt 1) δ) +
            dt * (Q * max 1 |w.scaling| * (K * T + b) / 2 + Λ * (ρ * w.c) * |w.scaling| * T * b + |c0 - q 0| * b + Q * max 1 |w.scaling| * b) := by
  obtain ⟨j, sgs, a1, a2, a3, a4⟩ := shower_pieces hw hp hc0 hdt hf (by rw [← hT]; exact hq)
  obtain ⟨s', out', b1, b2, b3, b4⟩ := shower_ok hA hg m hn hs sgs (hok sgs a1)
  have hpos : 0 < ρ * w.c := mul_pos hw.dense hw.light
  have hT0 : 0 < T := by rw [hT]; exact div_pos hw.pos hpos
  have hcQ : |c0| ≤ Q := hp.bound _ (List.mem_of_getElem? hc0)
  have hQ : 0 ≤ Q := (abs_nonneg _).trans hcQ
  refine ⟨s', out', ?_, b2, b3, fun k hk => ?_, fun k hk τ hτ hc K b hb hK hB => ?_⟩
  · unfold showerSignal
    rw [a1]
    exact b1
  · rw [b4]
    simp [Nat.not_lt.2 hk]
  · rw [b4, a4 tsig tsamp n fun seg => if k < n then lineSignal G (keys (Real.sqrt 7)) A g seg tsig tsamp 1 k else 0]
    simp only [if_pos hk]
    rw [add_sub_add_left_eq_sub]
    exact pieces_near hw h hG hF hdt hT0 (by rw [hT]; exact a2) (by rw [hT]; exact a3) hτ hc hb (hcQ.trans (le_mul_of_one_le_right hQ (le_max_left _ _)))
      (fun t ht => (hq.bound hp ht).trans (mul_le_mul_of_nonneg_left (le_max_right _ _) hQ)) (mul_nonneg (mul_nonneg hp.pos hpos.le) (abs_nonneg _))
      (fun x hx y hy => hq.lip hp hw.same hw.dense hw.light hx hy) hK hB

/-- **C94.** Every shower whose profile has increasing grammages has a charge at each time, and only one. At time 0 it is the scaled first entry, if the profile does not begin before the vertex. -/
theorem C94_charge {ρ mx : ℝ} (hw : w.Ok ρ mx) {Q Λ : ℝ} (hp : w.profile.Ok Q Λ) : (∃ q, IsCharge w ρ (mx / (ρ * w.c)) q) ∧
    ∀ q, IsCharge w ρ (mx / (ρ * w.c)) q → (∀ q', IsCharge w ρ (mx / (ρ * w.c)) q' → EqOn q q' (Icc 0 (mx / (ρ * w.c)))) ∧
      ∀ g0 c0, w.profile.grammage[0]? = some g0 → w.profile.charge[0]? = some c0 → 0 ≤ g0 → q 0 = c0 * w.scaling := by
  refine ⟨charge_exists hw, fun q hq => ⟨fun q' hq' t ht => ?_, fun g0 c0 h1 h2 h3 => ?_⟩⟩
  · obtain ⟨v, e1, e2⟩ := hq t ht
    obtain ⟨v', e1', e2'⟩ := hq' t ht
    rw [e2, e2', e1.unique hp hw.same e1']
  · obtain ⟨v, e1, e2⟩ := hq 0 ⟨le_rfl, (div_pos hw.pos (mul_pos hw.dense hw.light)).le⟩
    rw [e2, e1.unique hp hw.same (v' := c0) (.inl ⟨g0, c0, h1, h2, by rw [mul_zero, mul_zero]; exact h3, rfl⟩)]

/-- **C94.** The example program for showers accumulates the signal of all tracks twice: what it writes is twice the signal of the shower. -/
theorem C94_example_doubled (hA : Answers L I G (keys (Real.sqrt 7)) A g) {grow : ℝ → ℝ} (hg : grow 0 = 0) {fuel : Nat} {dt tsig tsamp : ℝ} {n : Nat} (m : Nat → Nat → Scratch) (m' : Nat → Scratch) {s : σ} (hs : I s)
    {sgs : List (Segment ℝ)} (ht : tracksOf (exact' ℝ) fuel w dt = .ok sgs) (hok : ∀ sg ∈ sgs, (sg.req tsig tsamp n).Ok G (keys (Real.sqrt 7)) A g .raise) :
    ∃ s1 s2 once written, showerSignal L G grow fuel w dt tsig tsamp n m' (List.replicate n 0) s = .ok (s1, once) ∧ exampleSignal L G grow fuel w dt tsig tsamp n m s = .ok (s2, written) ∧
      written = once.map (2 * ·) := by
  obtain ⟨s1, once, a1, a2, a3, a4⟩ := shower_ok hA hg m' (out := List.replicate n 0) (by simp) hs sgs hok
  obtain ⟨s2, o2, b1, b2, b3, b4⟩ := shower_ok hA hg (m 0) (out := List.replicate n 0) (by simp) hs sgs hok
  obtain ⟨s3, o3, c1, c2, c3, c4⟩ := shower_ok hA hg (m 1) (out := o2) (by rw [b3]; simp) b2 sgs hok
  refine ⟨s1, s3, once, o3, by unfold showerSignal; rw [ht]; exact a1, ?_, ?_⟩
  · unfold exampleSignal
    rw [ht, Res.ok_bind, b1, Res.ok_bind]
    exact c1
  · refine Green.list_ext (by rw [List.length_map, c3, b3, a3]) fun k => ?_
    have z : (List.replicate n (0 : ℝ)).getD k 0 = 0 := by rw [List.getD_eq_getElem?_getD, List.getElem?_replicate]; split <;> rfl
    have e : (once.map (2 * ·)).getD k 0 = 2 * once.getD k 0 := by
      rw [List.getD_eq_getElem?_getD, List.getD_eq_getElem?_getD, List.getElem?_map]
      cases once[k]? <;> simp
    rw [e, c4, b4, a4, z]
    ring

/-! ### The hypotheses can be met -/

namespace Ex94
open Verif.Green (unitG roomBox exF roomLib roomData roomField roomAnswers exGood atX atY atZ atR intervals lineTime delay)

/-- A shower upwards, parallel to the axis of the cylinder. -/
noncomputable def up : Course ℝ := ⟨⟨1, 0, 2⟩, 0, 1, 0, 1, 1, fun _ => 1, ⟨[0, 1 / 2, 1], [1, 3, 2]⟩, 2⟩

theorem up_ok : up.Ok 1 1 where
  zen := by norm_num [up]
  azi := by norm_num [up]
  light := by norm_num [up]
  same := rfl
  last := rfl
  pos := one_pos
  dense := one_pos
  ice _ := rfl

theorem profile_ok : up.profile.Ok 3 4 where
  sorted := by
    show List.Pairwise (· < ·) [(0 : ℝ), 1 / 2, 1]
    simp
    norm_num
  bound c hc := by
    have : c = 1 ∨ c = 3 ∨ c = 2 := by simpa [up] using hc
    rcases this with rfl | rfl | rfl <;> norm_num
  slope i g0 g1 c0 c1 h1 h2 h3 h4 := by
    match i with
    | 0 => simp [up] at h1 h2 h3 h4; subst h1 h2 h3 h4; norm_num
    | 1 => simp [up] at h1 h2 h3 h4; subst h1 h2 h3 h4; norm_num
    | i + 2 => simp [up] at h2
  pos := by norm_num

theorem up_at (t : ℝ) : up.start.x / up.c + t * (up.sinZ * up.cosA) = 1 ∧ up.start.y / up.c + t * (up.sinZ * up.sinA) = 0 ∧ up.start.z / up.c + t * up.cosZ = 2 + t := by norm_num [up]

theorem axis_pos (t : ℝ) : atR (up.axis 1) t = 1 ∧ atZ (up.axis 1) t = 2 + t := by
  obtain ⟨a1, a2, a3⟩ := axis_at (w := up) one_ne_zero t
  obtain ⟨b1, b2, b3⟩ := up_at t
  unfold atR
  rw [a1, a2, a3, b1, b2, b3]
  norm_num

theorem piece_pos {dt e : ℝ} (hdt : 0 < dt) (k : Nat) (t : ℝ) : atR (up.piece dt k e) t = 1 ∧ atZ (up.piece dt k e) t = 2 + t := by
  obtain ⟨a1, a2, a3⟩ := piece_at (w := up) (k := k) (e := e) hdt.ne' t
  obtain ⟨b1, b2, b3⟩ := up_at t
  unfold atR
  rw [a1, a2, a3, b1, b2, b3]
  norm_num

theorem up_induced (τ t : ℝ) : induced exF (up.axis 1) τ t = (τ - t) ^ 3 + (2 + t) := by
  obtain ⟨a1, a2⟩ := axis_pos t
  obtain ⟨v1, v2, v3⟩ := axis_vel (w := up) (T := 1) one_ne_zero
  unfold induced
  rw [a1, a2, v1, v2, v3]
  norm_num [up, exF, Course.axis]

theorem piece_line {dt e : ℝ} (hdt : 0 < dt) (hdt1 : dt ≤ 1) {j p : Nat} (hj : (j + 1) * dt ≤ 1) (hp : p ≤ intervals (up.piece dt j e)) :
    ∃ t : ℝ, 0 ≤ t ∧ t ≤ 1 ∧ lineTime (up.piece dt j e) p = t ∧ Green.lineR (up.piece dt j e) p = 1 ∧ Green.lineZ (up.piece dt j e) p = 2 + t := by
  have hi : intervals (up.piece dt j e) = 1 := by
    unfold intervals Course.piece
    rw [Nat.ceil_eq_iff one_ne_zero]
    norm_num
    constructor <;> linarith
  rw [hi] at hp
  have hp' : (p : ℝ) ≤ 1 := by exact_mod_cast hp
  have hj0 : 0 ≤ (j : ℝ) * dt := by positivity
  have hp0 : 0 ≤ (p : ℝ) * dt := by positivity
  obtain ⟨-, -, e3, e4⟩ := Green.line_pos (seg := up.piece dt j e) (by show (j : ℝ) * dt < (j + 1) * dt; linarith) p
  obtain ⟨f1, f2⟩ := piece_pos (e := e) hdt j (lineTime (up.piece dt j e) p)
  have ht : lineTime (up.piece dt j e) p = j * dt + p * dt := by
    unfold lineTime
    rw [hi]
    show (j : ℝ) * dt + p * ((((j : ℝ) + 1) * dt - j * dt) / (1 : Nat)) = _
    rw [Nat.cast_one]
    ring
  rw [f1] at e4
  rw [f2] at e3
  exact ⟨_, by rw [ht]; linarith, by rw [ht]; nlinarith, rfl, e4.symm, e3.symm⟩

theorem piece_signal (A : Nat → Int → Int → Int → ℝ) {dt e : ℝ} (hdt : 0 < dt) (hdt1 : dt ≤ 1) {j : Nat} (hj : (j + 1) * dt ≤ 1) :
    SignalOk unitG (keys (Real.sqrt 7)) A ⟨7, 7, 63, 64, 3, false⟩ (up.piece dt j e) 0 (1 / 2) 10 .raise := by
  have gx : ∀ r, unitG.x r = r := fun r => by unfold GMeta.x unitG; norm_num
  have gy : ∀ r, unitG.y r = r := fun r => by unfold GMeta.y unitG; norm_num
  have gt : ∀ r, unitG.t r = r := fun r => by unfold GMeta.t unitG; norm_num
  have del : ∀ {p k : Nat} {t : ℝ}, lineTime (up.piece dt j e) p = t → delay (up.piece dt j e) 0 (1 / 2) p k = k / 2 - t := fun {p k t} h => by unfold delay; rw [h]; ring
  have kl : ∀ {k : Nat}, k < 10 → (k : ℝ) ≤ 9 := fun {k} h => by exact_mod_cast Nat.lt_succ_iff.1 h
  have sup : (keys (Real.sqrt 7)).support = 2 := rfl
  have hlt : (j : ℝ) * dt < (j + 1) * dt := by linarith
  have hlen : ((j : ℝ) + 1) * dt - j * dt = dt := by ring
  refine ⟨hlt, by norm_num, by show ((j : ℝ) + 1) * dt - j * dt < _; rw [hlen]; norm_num; linarith, by norm_num, fun p hp => ?_, by norm_num [unitG], fun p hp => ?_, fun p hp => ?_, fun p k hp hk hd => ?_,
    fun p k hp hk hd => ?_, fun p j k hp _ _ _ hn => (by cases hn), fun _ p k hp hk hd => ?_, fun h => (by cases h)⟩
  all_goals obtain ⟨t, t0, t1, l1, l2, l3⟩ := piece_line hdt hdt1 hj hp
  · rw [l1]; constructor <;> norm_num <;> linarith
  · rw [gx, l2]; constructor <;> norm_num
  · rw [gy, l3]; constructor <;> norm_num <;> linarith
  · have := kl hk
    rw [gt, del l1] at *
    exact ⟨hd, by norm_num; linarith⟩
  · refine ⟨fun h => (by rw [sup] at h; cases h), fun _ => Or.inl ?_⟩
    rw [gx, l2]
  · have h2 := kl hk
    rw [del l1] at hd
    rw [gx, gy, gt, del l1, l2, l3]
    refine ⟨⟨by norm_num, ?_⟩, ⟨by linarith, ?_⟩, hd, ?_⟩ <;> norm_num <;> linarith

theorem up_covered {τ : ℝ} (hτ : τ ≤ 9 / 2) : TrackCovered unitG (keys (Real.sqrt 7)) ⟨7, 7, 63, 64, 3, false⟩ roomBox (up.axis 1) τ := by
  intro t ht
  have t0 : (0 : ℝ) ≤ t := ht.1
  have t1 : t ≤ 1 := ht.2.trans (min_le_left _ _)
  have t2 : t ≤ τ := ht.2.trans (min_le_right _ _)
  rw [(axis_pos t).1, (axis_pos t).2]
  constructor
  · unfold GMeta.x GMeta.y GMeta.t unitG
    refine ⟨⟨?_, ?_⟩, ⟨?_, ?_⟩, ?_, ?_⟩ <;> norm_num <;> linarith
  · refine ⟨Green.axisIn_of_margin (by norm_num [unitG]) ?_, Green.axisIn_of_margin (by norm_num [unitG]) ?_, Green.axisIn_of_margin (by norm_num [unitG]) ?_⟩ <;> norm_num [unitG, roomBox, keys] <;>
      (try constructor) <;> linarith

theorem up_fits {dt : ℝ} {fuel : Nat} (hdt : 1 / dt + 1 < 2 ^ 31 ∧ 1 / dt + 1 < fuel) : up.Fits 1 1 dt fuel := by
  unfold Course.Fits
  have : up.c = 1 := rfl
  rw [this, mul_one, one_mul]
  exact hdt

theorem up_tracks (A : Nat → Int → Int → Int → ℝ) {dt : ℝ} (hdt : 0 < dt) (hdt1 : dt ≤ 1) {fuel : Nat} (hf : 1 / dt + 1 < 2 ^ 31 ∧ 1 / dt + 1 < fuel) :
    ∀ sgs, tracksOf (exact' ℝ) fuel up dt = .ok sgs → ∀ sg ∈ sgs, (sg.req 0 (1 / 2) 10).Ok unitG (keys (Real.sqrt 7)) A ⟨7, 7, 63, 64, 3, false⟩ .raise := by
  intro sgs hs sg hm
  obtain ⟨q, hq⟩ := charge_exists up_ok
  obtain ⟨n, sgs', ce, a1, a2, a3, _, a5, _⟩ := tracks_pieces up_ok profile_ok hdt (up_fits hf) hq
  rw [hs] at a1
  obtain rfl := Res.ok.inj a1
  obtain ⟨k, hk, rfl⟩ := List.getElem_of_mem hm
  have := a5 k (by omega) _ (List.getElem?_eq_getElem hk) 0 (1 / 2) 10
  unfold TrackReq.Ok
  rw [this]
  refine piece_signal A hdt hdt1 ?_
  have h1 : (k : ℝ) + 1 ≤ n := by exact_mod_cast (by omega : k + 1 ≤ n)
  have h2 : (1 : ℝ) / (1 * up.c) = 1 := by norm_num [up]
  rw [h2] at a3
  nlinarith

/-- C94 with any step: sample 9, at time 4.5. -/
example {dt : ℝ} (hdt : 0 < dt) (hdt1 : dt ≤ 1) {fuel : Nat} (hf : 1 / dt + 1 < 2 ^ 31 ∧ 1 / dt + 1 < fuel) (m : Nat → Scratch) :
    ∃ q out', IsCharge up 1 1 q ∧ showerSignal (roomLib (roomData exF)) unitG id fuel up dt 0 (1 / 2) 10 m (List.replicate 10 0) () = .ok ((), out') ∧
      |out'.getD 9 0 - axisSignal exF up 1 q (9 / 2)| ≤ 6 + 2000 * dt := by
  have hT : (1 : ℝ) = 1 / (1 * up.c) := by norm_num [up]
  obtain ⟨⟨q, hq⟩, hu⟩ := C94_charge up_ok profile_ok
  have hq0 := (hu q hq).2 0 1 rfl rfl le_rfl
  rw [← hT] at hq
  obtain ⟨⟨⟩, out', a1, -, -, -, a2⟩ := C94_signal (roomAnswers exF) .keys3 (by norm_num [unitG]) exGood (grow := id) rfl up_ok profile_ok (c0 := 1) rfl hdt (up_fits hf) hT hq (tsig := 0) (tsamp := 1 / 2) (n := 10) m
    (out := List.replicate 10 0) (by simp) (s := ()) trivial (up_tracks _ hdt hdt1 hf)
  refine ⟨q, out', hq, a1, ?_⟩
  have e1 : min (1 : ℝ) (9 / 2) = 1 := by norm_num
  have := a2 9 (by decide) (9 / 2) (by norm_num) (up_covered le_rfl) 61 95 (by norm_num) (by
      rw [e1]
      refine LipschitzOnWith.of_dist_le_mul fun x hx y hy => ?_
      rw [up_induced, up_induced, Real.dist_eq, Real.dist_eq]
      have h : (9 / 2 - x) ^ 3 + (2 + x) - ((9 / 2 - y) ^ 3 + (2 + y)) = (1 - ((9 / 2 - x) ^ 2 + (9 / 2 - x) * (9 / 2 - y) + (9 / 2 - y) ^ 2)) * (x - y) := by ring
      rw [h, abs_mul]
      refine mul_le_mul_of_nonneg_right (abs_le.2 ⟨?_, ?_⟩) (abs_nonneg _)
      · push_cast
        nlinarith [hx.1, hx.2, hy.1, hy.2]
      · push_cast
        nlinarith [hx.1, hx.2, hy.1, hy.2]) (by
      rw [e1]
      intro t ht
      rw [up_induced, abs_le]
      obtain ⟨t0, t1⟩ := ht
      have hpos : 0 ≤ 9 / 2 - t := by linarith
      have h3 : (9 / 2 - t) ^ 3 ≤ (9 / 2) ^ 3 := pow_le_pow_left₀ hpos (by linarith) 3
      constructor
      · have := pow_nonneg hpos 3
        linarith
      · norm_num at h3 ⊢
        linarith)
  refine (le_of_eq ?_).trans (this.trans ?_)
  · congr 1
    simp
  · rw [hq0]
    have s : up.scaling = 2 := rfl
    have c : up.c = 1 := rfl
    unfold interpErr
    rw [s, c]
    norm_num [unitG]
    nlinarith

end Ex94

end Verif.Shower
