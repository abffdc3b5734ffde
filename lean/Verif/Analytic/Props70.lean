import Verif.Analytic.Props67
import Verif.Green.Symmetry
/-
The hypotheses of C70 and C71 can be met: concrete requests, and both classes for signals used with the Green's function of a dipole in ice (C67).
-/
set_option linter.unusedSectionVars false
namespace Verif.Analytic
open Verif Verif.ND Verif.Dist Verif.Tree Verif.Bytes Verif.Ops Verif.Green

/-- The coordinates of a Green's function do not depend on the depth of the cache with which it is loaded. -/
theorem load_meta {C : Cfg} {S : Sorter} {dir n n' : Nat} {d : Disk} {g g' : Lib} {gm gm' : GFMeta} (h : load C S dir n d = .ok (g, gm)) (h' : load C S dir n' d = .ok (g', gm')) : gm = gm' := by
  unfold load at h h'
  obtain ⟨_, _, h⟩ := Res.bind_eq_ok.1 h
  obtain ⟨_, _, h'⟩ := Res.bind_eq_ok.1 h'
  cases hg : d.green dir with
  | none => rw [hg] at h; cases h
  | some f =>
    rw [hg] at h h'
    obtain ⟨x, x1, h⟩ := Res.bind_eq_ok.1 h
    obtain ⟨y, y1, h'⟩ := Res.bind_eq_ok.1 h'
    rw [x1] at y1
    cases y1
    obtain ⟨_, _, h⟩ := Res.bind_eq_ok.1 h
    obtain ⟨_, _, h⟩ := Res.bind_eq_ok.1 h
    obtain ⟨_, _, h⟩ := Res.bind_eq_ok.1 h
    obtain ⟨_, _, h'⟩ := Res.bind_eq_ok.1 h'
    obtain ⟨_, _, h'⟩ := Res.bind_eq_ok.1 h'
    obtain ⟨_, _, h'⟩ := Res.bind_eq_ok.1 h'
    exact (congrArg Prod.snd (Res.ok.inj h)).symm.trans (congrArg Prod.snd (Res.ok.inj h'))

namespace Ex70

/-- A track parallel to the axis, at the distance 3/2, for which two integration intervals are used, and five samples. -/
noncomputable def req : TrackReq := ⟨⟨3 / 2, 0, 5 / 2⟩, ⟨3 / 2, 0, 9 / 2⟩, 0, 3 / 2, 1, 2, 1, 5, 1⟩

theorem int : intervals req.seg = 2 := by
  show ⌈(3 / 2 : ℝ) - 0⌉₊ = 2
  rw [Nat.ceil_eq_iff (by decide)]
  norm_num

theorem ok (A : Nat → Int → Int → Int → ℝ) {kn : Kern ℝ} (oob : OOB) : req.Ok ⟨0, 0, 0, 1, 1, 1⟩ kn A ⟨4, 7, 10, 3, 2, false⟩ oob := by
  have hx : ∀ p, GMeta.x ⟨0, 0, 0, 1, 1, 1⟩ (lineR req.seg p) = 3 / 2 := fun p => by
    have e1 : lineX req.seg p = 3 / 2 := by unfold lineX req TrackReq.seg; simp
    have e2 : lineY req.seg p = 0 := by unfold lineY req TrackReq.seg; simp
    unfold lineR GMeta.x
    rw [e1, e2, show (3 / 2 : ℝ) ^ 2 + 0 ^ 2 = (3 / 2) ^ 2 by ring, Real.sqrt_sq (by norm_num)]
    norm_num
  have hy : ∀ p, GMeta.y ⟨0, 0, 0, 1, 1, 1⟩ (lineZ req.seg p) = 5 / 2 + p := fun p => by
    show ((5 / 2 : ℝ) + (p : ℝ) / intervals req.seg * (9 / 2 - 5 / 2) - 0) / 1 = _
    rw [int]; push_cast; ring
  have hl : ∀ p, lineTime req.seg p = 3 / 4 * p := fun p => by
    show (0 : ℝ) + (p : ℝ) * ((3 / 2 - 0) / intervals req.seg) = _
    rw [int]; push_cast; ring
  have ht : ∀ p k, GMeta.t ⟨0, 0, 0, 1, 1, 1⟩ (delay req.seg req.tsig req.tsamp p k) = 2 + k - 3 / 4 * p := fun p k => by
    show ((2 : ℝ) + k * 1 - lineTime req.seg p - 0) / 1 = _
    rw [hl]; ring
  have hp' : ∀ p ≤ intervals req.seg, 0 ≤ (p : ℝ) ∧ (p : ℝ) ≤ 2 := fun p hp => ⟨Nat.cast_nonneg _, by rw [int] at hp; exact_mod_cast hp⟩
  have hk' : ∀ k : Nat, k < 5 → 0 ≤ (k : ℝ) ∧ (k : ℝ) ≤ 4 := fun k hk => ⟨Nat.cast_nonneg _, by exact_mod_cast (by omega : k ≤ 4)⟩
  refine ⟨by show (0 : ℝ) < 3 / 2; norm_num, one_pos, by show (3 / 2 : ℝ) - 0 < _; norm_num, by show (5 : Nat) < _; norm_num, fun p hp => ?_, ?_, fun p _ => by rw [hx]; norm_num, fun p hp => ?_,
    fun p k hp hk _ => ?_, fun p k _ _ _ => ⟨fun _ h => ?_, fun _ => .inl ?_⟩, fun _ _ _ _ _ _ _ h => (by cases h), fun _ p k hp hk _ => ?_, fun _ p k hp hk _ => ?_⟩
  · have := hp' p hp
    rw [hl]
    show _ < (_ - (2 : ℝ)) / 1 ∧ (_ - (2 : ℝ)) / 1 ≤ _
    constructor <;> linarith
  · show ((10 : Nat) + 1 : ℝ) / (1 / 1) < 2 ^ 62
    norm_num
  · have := hp' p hp
    rw [hy]
    constructor <;> linarith
  · have := hp' p hp
    have := hk' k hk
    rw [ht]
    constructor <;> linarith
  · rw [hx] at h
    have h1 := h.1
    have : ⌊(3 / 2 : ℝ)⌋ = 1 := by rw [Int.floor_eq_iff]; norm_num
    rw [this] at h1
    rcases h1 with h1 | h1
    · exact absurd h1 (by decide)
    · exact absurd h1 (by decide)
  · rw [hx]; norm_num
  · have := hp' p hp
    have := hk' k hk
    rw [hx, hy, ht]
    refine ⟨by norm_num, ⟨by linarith, ?_⟩, by linarith, ?_⟩
    · push_cast; linarith
    · push_cast; linarith
  · have := hp' p hp
    have := hk' k hk
    rw [ht]
    have h2 : (2 : ℝ) + k - 3 / 4 * p ≤ 6 := by linarith
    intro h3
    rw [h3] at h2
    norm_num at h2

/-- C71 applies to it: it can be turned, moved in time and cut in the middle. -/
example (A : Nat → Int → Int → Int → ℝ) (k : Nat) :
    (req.turn (3 / 5) (4 / 5) (-1)).Ok ⟨0, 0, 0, 1, 1, 1⟩ linear A ⟨4, 7, 10, 3, 2, false⟩ .ignore ∧ (req.later 100).Ok ⟨0, 0, 0, 1, 1, 1⟩ linear A ⟨4, 7, 10, 3, 2, false⟩ .ignore ∧
      req.adds ⟨0, 0, 0, 1, 1, 1⟩ linear A ⟨4, 7, 10, 3, 2, false⟩ 1 k =
        (req.before 1).adds ⟨0, 0, 0, 1, 1, 1⟩ linear A ⟨4, 7, 10, 3, 2, false⟩ 1 k + (req.after 1).adds ⟨0, 0, 0, 1, 1, 1⟩ linear A ⟨4, 7, 10, 3, 2, false⟩ 1 k :=
  ⟨(C71_axis (by norm_num) (by norm_num) (ok A .ignore)).1, (C71_time 100 (ok A .ignore)).1, (C71_cut (ok A .ignore) (by decide) (by rw [int]; decide)).2.2 1 k⟩

/-- A track for the Green's function of the dipole (C67). -/
noncomputable def dreq (a b : ℝ) : TrackReq := ⟨(Ex67.seg a b).p0, (Ex67.seg a b).p1, (Ex67.seg a b).t0, (Ex67.seg a b).t1, (Ex67.seg a b).charge, b / 2, b, 8, 1⟩

/-- C70 applies: a Green's function is calculated, loaded twice, and used for a track, for the same track on the other side of the axis, and the other way round; the signals are the same, twice that of one track. -/
example (d : Disk) (hd : ∀ e, e ≠ 0 → d.fs (e, .index) = none) (m : Scratch) : ∃ (a b : ℝ) (d' : Disk) (g1 g2 : Lib) (gm : GFMeta) (s1 s2 : Lib × FS) (out : List ℝ),
    electricDipole (dipCfg .little fun _ => 77) Tree.Ex.S realFns (fun x => (2 : ℝ) ^ x) (Ex67.enc a b) (fun k => [k]) (fun k => [k]) ⟨0, -a, 4 * a, 6 * a, 10 * b, 2, Ex65.ice, 3⟩ 0 1 d = .ok d' ∧
    load (dipCfg .little fun _ => 77) Tree.Ex.S 0 5 d' = .ok (g1, gm) ∧ load (dipCfg .little fun _ => 77) Tree.Ex.S 0 1 d' = .ok (g2, gm) ∧
    runCalls (accumulateSignal (libOf (readerCfg (dipCfg .little fun _ => 77) 5) (Ex67.val a b)) (Ex67.G a b) id) [(dreq a b, m), ((dreq a b).turn (-1) 0 1, m)] (List.replicate 8 0) (g1, d'.fs) = .ok (s1, out) ∧
    runCalls (accumulateSignal (libOf (readerCfg (dipCfg .little fun _ => 77) 1) (Ex67.val a b)) (Ex67.G a b) id) [((dreq a b).turn (-1) 0 1, m), (dreq a b, m)] (List.replicate 8 0) (g2, d'.fs) = .ok (s2, out) ∧
    ∀ k, out.getD k 0 = 2 * (dreq a b).adds (Ex67.G a b) (keys (Real.sqrt 7)) (gridField realFns ⟨0, -a, 4 * a, 6 * a, 10 * b, 2, Ex65.ice, 3⟩ (Ex67.enc a b) (Ex67.val a b) 4 7 10 a a b)
      ⟨4, 7, 10, 3, 2, false⟩ 1 k := by
  obtain ⟨a, b, ha, hb, h⟩ := Ex67.ok
  obtain ⟨d', nr, nz, nt, sr, sz, st, e1, r2, z2, t2, e2⟩ := C67_dipole_signal_partial (hst := .little) (junk := fun _ => 77) (fun _ => by decide) Tree.Ex.S Tree.Ex.Z realFns (fun x => (2 : ℝ) ^ x) (Ex67.enc a b)
    (Ex67.enc_lt a b) Ex63.names Ex63.names ⟨0, -a, 4 * a, 6 * a, 10 * b, 2, Ex65.ice, 3⟩ (dir := 0) (tmp := 1) (by decide) d hd h (val := Ex67.val a b) (fun x hx => by
      rcases hx with rfl | rfl <;> rfl) (kn := keys (Real.sqrt 7)) .keys
  obtain ⟨rfl, e4⟩ := Ex67.divides (N := 4) ha (by decide) (by simp only; norm_num) r2
  obtain ⟨rfl, e5⟩ := Ex67.divides (N := 7) ha (by decide) (by simp only; norm_num; ring) z2
  obtain ⟨rfl, e6⟩ := Ex67.divides (N := 10) hb (by decide) (by simp only; norm_num) t2
  rw [e4, e5, e6] at e2
  have hb' : 0 < Ex67.val a b (Ex67.enc a b (some b)) := by rw [Ex67.val_enc _ (by tauto)]; exact hb
  obtain ⟨g1, gm, I1, f1, f2, f3, f4⟩ := e2 hb' 5
  obtain ⟨g2, gm2, I2, k1, k2, k3, k4⟩ := e2 hb' 1
  have hG : (⟨Ex67.val a b (Ex67.enc a b (some 0)), Ex67.val a b (Ex67.enc a b (some (-a))), Ex67.val a b (Ex67.enc a b (some 0)), Ex67.val a b (Ex67.enc a b (some a)), Ex67.val a b (Ex67.enc a b (some a)),
      Ex67.val a b (Ex67.enc a b (some b))⟩ : GMeta ℝ) = Ex67.G a b := by
    rw [Ex67.val_enc _ (by tauto), Ex67.val_enc _ (by tauto), Ex67.val_enc _ (by tauto), Ex67.val_enc _ (by tauto)]
    rfl
  rw [f2.trans hG] at f4
  rw [k2.trans hG] at k4
  have hgm : gm2 = gm := load_meta k1 f1
  subst hgm
  have hq : (dreq a b).Ok (Ex67.G a b) (keys (Real.sqrt 7)) (gridField realFns ⟨0, -a, 4 * a, 6 * a, 10 * b, 2, Ex65.ice, 3⟩ (Ex67.enc a b) (Ex67.val a b) 4 7 10 a a b) ⟨4, 7, 10, 3, 2, false⟩ .raise :=
    Ex67.signalOk _ ha hb
  obtain ⟨ht, ht'⟩ := C71_axis (q := dreq a b) (c := -1) (s := 0) (m := 1) (by norm_num) (by norm_num) hq
  have hall : ∀ q ∈ [(dreq a b, m), ((dreq a b).turn (-1) 0 1, m)], q.1.Ok (Ex67.G a b) (keys (Real.sqrt 7)) _ ⟨4, 7, 10, 3, 2, false⟩ .raise ∧ q.1.n ≤ (List.replicate 8 (0 : ℝ)).length := fun q hm => by
    rcases List.mem_cons.1 hm with rfl | hm
    · exact ⟨hq, by simp [dreq]⟩
    · rw [List.mem_singleton.1 hm]; exact ⟨ht, by simp [dreq, TrackReq.turn]⟩
  obtain ⟨s1, s2, out, c1, c2⟩ := C70_order f4 k4 rfl rfl [(dreq a b, m), ((dreq a b).turn (-1) 0 1, m)] [((dreq a b).turn (-1) 0 1, m), (dreq a b, m)] (List.Perm.swap _ _ _) (List.replicate 8 0) (g1, d'.fs) f3
    (g2, d'.fs) k3 hall (grow := id) (grow' := id)
  obtain ⟨s3, o3, c3, _, _, c4⟩ := C70_superposition f4 rfl [(dreq a b, m), ((dreq a b).turn (-1) 0 1, m)] (List.replicate 8 0) (g1, d'.fs) f3 hall (grow := id)
  rw [c1] at c3
  cases c3
  refine ⟨a, b, d', g1, g2, gm2, s1, s2, out, e1, f1, k1, c1, c2, fun k => ?_⟩
  rw [c4]
  have : (List.replicate 8 (0 : ℝ)).getD k 0 = 0 := by
    rw [List.getD_eq_getElem?_getD, List.getElem?_replicate]; split <;> rfl
  rw [this]
  simp only [List.map_cons, List.map_nil, List.sum_cons, List.sum_nil]
  rw [ht']; ring

end Ex70

end Verif.Analytic
