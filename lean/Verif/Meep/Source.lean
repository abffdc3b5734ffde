import Verif.Meep.Props58
/-
Model of what the simulation with MEEP is given: the medium and its coordinates (Geometry.hxx 57-66), the antenna (core/Antenna.hh, core/impl/Antenna.hxx), the scale of its current
(MEEPCylindricalGreensFunctionCalculator.hxx 472-481), and the interface for CORSIKA (/repo/extern/corsika/impl/C8GreensFunctionCalculator.hxx, C8SignalCalculator.hxx 18-21).

C74: the medium and the antenna are where the user put them.
-/
set_option linter.unusedSectionVars false
namespace Verif.Meep
open Verif Verif.Analytic

variable {K : Type} [Field K] [LinearOrder K] [IsStrictOrderedRing K] [FloorRing K]

/-! ### The program -/

/-- Geometry.hxx 62-64 `toEisvogelCoords`: MEEP counts the height from the lower end of the geometry. A position is a pair (r, z). -/
def Geometry.toEisvogel (g : Geometry K) (p : K × K) : K × K := (p.1, p.2 + g.zMin)

/-- Geometry.hxx 65-67 `toMeepCoords`. -/
def Geometry.toMeep (g : Geometry K) (p : K × K) : K × K := (p.1, p.2 - g.zMin)

/-- Geometry.hxx 57-60 `eps`, which MEEP calls for its own coordinates; `f` is the function of the user. -/
def Geometry.eps (g : Geometry K) (f : K → K → K) (pos : K × K) : K := f (g.toEisvogel pos).1 (g.toEisvogel pos).2

/-- Antenna.hh 7-33. -/
structure Antenna (K : Type) where
  start : K
  stop : K
  z : K
  scale : K
  response : K → K

/-- Antenna.hxx 3-12: the constructor. -/
def mkAntenna (start stop z : K) (response : K → K) : Antenna K := ⟨start, stop, z, 1, response⟩

/-- Antenna.hxx 18-26 `current`: what MEEP asks for at each time. `rnd` is the conversion of a time to `float`. -/
def Antenna.current (rnd : K → K) (A : Antenna K) (t : K) : K := if rnd t ≥ A.start ∧ rnd t ≤ A.stop then A.scale * A.response t * (-1) else 0

/-- Antenna.hxx 38-46 `AddToGeometry`: the position of the point source, in the coordinates of MEEP, if the cells have size `1 / a`. -/
def Antenna.position (A : Antenna K) (g : Geometry K) (a : K) : K × K := g.toMeep (3 / 2 / a, A.z)

/-- What the simulation is set up with. -/
structure Simulation (K : Type) where
  eps : K × K → K
  source : K × K
  current : K → K

/-- MEEPCylindricalGreensFunctionCalculator.hxx 470-483: medium and source of the simulation. `magic` is the number 0.11 of line 474. -/
def setup (rnd : K → K) (magic : K) (g : Geometry K) (f : K → K → K) (A : Antenna K) (res : K) : Simulation K :=
  let B : Antenna K := { A with scale := res * magic }
  ⟨g.eps f, B.position g res, B.current rnd⟩

/-- C8GreensFunctionCalculator.hxx 11-25 `calculate`: geometry, antenna and region (the whole geometry). -/
def c8Setup (rnd : K → K) (magic rMax zMin zMax zAnt tEnd : K) (f : K → K → K) (response : K → K) (res : K) : Res (Simulation K × CylRegion K) :=
  (mkGeometry rMax zMin zMax).bind fun g => (mkCalculatorAll g).bind fun r => .ok (setup rnd magic g f (mkAntenna 0 tEnd zAnt response) res, r)

/-- C8SignalCalculator.hxx 18-21 `get_antenna_location`. -/
def antennaLocation : List K := [0, 0, 0]

/-! ### Specification -/

/-- The conversion of times to `float`: monotone, and exact for the times of the antenna, which are `float`. -/
structure RoundsTimes (rnd : K → K) (A : Antenna K) : Prop where
  mono : ∀ s t, s ≤ t → rnd s ≤ rnd t
  start : rnd A.start = A.start
  stop : rnd A.stop = A.stop

/-- The centre (or another position `δ`) of the cell `[iz, ir]` of the simulation, in its coordinates. -/
def cellPos (res δ : K) (iz ir : Nat) : K × K := (((ir : K) + δ) / res, ((iz : K) + δ) / res)

/-! ### C74 -/

/-- **C74**: the conversions of coordinates are inverse to each other. -/
theorem C74_inverse (g : Geometry K) (p : K × K) : g.toEisvogel (g.toMeep p) = p ∧ g.toMeep (g.toEisvogel p) = p := by
  unfold Geometry.toEisvogel Geometry.toMeep
  constructor <;> apply Prod.ext <;> simp

/-- **C74**: the simulation has the permittivity of the user's function at every position; the source is at the height of the antenna; a cell of the simulation is where C58 takes the sample from. (Missing: the source is on the axis;
    it is one and a half cells away from it, `C74_off_axis`.) -/
theorem C74_placement_partial (rnd : K → K) (magic : K) (g : Geometry K) (f : K → K → K) (A : Antenna K) (res : K) :
    (∀ r z, (setup rnd magic g f A res).eps (g.toMeep (r, z)) = f r z) ∧ (g.toEisvogel (setup rnd magic g f A res).source).2 = A.z ∧
      ∀ (δ : K) (iz ir : Nat), g.toEisvogel (cellPos res δ iz ir) = (0 + ((ir : K) + δ) / res, g.zMin + ((iz : K) + δ) / res) := by
  refine ⟨fun r z => ?_, ?_, fun δ iz ir => ?_⟩
  · show f (g.toEisvogel (g.toMeep (r, z))).1 (g.toEisvogel (g.toMeep (r, z))).2 = _
    rw [(C74_inverse g (r, z)).1]
  · show (g.toEisvogel (g.toMeep (3 / 2 / res, A.z))).2 = A.z
    rw [(C74_inverse g _).1]
  · unfold Geometry.toEisvogel cellPos
    apply Prod.ext
    · simp
    · simp [add_comm]

/-- C74, the rest does not hold: the source is not on the axis. -/
theorem C74_off_axis (rnd : K → K) (magic : K) (g : Geometry K) (f : K → K → K) (A : Antenna K) (res : K) (h : 0 < res) :
    (g.toEisvogel (setup rnd magic g f A res).source).1 = 3 / 2 / res ∧ (g.toEisvogel (setup rnd magic g f A res).source).1 ≠ 0 := by
  have e : (g.toEisvogel (setup rnd magic g f A res).source).1 = 3 / 2 / res := rfl
  refine ⟨e, ?_⟩
  rw [e]
  have : 0 < (3 / 2 / res : K) := by positivity
  exact this.ne'

/-- **C74**: from its start to its end the antenna carries minus the impulse response, times the scale; if a time is converted to a `float` before the start or after the end it carries no current. -/
theorem C74_current (rnd : K → K) (magic : K) (g : Geometry K) (f : K → K → K) (A : Antenna K) (h : RoundsTimes rnd A) (res t : K) :
    (A.start ≤ t ∧ t ≤ A.stop → (setup rnd magic g f A res).current t = -(res * magic * A.response t)) ∧
      (rnd t < A.start ∨ A.stop < rnd t → (setup rnd magic g f A res).current t = 0) ∧
      ((setup rnd magic g f A res).current t ≠ 0 → A.start ≤ rnd t ∧ rnd t ≤ A.stop) := by
  refine ⟨fun ⟨h1, h2⟩ => ?_, fun h1 => ?_, fun h1 => ?_⟩
  · have a := h.mono _ _ h1
    have b := h.mono _ _ h2
    rw [h.start] at a
    rw [h.stop] at b
    show (if _ then _ else _) = _
    rw [if_pos ⟨a, b⟩]
    show res * magic * A.response t * (-1) = _
    ring
  · show (if _ then _ else _) = _
    rw [if_neg]
    rintro ⟨a, b⟩
    rcases h1 with h1 | h1
    · exact absurd h1 (not_lt.2 a)
    · exact absurd h1 (not_lt.2 b)
  · by_contra hc
    exact h1 (if_neg hc)

/-- **C74**: an antenna that nobody has given a scale carries minus its response while it is switched on; and the simulation does not depend on the scale its antenna had before. -/
theorem C74_antenna (rnd : K → K) (magic start stop z s : K) (response : K → K) (g : Geometry K) (f : K → K → K) (res t : K) :
    (start ≤ rnd t ∧ rnd t ≤ stop → (mkAntenna start stop z response).current rnd t = -response t) ∧
      setup rnd magic g f { mkAntenna start stop z response with scale := s } res = setup rnd magic g f (mkAntenna start stop z response) res := by
  refine ⟨fun h => ?_, rfl⟩
  show (if rnd t ≥ start ∧ rnd t ≤ stop then 1 * response t * (-1) else 0) = _
  rw [if_pos h]
  ring

/-- **C74**: the response is linear in the current: two antennas with responses that differ by a factor have currents that differ by the same factor. -/
theorem C74_linear (rnd : K → K) (magic : K) (g : Geometry K) (f : K → K → K) (A : Antenna K) (res t c : K) :
    (setup rnd magic g f { A with response := fun t => c * A.response t } res).current t = c * (setup rnd magic g f A res).current t := by
  show (if rnd t ≥ A.start ∧ rnd t ≤ A.stop then _ else _) = c * if rnd t ≥ A.start ∧ rnd t ≤ A.stop then _ else _
  by_cases hc : rnd t ≥ A.start ∧ rnd t ≤ A.stop
  · rw [if_pos hc, if_pos hc]
    show res * magic * (c * A.response t) * (-1) = c * (res * magic * A.response t * (-1))
    ring
  · rw [if_neg hc, if_neg hc, mul_zero]

/-- **C74** for the interface of CORSIKA: what `calculate` accepts, and what it sets up. -/
theorem C74_c8 (rnd : K → K) (magic rMax zMin zMax zAnt tEnd : K) (f : K → K → K) (response : K → K) (res : K) :
    (0 < rMax ∧ zMin < zMax → ∃ s reg, c8Setup rnd magic rMax zMin zMax zAnt tEnd f response res = .ok (s, reg) ∧ reg.rMin = 0 ∧ reg.rMax = rMax ∧ reg.zMin = zMin ∧ reg.zMax = zMax ∧
      (∀ r z, s.eps (r, z - zMin) = f r z) ∧ s.source.2 + zMin = zAnt ∧
      ∀ t, s.current t = if 0 ≤ rnd t ∧ rnd t ≤ tEnd then -(res * magic * response t) else 0) ∧ (¬ (0 < rMax ∧ zMin < zMax) → c8Setup rnd magic rMax zMin zMax zAnt tEnd f response res = .throw) := by
  constructor
  · rintro ⟨h1, h2⟩
    have a : mkGeometry rMax zMin zMax = .ok ⟨rMax, zMin, zMax⟩ := if_neg (by rintro (h | h); exacts [absurd h1 (not_lt.2 h.le), absurd h2 (not_lt.2 h.le)])
    have b : mkRegion 0 rMax zMin zMax = .ok ⟨0, rMax, zMin, zMax⟩ := by
      unfold mkRegion
      rw [if_neg (by rintro (h | h | h); exacts [lt_irrefl _ h, absurd h1 (not_lt.2 h.le), absurd h1 (not_lt.2 h.le)]), if_neg (not_lt.2 h2.le)]
    have c : mkCalculator (⟨rMax, zMin, zMax⟩ : Geometry K) ⟨0, rMax, zMin, zMax⟩ = .ok () := by
      unfold mkCalculator Geometry.contains CylRegion.isEmpty
      simp [h1.ne, h2.ne]
    unfold c8Setup mkCalculatorAll
    rw [a]
    simp only [Res.ok_bind, b, c]
    refine ⟨_, _, rfl, rfl, rfl, rfl, rfl, fun r z => (C74_placement_partial rnd magic ⟨rMax, zMin, zMax⟩ f _ res).1 r z, ?_⟩
    refine ⟨(C74_placement_partial rnd magic ⟨rMax, zMin, zMax⟩ f (mkAntenna 0 tEnd zAnt response) res).2.1, fun t => ?_⟩
    show (if 0 ≤ rnd t ∧ rnd t ≤ tEnd then res * magic * response t * (-1) else 0) = _
    rw [mul_neg_one]
  · intro h
    unfold c8Setup mkGeometry
    by_cases hg : rMax < 0 ∨ zMin > zMax
    · rw [if_pos hg]; rfl
    · rw [if_neg hg]
      obtain ⟨g1, g2⟩ := not_or.1 hg
      have g1 := not_lt.1 g1
      have g2 := not_lt.1 g2
      simp only [Res.ok_bind]
      unfold mkCalculatorAll mkRegion
      rw [if_neg (by rintro (h | h | h); exacts [lt_irrefl _ h, absurd h (not_lt.2 g1), absurd h (not_lt.2 g1)]), if_neg (not_lt.2 g2)]
      simp only [Res.ok_bind]
      unfold mkCalculator Geometry.contains CylRegion.isEmpty
      have : (0 : K) = rMax ∨ zMin = zMax := by
        by_contra hn
        obtain ⟨n1, n2⟩ := not_or.1 hn
        exact h ⟨lt_of_le_of_ne g1 n1, lt_of_le_of_ne g2 n2⟩
      simp [this]
      rfl

/-- C74, the rest does not hold: the location of the antenna that the class for signals reports is always the origin, also if the antenna was placed elsewhere. -/
theorem C74_location_wrong (rnd : K → K) (magic rMax zMin zMax zAnt tEnd : K) (f : K → K → K) (response : K → K) (res : K) (s : Simulation K) (reg : CylRegion K) (hz : zAnt ≠ 0)
    (h : c8Setup rnd magic rMax zMin zMax zAnt tEnd f response res = .ok (s, reg)) : (antennaLocation : List K).getD 2 0 ≠ s.source.2 + zMin := by
  by_cases hc : 0 < rMax ∧ zMin < zMax
  · obtain ⟨s', reg', e, _, _, _, _, _, e2, _⟩ := (C74_c8 rnd magic rMax zMin zMax zAnt tEnd f response res).1 hc
    rw [h] at e
    cases e
    rw [e2]
    exact hz.symm
  · rw [(C74_c8 rnd magic rMax zMin zMax zAnt tEnd f response res).2 hc] at h
    cases h

/-! ### The hypotheses can be met -/

/-- An antenna at the depth 58, from 0 to 5 in time, with times that are rounded down to integers. -/
example : RoundsTimes (fun t : ℚ => ⌊t⌋) (mkAntenna 0 5 (-58) fun t => t + 1) := ⟨fun s t h => by exact_mod_cast Int.floor_mono h, by simp [mkAntenna], by simp [mkAntenna]⟩

/-- It carries a current at time 2; and, as its times are rounded, also shortly after its end. -/
example : (setup (fun t : ℚ => ⌊t⌋) (11 / 100) ⟨60, -100, 50⟩ (fun _ _ => 1) (mkAntenna 0 5 (-58) fun t => t + 1) 2).current 2 = -(66 / 100) ∧
    (setup (fun t : ℚ => ⌊t⌋) (11 / 100) ⟨60, -100, 50⟩ (fun _ _ => 1) (mkAntenna 0 5 (-58) fun t => t + 1) 2).current (11 / 2) ≠ 0 := by
  have f1 : ⌊(2 : ℚ)⌋ = 2 := by norm_num
  have f2 : ⌊(11 / 2 : ℚ)⌋ = 5 := by norm_num
  constructor
  · unfold setup Antenna.current
    simp only [f1]
    norm_num [mkAntenna]
  · unfold setup Antenna.current
    simp only [f2]
    norm_num [mkAntenna]

/-- The settings of `calculate` for CORSIKA. -/
example : ∃ s reg, c8Setup (fun t : ℚ => t) (11 / 100) 60 (-100) 50 (-58) 1000 (fun _ z => if z < 0 then 3 else 1) (fun t => t) 2 = .ok (s, reg) ∧ s.source.2 + -100 = -58 ∧ s.eps (7, 20) = 3 ∧
    (antennaLocation : List ℚ).getD 2 0 ≠ s.source.2 + -100 := by
  obtain ⟨s, reg, e, _, _, _, _, e1, e2, _⟩ := (C74_c8 (fun t : ℚ => t) (11 / 100) 60 (-100) 50 (-58) 1000 (fun _ z => if z < 0 then 3 else 1) (fun t => t) 2).1 (by norm_num)
  refine ⟨s, reg, e, e2, ?_, C74_location_wrong _ _ _ _ _ _ _ _ _ _ s reg (by norm_num) e⟩
  have := e1 7 (-80)
  norm_num at this
  exact this

end Verif.Meep
