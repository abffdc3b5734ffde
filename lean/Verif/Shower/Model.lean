import Verif.Base
/-
Model of the one-dimensional shower profiles (extern/shower_profile/shower_1D/shower_1D.cpp, extern/shower_profile/shower_creator/shower_creator.cpp).

The arithmetic of `double` is an arbitrary structure `Num`: nothing is assumed about it in the definitions. `sin`, `cos` only enter in the steps
`delta_s * sin(zenith) * cos(azimuth)`, ..., which are constant and are inputs here (`Setup.step`); the density of the ice is an arbitrary function of the position.
Console output and the random generator are left out.
-/
namespace Verif.Shower
open Verif

/-- The operations on `double` that are used. -/
structure Num (K : Type) where
  zero : K
  add : K → K → K
  sub : K → K → K
  mul : K → K → K
  div : K → K → K
  lt : K → K → Bool

/-- A position. -/
structure Pos (K : Type) where
  x : K
  y : K
  z : K
deriving DecidableEq

/-- charge_excess_profile.cpp 5-13 `ChargeExcessProfile`, without the attributes that are not used. -/
structure Profile (K : Type) where
  grammage : List K
  charge : List K

/-- The arguments of a shower: shower_1D.cpp 10-26, 37; `ds = delta_t * c`. -/
structure Setup (K : Type) where
  start : Pos K
  step : Pos K
  dt : K
  ds : K
  density : Pos K → K
  profile : Profile K
  scaling : K

/-- One entry of the output vectors `t`, `x`, `y`, `z`, `ce`. -/
structure Point (K : Type) where
  t : K
  pos : Pos K
  ce : K
deriving DecidableEq

variable {K : Type} (N : Num K)

def Pos.move (p d : Pos K) : Pos K := ⟨N.add p.x d.x, N.add p.y d.y, N.add p.z d.z⟩

/-- shower_1D.cpp 43-53: the number of points; `none` if the loop does not end within `fuel` rounds. -/
def count (s : Setup K) (max : K) : Nat → K → Pos K → Nat → Option Nat
  | 0, _, _, _ => none
  | fuel + 1, g, p, n =>
    if N.lt g max then count s max fuel (N.add g (N.mul (s.density p) s.ds)) (p.move N s.step) (n + 1) else some n

/-- shower_1D.cpp 79-81: `grammage_i` after the inner loop; `r` bounds the number of rounds. -/
def advance (gr : List K) (g : K) : Nat → Nat → Nat
  | 0, i => i
  | r + 1, i => match gr[i]? with
    | some x => if N.lt x g then advance gr g r (i + 1) else i
    | none => i

/-- `v[i]` for a `std::vector`. -/
def at? (v : List K) (i : Nat) : Res K := match v[i]? with
  | some x => .ok x
  | none => .ub

/-- shower_1D.cpp 82-88: the charge excess at a point. -/
def chargeAt (s : Setup K) (g : K) (i : Nat) : Res K :=
  if i = 0 then (at? s.profile.charge 0).bind fun c => .ok (N.mul c s.scaling)
  else
    (at? s.profile.charge i).bind fun c1 =>
    (at? s.profile.charge (i - 1)).bind fun c0 =>
    (at? s.profile.grammage (i - 1)).bind fun g0 =>
    (at? s.profile.grammage i).bind fun g1 =>
    .ok (N.mul (N.add c0 (N.mul (N.sub c1 c0) (N.div (N.sub g g0) (N.sub g1 g0)))) s.scaling)

/-- shower_1D.cpp 69-89: the loop over `k` further points after the point `q`, with `integrated_grammage = g`, `grammage_i = i`. -/
def points (s : Setup K) : Nat → Point K → K → Nat → Res (List (Point K))
  | 0, _, _, _ => .ok []
  | k + 1, q, g, i =>
    let g' := N.add g (N.mul s.ds (s.density q.pos))
    let i' := advance N s.profile.grammage g' s.profile.grammage.length i
    (chargeAt N s g' i').bind fun c =>
    let q' : Point K := ⟨N.add q.t s.dt, q.pos.move N s.step, c⟩
    (points s k q' g' i').bind fun r => .ok (q' :: r)

/-- shower_1D.cpp 28-90 `get_shower`. `n_points` is an `int`. -/
def getShower (fuel : Nat) (s : Setup K) : Res (List (Point K)) :=
  (at? s.profile.grammage (s.profile.grammage.length - 1)).bind fun max =>
  match count N s max fuel N.zero s.start 0 with
  | none => .diverge
  | some n =>
    if n = 0 ∨ 2 ^ 31 ≤ n then .ub
    else
      (at? s.profile.charge 0).bind fun c =>
      (points N s (n - 1) ⟨N.zero, s.start, c⟩ N.zero 0).bind fun r => .ok (⟨N.zero, s.start, c⟩ :: r)

/-- A straight piece of the current. -/
structure Segment (K : Type) where
  p0 : Pos K
  p1 : Pos K
  t0 : K
  t1 : K
  charge : K

/-- shower_1D.cpp 92-118 `fill_tracks`: one segment for each two consecutive points. The conversion to `float` and the division by the speed of light, the same for all
    positions, are the function `cv` (and `ct`, `cc` for times and charges). -/
def segments (cv : Pos K → Pos K) (ct cc : K → K) : List (Point K) → List (Segment K)
  | a :: b :: l => ⟨cv a.pos, cv b.pos, ct a.t, ct b.t, cc a.ce⟩ :: segments cv ct cc (b :: l)
  | _ => []

def fillTracks (cv : Pos K → Pos K) (ct cc : K → K) (fuel : Nat) (s : Setup K) : Res (List (Segment K)) :=
  (getShower N fuel s).bind fun ps => .ok (segments cv ct cc ps)

/-- shower_creator.cpp 55-62: the stored energy that is chosen; `abs` is `std::abs`. -/
def closest (abs : K → K) (en : K) : List K → K → K → K
  | [], best, _ => best
  | e :: es, best, d => if N.lt (abs (N.sub en e)) d then closest abs en es e (abs (N.sub en e)) else closest abs en es best d

def closestEnergy (abs : K → K) (en : K) : List K → Res K
  | [] => .ub
  | e :: es => .ok (closest N abs en es e (abs (N.sub en e)))

/-- shower_creator.cpp 46-82 `create_shower`: the profile and its scaling. `stored` are the energies in the order of the file, `profiles e` the profiles with energy `e`.
    The randomly drawn index (63-70) is not used: line 77 uses the argument `i_shower`. -/
def createShower (abs : K → K) (stored : List K) (profiles : K → List (Profile K)) (en : K) (i_shower : Int) : Res (Profile K × K) :=
  (closestEnergy N abs en stored).bind fun e =>
  if i_shower < 0 then .ub
  else match (profiles e)[i_shower.toNat]? with
    | some p => .ok (p, N.div en e)
    | none => .ub

end Verif.Shower
