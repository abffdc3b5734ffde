import Verif.Shower.Model
/-
Model of the region that is printed for a shower (extern/shower_profile/shower_1D/shower_1D.cpp 119-147 `print_dimensions`), for a shower that is given by its attributes.
-/
namespace Verif.Shower
open Verif

/-- shower_1D.cpp 10-26: the attributes of a shower; of the angles the values of `sin` and `cos`. `c` is the speed of light. -/
structure Course (K : Type) where
  start : Pos K
  sinZ : K
  cosZ : K
  sinA : K
  cosA : K
  c : K
  density : Pos K → K
  profile : Profile K
  scaling : K

variable {K : Type} (N : Num K)

/-- shower_1D.cpp 37, 50-52, 70-73: what `get_shower` uses for a step `delta_t`. -/
def Course.setup (w : Course K) (dt : K) : Setup K :=
  let ds := N.mul dt w.c
  ⟨w.start, ⟨N.mul (N.mul ds w.sinZ) w.cosA, N.mul (N.mul ds w.sinZ) w.sinA, N.mul ds w.cosZ⟩, dt, ds, w.density, w.profile, w.scaling⟩

/-- `std::min` and `std::max`. -/
def smin (a b : K) : K := if N.lt b a then b else a

def smax (a b : K) : K := if N.lt a b then b else a

/-- What is printed. -/
structure Dims (K : Type) where
  rMin : K
  rMax : K
  zMin : K
  zMax : K

/-- shower_1D.cpp 131-137: the body of the loop. -/
def Dims.step (sqrt : K → K) (d : Dims K) (p : Pos K) : Dims K :=
  let r := sqrt (N.add (N.mul p.x p.x) (N.mul p.y p.y))
  ⟨smin N d.rMin r, smax N d.rMax r, smin N d.zMin p.z, smax N d.zMax p.z⟩

/-- shower_1D.cpp 119-147 `print_dimensions`: the four printed values. `get_shower` is called with `delta_t = 1.`, here `one`. -/
def printDimensions (sqrt : K → K) (one : K) (fuel : Nat) (w : Course K) : Res (Dims K) :=
  (getShower N fuel (w.setup N one)).bind fun ps => match ps with
    | [] => .ub
    | q :: _ =>
      let r0 := sqrt (N.add (N.add (N.mul q.pos.x q.pos.x) (N.mul q.pos.y q.pos.y)) (N.mul q.pos.z q.pos.z))
      let d := ps.foldl (fun (d : Dims K) (p : Point K) => d.step N sqrt p.pos) ⟨r0, r0, q.pos.z, q.pos.z⟩
      .ok ⟨N.div d.rMin w.c, N.div d.rMax w.c, N.div d.zMin w.c, N.div d.zMax w.c⟩

/-- shower_1D.cpp 92-117 `fill_tracks(delta_t, out)`, with the conversion of the positions to units of the speed of light (109-111); the rounding to `float` is left out. -/
def tracksOf (fuel : Nat) (w : Course K) (dt : K) : Res (List (Segment K)) :=
  fillTracks N (fun p => ⟨N.div p.x w.c, N.div p.y w.c, N.div p.z w.c⟩) id id fuel (w.setup N dt)

end Verif.Shower
