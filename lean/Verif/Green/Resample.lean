import Verif.Green.Inner
import Verif.Iter.Props
/-
Model of `CylindricalGreensFunction::fill_array` (GreensFunction.hxx 104-197) and the helpers it uses.

Arithmetic is exact (field `K`).  The chunk library is seen through the calls the function makes, `m_index.GetChunks` and `m_cache.RetrieveChunk`.
-/
namespace Verif.Green
open Verif Verif.ND Verif.Dist

set_option linter.unusedSectionVars false

variable {K : Type} [Field K] [LinearOrder K] [IsStrictOrderedRing K] [FloorRing K]

/-- Vector.hh `RZTVector`. -/
structure RZT (α : Type) where
  r : α
  z : α
  t : α

/-- The chunk library as `fill_array` uses it: in addition, `search` is `m_index.GetChunks(start_ind, end_ind)`. -/
structure RangeLibrary (σ K : Type) extends Library σ K where
  search : σ → List Nat → List Nat → Res (List Meta)

/-- GreensFunction.hxx 56-66 `is_in_range`. -/
def isInRange (p lo hi : RZT K) : Bool :=
  !(decide (p.r < lo.r) || decide (p.r > hi.r)) && !(decide (p.z < lo.z) || decide (p.z > hi.z)) && !(decide (p.t < lo.t) || decide (p.t > hi.t))

/-- Vector.hxx 132-143 `ceil_nonneg`, one component. -/
def ceilNonneg (a : K) : Res Nat := (Res.assert (decide (0 ≤ a))).bind fun _ => toSize ⌈a⌉

/-- Vector.hxx 145-157 `floor_nonneg`, one component. -/
def floorNonneg (a : K) : Res Nat := (Res.assert (decide (0 ≤ a))).bind fun _ => toSize ⌊a⌋

/-- GreensFunction.hxx 147-152, one component: the range of output indices a chunk `[cs, ce)` provides. A division by a step that is zero, infinite or not a number
    (`step = none`) does not give a number: this is outside of the model. -/
def outRange (cs ce : Nat) (s : K) (step : Option K) (num : Nat) : Res (Nat × Nat) :=
  match step with
  | none => .ub
  | some step =>
    (ceilNonneg (max (((cs : K) - s) / step) 0)).bind fun a =>
    (floorNonneg (min (((ce : K) - s) / step + 1) (num : K))).bind fun b => .ok (a, b)

/-- GreensFunction.hxx 175-193 `interpolate_and_fill` for the outer output index `ij`; `s`, `step` are `start_f_ind`, `stepsize_f_ind`, `t0` is `output_start_inner_f_ind`, `n` is
    `num_inner_samples`, `k0` is `output_start_ind.t()`, `(shape, data)` is the chunk. The interpolation buffer has `n` elements and is cleared before use. -/
def fillOne (kn : Kern K) (m : Meta) (shape : List Nat) (data : List K) (s step : RZT K) (t0 : K) (n k0 : Nat) (h : Hdr) (ij : List Nat) (buf : List K) : Res (List K) :=
  (toLocal ((ij.getD 0 0 : K) * step.r + s.r) (m.offset.getD 0 0)).bind fun lx =>
  (toLocal ((ij.getD 1 0 : K) * step.z + s.z) (m.offset.getD 1 0)).bind fun ly =>
  (toLocal t0 (m.offset.getD 2 0)).bind fun lt =>
  (interpolate kn 2 (mkHdr 2 shape) data (mkHdr 2 [n]) (List.replicate (n * 2) 0) lx ly lt step.t n (fun _ => 0)).bind fun r =>
  fillRow 2 h buf r.1 r.2 [ij.getD 0 0, ij.getD 1 0, k0]

/-- The step size of one axis, GreensFunction.hxx 120: `none` if it is zero, infinite or not a number. -/
def stepSize (s e : K) (num : Nat) : Option K := if num = 1 ∨ e = s then none else some ((e - s) / ((num : K) - 1))

/-- GreensFunction.hxx 135-195: one turn of the loop over the chunks; the state is the library and the data of the output array. -/
def fillChunk {σ : Type} (L : Library σ K) (kn : Kern K) (s e : RZT K) (num : RZT Nat) (h : Hdr) (m : Meta) (st : σ × List K) : Res (σ × List K) :=
  match m.ctype with
  | .all_null => .ok st
  | .specified =>
    (L.load st.1 m).bind fun q =>
    (outRange (m.start.getD 0 0) (m.stop.getD 0 0) s.r (stepSize s.r e.r num.r) num.r).bind fun or =>
    (outRange (m.start.getD 1 0) (m.stop.getD 1 0) s.z (stepSize s.z e.z num.z) num.z).bind fun oz =>
    (outRange (m.start.getD 2 0) (m.stop.getD 2 0) s.t (stepSize s.t e.t num.t) num.t).bind fun ot =>
    let step : RZT K := ⟨(stepSize s.r e.r num.r).getD 0, (stepSize s.z e.z num.z).getD 0, (stepSize s.t e.t num.t).getD 0⟩
    let n := wsub ot.2 ot.1
    let t0 := (ot.1 : K) * step.t + s.t
    (runLoop (fillOne kn m q.2.1 q.2.2 s step t0 n ot.1 h) (elemLoop [or.1, oz.1] [or.2, oz.2]) st.2).bind fun buf => .ok (q.1, buf)

/-- GreensFunction.hxx 471-473 `coords_to_index`. -/
def toIndex (G : GMeta K) (p : RZT K) : RZT K := ⟨(p.r - G.r0) / G.dr, (p.z - G.z0) / G.dz, (p.t - G.t0) / G.dt⟩

/-- GreensFunction.hxx 104-197 `fill_array(start_pos, end_pos, num_samples, array)`; `gend` is `m_meta.end_pos_rzt`, `(ha, arr)` is `array` and `junk` the content of the memory it may
    have to allocate. Returns the library and the array. -/
def fillArray {σ : Type} (L : RangeLibrary σ K) (G : GMeta K) (gend : RZT K) (kn : Kern K) (start stop : RZT K) (num : RZT Nat) (ha : Hdr) (arr : List K) (junk : Nat → K)
    (st : σ) : Res (σ × Hdr × List K) :=
  (Res.assert (isInRange start ⟨G.r0, G.z0, G.t0⟩ gend)).bind fun _ =>
  (Res.assert (isInRange stop ⟨G.r0, G.z0, G.t0⟩ gend)).bind fun _ =>
  (resize 2 ha arr [num.r, num.z, num.t] junk).bind fun a =>
  let s := toIndex G start
  let e := toIndex G stop
  (toSize (modf s.r).1).bind fun s0 =>
  (toSize (modf s.z).1).bind fun s1 =>
  (toSize (modf s.t).1).bind fun s2 =>
  (toSize (modf e.r).1).bind fun e0 =>
  (toSize (modf e.z).1).bind fun e1 =>
  (toSize (modf e.t).1).bind fun e2 =>
  (L.search st [s0, s1, s2] [e0, e1, e2]).bind fun ms =>
  (runLoop (fillChunk L.toLibrary kn s e num a.1) ms (st, a.2.map fun _ => 0)).bind fun q => .ok (q.1, a.1, q.2)

end Verif.Green
