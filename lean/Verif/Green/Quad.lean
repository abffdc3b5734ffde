import Verif.Base
import Mathlib.Algebra.Field.Basic
import Mathlib.Algebra.Order.Field.Basic
import Mathlib.Algebra.BigOperators.Group.List.Basic
/-
Model of eisvogel/core/impl/Quadrature.hh and the block loop that uses it in
GreensFunction.hxx 249-275.  Numbers are the elements of a field `K` (exact arithmetic; the weights
0.5 and 1.0 are exact in `float`).
-/
namespace Verif.Green
open Verif

section
variable {K : Type} [Field K]

/-- `*(begin + i) = v` on a range of `buf.length` elements; outside of the range it is undefined. -/
def poke (buf : List K) (i : Nat) (v : K) : Res (List K) := if i < buf.length then .ok (buf.set i v) else .ub

/-- Quadrature.hh 8-28 `TrapezoidalRule::fill_weights(ind_a, ind_b, num_samples, begin, end)`; `buf` is the range
    `[begin, end)` before the call. `*(end - 1)` of an empty range lies outside of it. -/
def fillWeights (ind_a ind_b num_samples : Nat) (buf : List K) : Res (List K) :=
  (Res.assert (buf.length == wsub ind_b ind_a)).bind fun _ =>
  let w := buf.map fun _ => (1 : K)
  (if ind_a = 0 then poke w 0 (1 / 2) else .ok w).bind fun w =>
  if ind_b = num_samples then (if w.length = 0 then .ub else poke w (w.length - 1) (1 / 2)) else .ok w

/-- GreensFunction.hxx 250-251, 274-275: the buffer is resized to the block (`junk` are its old or uninitialised
    contents) and filled. -/
def blockWeights (num start size : Nat) (junk : Nat → K) : Res (List K) :=
  fillWeights start (wadd start size) num ((List.range size).map junk)

/-- The weights of consecutive blocks of the given sizes, starting at integration point `start`, one after the other. -/
def weightsOf (num : Nat) (junk : Nat → K) : Nat → List Nat → Res (List K)
  | _, [] => .ok []
  | start, s :: ss => (blockWeights num start s junk).bind fun w => (weightsOf num junk (start + s) ss).bind fun r => .ok (w ++ r)

end

/-- GreensFunction.hxx 250-251: the sizes of the integration blocks, `for (b = 0; b < n; b += max) size = min(max, n - b)`.
    `left` is the number of points still to be treated. -/
def blockSizes (max : Nat) : Nat → Nat → List Nat
  | 0, _ => []
  | fuel + 1, left => if left = 0 then [] else min max left :: blockSizes max fuel (left - min max left)

end Verif.Green
