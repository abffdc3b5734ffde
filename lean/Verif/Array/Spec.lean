import Verif.Array.Model
import Verif.Iter.Spec
/-
Specification vocabulary for arrays: which headers a user can hold on a buffer.
-/
namespace Verif.ND
open Verif

/-- `h` was obtained from the owning array of shape `P` by zero or more `View(s, e)` calls with
    `s ≤ e ≤ shape`; `st` is the accumulated start of the window, in indices of the owning array. -/
inductive ViewOf (vd : Nat) (P : List Nat) : List Nat → Hdr → Prop where
  | own : ViewOf vd P (P.map fun _ => 0) (mkHdr vd P)
  | step {st h s e} : ViewOf vd P st h → LeVec s e → LeVec e h.shape →
      ViewOf vd P (addVec st s) (view h s e)

/-- A box of extents `ext` placed at `at_` fits into `shape` (and is non-empty in every direction). -/
def Fits (at_ ext shape : List Nat) : Prop :=
  at_.length = shape.length ∧ ext.length = shape.length ∧
    ∀ d < shape.length, 0 < ext.getD d 0 ∧ at_.getD d 0 + ext.getD d 0 ≤ shape.getD d 0

/-- All components are representable as `std::size_t`. -/
def Small (v : List Nat) : Prop := ∀ x ∈ v, x < 2 ^ 64

end Verif.ND
