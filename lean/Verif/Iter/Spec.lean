/-
Independent vocabulary for boxes of grid indices, used in the statements of the properties.
Nothing here refers to the model of the code.
-/
namespace Verif

/-- `i` is an index vector inside the half-open box `[b, e)`. -/
def InBox (b e i : List Nat) : Prop :=
  i.length = b.length ∧ i.length = e.length ∧
    ∀ d < i.length, b.getD d 0 ≤ i.getD d 0 ∧ i.getD d 0 < e.getD d 0

/-- Componentwise comparison of index vectors of the same length. -/
def LeVec (a b : List Nat) : Prop :=
  a.length = b.length ∧ ∀ d < a.length, a.getD d 0 ≤ b.getD d 0

/-- Lexicographic order of index vectors, last component fastest: at the first position where they
    differ the left one is smaller. -/
def LexLt (a b : List Nat) : Prop :=
  ∃ k < a.length, k < b.length ∧ (∀ j < k, a.getD j 0 = b.getD j 0) ∧ a.getD k 0 < b.getD k 0

/-- Two boxes have no common index. -/
def DisjointBox (b e b' e' : List Nat) : Prop := ∀ i, ¬ (InBox b e i ∧ InBox b' e' i)

/-- One dimension of the chunk loop is well-behaved: the range is empty, or the chunk size is positive
    and the 64-bit sum `chunk_begin + chunk_size` never wraps. -/
def SafeDim (b e c : Nat) : Prop :=
  e ≤ b ∨ (0 < c ∧ (e + c ≤ 2 ^ 64 ∨ (b + c < 2 ^ 64 ∧ e ≤ b + c)))

/-- All dimensions are safe. -/
def Safe : List Nat → List Nat → List Nat → Prop
  | [], [], [] => True
  | b :: bs, e :: es, c :: cs => SafeDim b e c ∧ Safe bs es cs
  | _, _, _ => False

/-- Shape of the boxes handed out: componentwise `b ≤ lo < hi ≤ e`, `hi - lo ≤ c`, and `lo` on the grid
    `b + k c` with `hi = min (lo + c) e`. -/
def BoxOK (b e c lo hi : List Nat) : Prop :=
  lo.length = b.length ∧ hi.length = b.length ∧
  ∀ d < b.length, b.getD d 0 ≤ lo.getD d 0 ∧ lo.getD d 0 < hi.getD d 0 ∧ hi.getD d 0 ≤ e.getD d 0 ∧
    hi.getD d 0 - lo.getD d 0 ≤ c.getD d 0 ∧
    (∃ k, lo.getD d 0 = b.getD d 0 + k * c.getD d 0) ∧ hi.getD d 0 = min (lo.getD d 0 + c.getD d 0) (e.getD d 0)

/-- `i` is a valid index of an array of shape `shape`. -/
def ValidInd (shape i : List Nat) : Prop :=
  i.length = shape.length ∧ ∀ d < shape.length, i.getD d 0 < shape.getD d 0

/-- Componentwise sum of index vectors (exact, no wrap-around). -/
def addVec (a b : List Nat) : List Nat := List.zipWith (· + ·) a b

/-- Componentwise difference of index vectors (exact when `b ≤ a`). -/
def subVec (a b : List Nat) : List Nat := List.zipWith (· - ·) a b

end Verif
