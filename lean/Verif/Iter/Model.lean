/-
Model of eisvogel/core/impl/IteratorUtils.hh: index loops over boxes and over chunks.

Index vectors `Vector<std::size_t, dims>` are `List Nat` of length `dims`.  A loop that calls
`worker(cur)` is modelled by its *trace*: the list of arguments the worker is called with, in call
order.  A worker with side effects on a state `σ` is then `trace.foldl`.
-/
namespace Verif

/-- Number of values of `std::size_t` on the supported (64-bit) platforms; also `Vector<size_t>`
    arithmetic wraps modulo this (NDVecArrayStreamer.hh 28: `INFTY = std::numeric_limits<size_t>::max()`). -/
abbrev U64 : Nat := 2 ^ 64

/-- The `for(cur = b; cur < e; cur++)` header used in every loop of IteratorUtils.hh
    (e.g. lines 18, 33, 34): the successive values of `cur`. (`cur++` cannot overflow, `cur < e`.) -/
def forRange (b e : Nat) : List Nat :=
  if b < e then b :: forRange (b + 1) e else []
termination_by e - b

/-- IteratorUtils.hh 12-45 `index_loop_over_elements(_dimension)`: the `worker(cur)` calls, in order.
    One recursion level per dimension; after the last dimension the worker is called once.
    The 2-d overload (29-38) is the same nest of two loops. Lists of different length cannot occur
    (`dims` is a compile-time constant); the model then makes no call. -/
def elemLoop : List Nat → List Nat → List (List Nat)
  | [], [] => [[]]
  | b :: bs, e :: es => (forRange b e).flatMap fun i => (elemLoop bs es).map (i :: ·)
  | _, _ => []

/-- IteratorUtils.hh 47-53 `index_loop_over_array_elements`: begin is the zero vector. -/
def arrayElemLoop (shape : List Nat) : List (List Nat) :=
  elemLoop (shape.map fun _ => 0) shape

/-- IteratorUtils.hh 66-78: the `while(chunk_begin < end)` loop in one dimension; yields the pairs
    `(chunk_begin, chunk_end)`.  `chunk_begin + chunk_size` is `std::size_t` arithmetic and wraps.
    `none` means that the loop is still running after `fuel` iterations. -/
def chunkDim : (fuel : Nat) → (b e c : Nat) → Option (List (Nat × Nat))
  | 0, _, _, _ => none
  | fuel + 1, b, e, c =>
    if b < e then
      let ce := min ((b + c) % U64) e
      (chunkDim fuel ce e c).map ((b, ce) :: ·)
    else some []

/-- IteratorUtils.hh 57-87 `index_loop_over_chunks(_dimension)`: the `worker(chunk_begin, chunk_end)`
    calls.  The inner dimensions are iterated once per outer chunk (not at all if there is none);
    `none` if some loop does not finish within `fuel` iterations. -/
def chunkLoop (fuel : Nat) : List Nat → List Nat → List Nat → Option (List (List Nat × List Nat))
  | [], [], [] => some [([], [])]
  | b :: bs, e :: es, c :: cs => do
      let outer ← chunkDim fuel b e c
      if outer.isEmpty then some [] else do
        let inner ← chunkLoop fuel bs es cs
        some (outer.flatMap fun o => inner.map fun p => (o.1 :: p.1, o.2 :: p.2))
  | _, _, _ => some []

/-- IteratorUtils.hh 89-96 `index_loop_over_array_chunks`. -/
def arrayChunkLoop (fuel : Nat) (shape chunk : List Nat) : Option (List (List Nat × List Nat)) :=
  chunkLoop fuel (shape.map fun _ => 0) shape chunk

/-- Vector.hh: `operator>=` on `Vector`s as used by `empty_range`; it is true iff *all* components
    satisfy `>=` (Vector.hh 112-119). -/
def vecGe : List Nat → List Nat → Bool
  | a :: as, b :: bs => decide (b ≤ a) && vecGe as bs
  | _, _ => true

/-- IteratorUtils.hh 101-110 `empty_range`: the loop over `i` compares the whole vectors each time. -/
def emptyRange (b e : List Nat) : Bool :=
  (List.range b.length).any fun _ => vecGe b e

end Verif
