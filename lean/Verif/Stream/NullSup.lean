import Verif.Bytes.Model
/-
Model of eisvogel/core/impl/NDVecArraySerialization.hh: conversion between the elements of an array (in iteration
order; each element is a list of `vd` floats, given by their bit patterns) and a buffer of 32-bit words.
`pre`/`post` are `ntohl`/`htonl` (lines 10-21, 91-102).
-/
namespace Verif.NullSup
open Verif

/-- `cur == 0.0f` on bit patterns: `+0.0f` is `0`, `-0.0f` is `0x80000000`. -/
def isNullF (w : Nat) : Bool := w == 0 || w == 2 ^ 31

/-- VectorView.hh 50-63 `IsNullVector` (both overloads); NDVecArray.hxx 372-375 `IsNull`. -/
def isNullVec (v : List Nat) : Bool := v.all isNullF

/-- `*buffer_it = ...; buffer_it++` for the words `ws`; the buffer has room for `cap` words, writing past its end is
    undefined behaviour. `out` are the words written so far. -/
def push (cap : Nat) (out ws : List Nat) : Res (List Nat) :=
  if out.length + ws.length ≤ cap then .ok (out ++ ws) else .ub

/-- NDVecArraySerialization.hh 26-43 `dense::to_buffer`: the words written into a buffer of length `cap`. -/
def toBuffer (post : Nat → Nat) (cap : Nat) : List (List Nat) → (out : List Nat) → Res (List Nat)
  | [], out => .ok out
  | v :: vs, out => (push cap out (v.map post)).bind fun out => toBuffer post cap vs out

/-- Read one element: `vd` words (NDVecArraySerialization.hh 57-61, 186-190); reading past the end of the buffer is
    undefined behaviour. -/
def readVec (pre : Nat → Nat) (vd : Nat) (buf : List Nat) : Res (List Nat × List Nat) :=
  if vd ≤ buf.length then .ok ((buf.take vd).map pre, buf.drop vd) else .ub

/-- NDVecArraySerialization.hh 45-67 `dense::from_buffer` for an array of `n` elements: the elements and the unread
    rest of the buffer. -/
def fromBuffer (pre : Nat → Nat) (vd : Nat) : (n : Nat) → List Nat → Res (List (List Nat) × List Nat)
  | 0, buf => .ok ([], buf)
  | n + 1, buf => (readVec pre vd buf).bind fun r =>
      (fromBuffer pre vd n r.2).bind fun q => .ok (r.1 :: q.1, q.2)

/-- MathUtils.hh 12-15. -/
def intDivCeil (x y : Nat) : Nat := (x + y - 1) / y

/-- NDVecArraySerialization.hh 72-86 `calculate_required_buflen` for `n` elements. -/
def requiredBuflen (n vd : Nat) : Nat := n * vd + intDivCeil n 2

/-- NDVecArraySerialization.hh 106-162 `suppress_null`: `num` is `num_nulls` (a `uint32_t`, the increment wraps). -/
def suppress (post : Nat → Nat) (cap vd : Nat) : List (List Nat) → (num : Nat) → (out : List Nat) → Res (List Nat)
  | [], num, out => if 0 < num then push cap out [post num] else .ok out
  | v :: vs, num, out =>
    if isNullVec v then
      (if num = 0 then push cap out (List.replicate vd (post 0)) else .ok out).bind fun out =>
        suppress post cap vd vs ((num + 1) % 2 ^ 32) out
    else
      (if 0 < num then push cap out [post num] else .ok out).bind fun out =>
        (push cap out (v.map post)).bind fun out => suppress post cap vd vs 0 out

/-- NDVecArraySerialization.hh 164-201 `desuppress_null` into an array of `n` elements; `num_nulls - 1` wraps. -/
def desuppress (pre : Nat → Nat) (vd : Nat) : (n num : Nat) → List Nat → Res (List (List Nat) × List Nat)
  | 0, _, buf => .ok ([], buf)
  | n + 1, num, buf =>
    if 0 < num then
      (desuppress pre vd n (num - 1) buf).bind fun q => .ok (List.replicate vd 0 :: q.1, q.2)
    else
      (readVec pre vd buf).bind fun r =>
      if isNullVec r.1 then
        match r.2 with
        | [] => .ub
        | w :: buf' => (desuppress pre vd n ((pre w + (2 ^ 32 - 1)) % 2 ^ 32) buf').bind fun q => .ok (r.1 :: q.1, q.2)
      else (desuppress pre vd n 0 r.2).bind fun q => .ok (r.1 :: q.1, q.2)

end Verif.NullSup
