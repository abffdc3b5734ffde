import Verif.Base
/-
Model of the byte format: eisvogel/core/impl/Serialization.hh, DefaultSerializationTraits.hxx, Vector.hxx 7-48
and GreensFunction.hxx 16-32.

A stream is the list of the bytes (naturals below 256) after the current position; writing appends, reading
consumes from the front.  A short read leaves the (uninitialised) result unspecified: `.ub`.
Unsigned integers are naturals below `2^32` / `2^64`; a float (double) is represented by its bit pattern, which
is what the code moves around (`reinterpret_cast`, `memcpy`).
-/
namespace Verif.Bytes
open Verif

/-- Byte order of the host; the code supports both (`1 == htonl(1)` in Serialization.hh 17-18). -/
inductive Host where
  | little
  | big
deriving DecidableEq, Repr

/-- The `n` bytes of `v`, least significant first. -/
def leBytes : Nat → Nat → List Nat
  | 0, _ => []
  | n + 1, v => v % 256 :: leBytes n (v / 256)

/-- Inverse of `leBytes`. -/
def leVal : List Nat → Nat
  | [] => 0
  | b :: bs => b + 256 * leVal bs

/-- `(char*)&v`: memory image of an unsigned integer of `n` bytes. -/
def mem (h : Host) (n v : Nat) : List Nat :=
  match h with
  | .little => leBytes n v
  | .big => (leBytes n v).reverse

/-- The integer whose memory image was read. -/
def unmem (h : Host) (bs : List Nat) : Nat :=
  match h with
  | .little => leVal bs
  | .big => leVal bs.reverse

/-- `htonl` / `ntohl` (arpa/inet.h): byte swap on little-endian hosts, identity on big-endian ones. -/
def htonl (h : Host) (v : Nat) : Nat :=
  match h with
  | .little => leVal (leBytes 4 v).reverse
  | .big => v

/-- Serialization.hh 17-18, the macros `htonll` / `ntohll`. `<<` and `|` of disjoint halves are
    multiplication and addition. -/
def htonll (h : Host) (x : Nat) : Nat :=
  if 1 = htonl h 1 then x
  else htonl h (x % 2 ^ 32) * 2 ^ 32 + htonl h (x / 2 ^ 32)

/-- `stream.read(p, n)`. -/
def takeBytes (n : Nat) (s : List Nat) : Res (List Nat × List Nat) :=
  if n ≤ s.length then .ok (s.take n, s.drop n) else .ub

/-- `Traits<T>`: how a value is written and read. -/
structure Codec (α : Type) where
  ser : α → List Nat
  deser : List Nat → Res (α × List Nat)

/-- DefaultSerializationTraits.hxx 7-22. -/
def u32 (h : Host) : Codec Nat where
  ser v := mem h 4 (htonl h v)
  deser s := (takeBytes 4 s).bind fun r => .ok (htonl h (unmem h r.1), r.2)

/-- DefaultSerializationTraits.hxx 24-39 (`std::size_t` is `uint64_t`). -/
def u64 (h : Host) : Codec Nat where
  ser v := mem h 8 (htonll h v)
  deser s := (takeBytes 8 s).bind fun r => .ok (htonll h (unmem h r.1), r.2)

/-- DefaultSerializationTraits.hxx 41-57: a float is written as its bit pattern. -/
def f32 (h : Host) : Codec Nat := u32 h

/-- DefaultSerializationTraits.hxx 59-75. -/
def f64 (h : Host) : Codec Nat := u64 h

variable {α β : Type}

/-- The `for` loops reading `n` values one after the other (DefaultSerializationTraits.hxx 135-137, 157-159). -/
def deserN (c : Codec α) : Nat → List Nat → Res (List α × List Nat)
  | 0, s => .ok ([], s)
  | n + 1, s => (c.deser s).bind fun r => (deserN c n r.2).bind fun q => .ok (r.1 :: q.1, q.2)

/-- DefaultSerializationTraits.hxx 119-140, `std::vector<T>`. -/
def vector (h : Host) (c : Codec α) : Codec (List α) where
  ser v := (u64 h).ser v.length ++ v.flatMap c.ser
  deser s := ((u64 h).deser s).bind fun r => deserN c r.1 r.2

/-- DefaultSerializationTraits.hxx 142-162, `std::array<T, n>`; Vector.hxx 7-20, `Vector<T, n>`;
    Vector.hxx 26-48, `RZTVector`, `RZTCoordVector` (which are `Vector3D`). -/
def array (n : Nat) (c : Codec α) : Codec (List α) where
  ser v := v.flatMap c.ser
  deser s := deserN c n s

/-- `std::map::insert` (DefaultSerializationTraits.hxx 195; the hint does not change the result): insert unless the
    key is present; a map is an association list with increasing keys. -/
def mapInsert (lt : α → α → Bool) (k : α) (v : β) : List (α × β) → List (α × β)
  | [] => [(k, v)]
  | (k', v') :: m =>
    if lt k k' then (k, v) :: (k', v') :: m
    else if lt k' k then (k', v') :: mapInsert lt k v m
    else (k', v') :: m

/-- DefaultSerializationTraits.hxx 164-200, `std::map<T1, T2>`. -/
def map (h : Host) (lt : α → α → Bool) (ck : Codec α) (cv : Codec β) : Codec (List (α × β)) where
  ser m := (vector h ck).ser (m.map Prod.fst) ++ (vector h cv).ser (m.map Prod.snd)
  deser s :=
    ((vector h ck).deser s).bind fun rk =>
    ((vector h cv).deser rk.2).bind fun rv =>
    if rk.1.length ≠ rv.1.length then .throw
    else .ok ((rk.1.zip rv.1).foldl (fun m p => mapInsert lt p.1 p.2 m) [], rv.2)

/-- DefaultSerializationTraits.hxx 202-218, `std::string` (a list of bytes). -/
def string (h : Host) : Codec (List Nat) where
  ser v := (u64 h).ser v.length ++ v
  deser s := ((u64 h).deser s).bind fun r => takeBytes r.1 r.2

/-- GreensFunction.hxx 7-12, 16-32 and GreensFunction.hh: the metadata record of a Green's function; coordinates are
    float bit patterns.  The `_rz` members are functions of the stored ones. -/
structure GFMeta where
  start_pos : List Nat
  end_pos : List Nat
  sample_interval : List Nat
deriving DecidableEq, Repr

def gfMeta (h : Host) : Codec GFMeta where
  ser m := (array 3 (f32 h)).ser m.start_pos ++ (array 3 (f32 h)).ser m.end_pos ++ (array 3 (f32 h)).ser m.sample_interval
  deser s :=
    ((array 3 (f32 h)).deser s).bind fun a =>
    ((array 3 (f32 h)).deser a.2).bind fun b =>
    ((array 3 (f32 h)).deser b.2).bind fun c =>
    .ok (⟨a.1, b.1, c.1⟩, c.2)

/-- DefaultSerializationTraits.hxx 86-93: the block loop of `Traits<std::vector<float>>::serialize`; the values not yet
    written are the remaining list. With `block_size = 0` no progress is made: the loop does not end. -/
def serBlocks (h : Host) (bs : Nat) (l : List Nat) : Res (List Nat) :=
  if l = [] then .ok []
  else if _hb : 0 < bs ∧ l ≠ [] then
    (serBlocks h bs (l.drop bs)).bind fun r => .ok ((l.take bs).flatMap (fun v => mem h 4 (htonl h v)) ++ r)
  else .diverge
termination_by l.length
decreasing_by
  have : 0 < l.length := List.length_pos_iff.2 _hb.2
  simp; omega

/-- DefaultSerializationTraits.hxx 82-94 `serialize(stream, val, block_size)`. -/
def serFloatVec (h : Host) (bs : Nat) (l : List Nat) : Res (List Nat) :=
  (serBlocks h bs l).bind fun r => .ok ((u64 h).ser l.length ++ r)

/-- `inbuf[k]` for the 4-byte words of a block. -/
def words (h : Host) : Nat → List Nat → List Nat
  | 0, _ => []
  | n + 1, bs => unmem h (bs.take 4) :: words h n (bs.drop 4)

/-- DefaultSerializationTraits.hxx 100-109: the block loop of `deserialize`; `n` values are still to be read. -/
def deserBlocks (h : Host) (bs n : Nat) (s : List Nat) : Res (List Nat × List Nat) :=
  if n = 0 then .ok ([], s)
  else if _hb : 0 < bs ∧ 0 < n then
    (takeBytes (4 * min n bs) s).bind fun r =>
    (deserBlocks h bs (n - min n bs) r.2).bind fun q =>
    .ok ((words h (min n bs) r.1).map (htonl h) ++ q.1, q.2)
  else .diverge
termination_by n
decreasing_by omega

/-- DefaultSerializationTraits.hxx 96-111 `deserialize(stream, block_size)`. -/
def deserFloatVec (h : Host) (bs : Nat) (s : List Nat) : Res (List Nat × List Nat) :=
  ((u64 h).deser s).bind fun r => deserBlocks h bs r.1 r.2

end Verif.Bytes
