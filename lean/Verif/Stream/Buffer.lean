import Verif.Stream.Streamer
/-
Model of `NDVecArrayStreamer` (NDVecArrayStreamer.hh, NDVecArrayStreamer.hxx) with its buffer `m_ser_buffer`, which is kept from one call to the next, and with streams that end early.
In `Verif.Stream.Streamer`, the buffer is left out, and a read beyond the end of the stream is undefined behaviour.
-/
namespace Verif.Stream
open Verif Verif.ND Verif.Bytes Verif.NullSup

/-- Memory: one byte each, `none` if it has never been initialised. -/
abbrev Mem := List (Option Nat)

/-- A stream: the bytes from the current position on, and whether `failbit` is set. -/
structure In where
  bytes : List Nat
  failed : Bool

/-- `stream.read(p, n)`: the bytes that are stored at `p`, and the stream afterwards. If there are fewer than `n`, they are stored and the stream fails; a stream that has failed stores nothing. -/
def In.read (s : In) (n : Nat) : List Nat × In :=
  if s.failed then ([], s) else if n ≤ s.bytes.length then (s.bytes.take n, ⟨s.bytes.drop n, false⟩) else (s.bytes, ⟨[], true⟩)

/-- The metadata consist of unsigned integers that are read into uninitialised variables (DefaultSerializationTraits.hxx 17-21, 34-38): using one that has not been read completely is undefined
    behaviour. -/
def In.get {α : Type} (s : In) (c : Codec α) : Res (α × In) :=
  if s.failed then .ub else (c.deser s.bytes).bind fun r => .ok (r.1, ⟨r.2, false⟩)

/-- MemoryUtils.hh 5-29 and `std::vector::resize` to `n` words: `no_init_alloc` does not initialise new elements. -/
def Mem.resize (b : Mem) (n : Nat) : Mem := b.take (4 * n) ++ List.replicate (4 * n - b.length) none

/-- Bytes are stored at the beginning. -/
def Mem.store (b : Mem) (bs : List Nat) : Mem := bs.map some ++ b.drop bs.length

/-- The words up to the first one that is not initialised. -/
def Mem.known (h : Host) : Mem → List Nat
  | some a :: some b :: some c :: some d :: r => unmem h [a, b, c, d] :: Mem.known h r
  | _ => []

/-- The bytes, if all are initialised. -/
def Mem.bytes : Mem → Res (List Nat)
  | [] => .ok []
  | some a :: r => (Mem.bytes r).bind fun s => .ok (a :: s)
  | none :: _ => .ub

/-- NDVecArrayStreamer.hxx 91-95: a new streamer. `std::vector(10000)` does not initialise the elements either. -/
def Mem.fresh : Mem := List.replicate 40000 none

/-- NDVecArrayStreamer.hxx 178-206: one iteration of `chunk_deserializer`. State: stream, buffer, elements of the array. Reading a word of the buffer that is not initialised is undefined behaviour, as is
    reading past its end (`fromBuffer`, `desuppress`). The assertion compares the number of words that were used with the number of words in the file. -/
def readChunkB (h : Host) (vd : Nat) (ha : Hdr) (p : List Nat × List Nat) (st : In × Mem × List Nat) : Res (In × Mem × List Nat) :=
  (st.1.get (cMeta h)).bind fun m =>
  let r := m.2.read (4 * m.1.2)
  let b := (st.2.1.resize m.1.2).store r.1
  let ws := b.known h
  let hv := view ha p.1 p.2
  let n := numElems hv.shape
  (if m.1.1 = 1 then fromBuffer (htonl h) vd n ws
    else if m.1.1 = 2 then desuppress (htonl h) vd n 0 ws
    else .ok ([], ws)).bind fun q =>
  (storeElems vd hv st.2.2 q.1).bind fun buf =>
  (Res.assert (q.2.length + (m.1.2 - ws.length) == 0)).bind fun _ => .ok (r.2, b, buf)

/-- NDVecArrayStreamer.hxx 167-209 `deserialize`. -/
def deserializeB (h : Host) (vd dims : Nat) (hd : Hdr) (dst : List Nat) (junk : Nat → Nat) (b : Mem) (s : In) : Res ((Hdr × List Nat) × In × Mem) :=
  (s.get (sMeta h dims)).bind fun m =>
  (resize vd hd dst m.1.array_shape junk).bind fun a =>
  (Res.ofLoop (arrayChunkLoop (fuelFor a.1.shape) a.1.shape m.1.ser_chunk)).bind fun boxes =>
  (runLoop (readChunkB h vd a.1) boxes (m.2, b, a.2)).bind fun st => .ok ((a.1, st.2.2), st.1, st.2.1)

/-- NDVecArrayStreamer.hxx 338-339, 362-363: the size of the buffer. -/
def bufferSize (vd : Nat) (mode : Mode) (shape : List Nat) : Nat :=
  match mode with
  | .null_suppressed => requiredBuflen (numElems shape) vd
  | _ => volume vd shape

/-- NDVecArrayStreamer.hxx 335-350, 359-374: one iteration of `chunk_serializer`, with `write_buffer` (77-82). State: buffer, bytes written. The buffer has just been resized: storing more words than it
    then has is undefined behaviour. -/
def writeChunkB (h : Host) (vd : Nat) (ha : Hdr) (buf : List Nat) (mode : Mode) (p : List Nat × List Nat) (st : Mem × List Nat) : Res (Mem × List Nat) :=
  let hv := view ha p.1 p.2
  (chunkWords h vd mode hv buf).bind fun ws =>
  if bufferSize vd mode hv.shape < ws.length then .ub else
  let b := (st.1.resize (bufferSize vd mode hv.shape)).store (ws.flatMap (mem h 4))
  (Mem.bytes (b.take (4 * ws.length))).bind fun data => .ok (b, st.2 ++ (cMeta h).ser (mode.toNat, ws.length) ++ data)

/-- NDVecArrayStreamer.hxx 146-165, 331-377 `serialize_all_chunks`. -/
def serializeChunksB (h : Host) (vd : Nat) (ha : Hdr) (buf : List Nat) (chunk : List Nat) (mode : Mode) (b : Mem) : Res (Mem × List Nat) :=
  if mode = .automatic then .throw
  else (Res.ofLoop (arrayChunkLoop (fuelFor ha.shape) ha.shape chunk)).bind fun boxes => runLoop (writeChunkB h vd ha buf mode) boxes (b, [])

/-- NDVecArrayStreamer.hxx 121-144 `serialize`. -/
def serializeB (h : Host) (vd : Nat) (ha : Hdr) (buf : List Nat) (chunk : List Nat) (mode : Mode) (b : Mem) : Res (List Nat × Mem) :=
  if wellFormed chunk = false then .throw
  else
    (permitsEqual ha.shape chunk).bind fun e =>
    (serializeChunksB h vd ha buf chunk mode b).bind fun r => .ok ((sMeta h ha.shape.length).ser ⟨chunk, ha.shape, accessOf e⟩ ++ r.2, r.1)

/-- NDVecArrayStreamer.hxx 254-309 `append_slice`, see `appendSlice`. -/
def appendSliceB (h : Host) (vd : Nat) (file : List Nat) (hs : Hdr) (src : List Nat) (axis : Nat) (mode : Mode) (b : Mem) : Res (List Nat × Mem) :=
  ((sMeta h hs.shape.length).deser file).bind fun m =>
  if m.1.access = 1 then .throw
  else
    (Res.assert (decide (axis < hs.shape.length))).bind fun _ =>
    if shapeAllowsConcat m.1.array_shape hs.shape axis = false then .throw
    else
      (permitsEqual hs.shape m.1.ser_chunk).bind fun e =>
      let shape' := m.1.array_shape.set axis (wadd (m.1.array_shape.getD axis 0) (hs.shape.getD axis 0))
      let m' : SMeta := ⟨m.1.ser_chunk, shape', accessOf e⟩
      (serializeChunksB h vd hs src m.1.ser_chunk mode b).bind fun r =>
      .ok ((sMeta h hs.shape.length).ser m' ++ file.drop ((sMeta h hs.shape.length).ser m').length ++ r.2, r.1)

end Verif.Stream
