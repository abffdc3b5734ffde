import Verif.Stream.NullSup
import Verif.Array.Model
/-
Model of eisvogel/core/impl/NDVecArrayStreamer.hh and NDVecArrayStreamer.hxx for `T = float`: scalars are float bit
patterns.  A stream is the list of bytes from the current position on.
-/
namespace Verif.Stream
open Verif Verif.ND Verif.Bytes Verif.NullSup

/-- NDVecArrayStreamer.hh 28 `stor::INFTY`. -/
def INFTY : Nat := 2 ^ 64 - 1

/-- NDVecArrayStreamer.hh 10-14. -/
inductive Mode where
  | automatic
  | dense
  | null_suppressed
deriving DecidableEq, Repr

/-- `static_cast<std::size_t>(mode)`. -/
def Mode.toNat : Mode → Nat
  | .automatic => 0
  | .dense => 1
  | .null_suppressed => 2

/-- NDVecArrayStreamer.hxx 10-25; `access` is `AccessMode` (NDVecArrayStreamer.hh 19-22): 0 = modification allowed,
    1 = not allowed. -/
structure SMeta where
  ser_chunk : List Nat
  array_shape : List Nat
  access : Nat
deriving DecidableEq, Repr

/-- NDVecArrayStreamer.hxx 38-58 `Traits<NDVecArrayStreamerMetadata>`. -/
def sMeta (h : Host) (dims : Nat) : Codec SMeta where
  ser m := (array dims (u64 h)).ser m.ser_chunk ++ (array dims (u64 h)).ser m.array_shape ++ (u64 h).ser m.access
  deser s :=
    ((array dims (u64 h)).deser s).bind fun a =>
    ((array dims (u64 h)).deser a.2).bind fun b =>
    ((u64 h).deser b.2).bind fun c => .ok (⟨a.1, b.1, c.1⟩, c.2)

/-- NDVecArrayStreamer.hxx 60-75 `Traits<NDVecArrayStreamerChunkMetadata>`: mode and number of words. -/
def cMeta (h : Host) : Codec (Nat × Nat) where
  ser m := (u64 h).ser m.1 ++ (u64 h).ser m.2
  deser s := ((u64 h).deser s).bind fun a => ((u64 h).deser a.2).bind fun b => .ok ((a.1, b.1), b.2)

/-- IteratorUtils.hh 47-53 with `arr[ind]`: the elements in index order (NDVecArraySerialization.hh 117-153). -/
def readAll (vd : Nat) (hd : Hdr) (buf : List Nat) : List (List Nat) → Res (List (List Nat))
  | [] => .ok []
  | i :: is => (ND.read vd hd buf i).bind fun v => (readAll vd hd buf is).bind fun vs => .ok (v :: vs)

/-- The words one chunk is converted to. Dense: NDVecArrayStreamer.hxx 338-342 with `dense::to_buffer`; null-suppressed:
    362-366 with `suppress_null`. -/
def chunkWords (h : Host) (vd : Nat) (mode : Mode) (hv : Hdr) (buf : List Nat) : Res (List Nat) :=
  match mode with
  | .dense => (loopElems vd hv buf).bind fun es => toBuffer (htonl h) (volume vd hv.shape) es []
  | .null_suppressed => (readAll vd hv buf (arrayElemLoop hv.shape)).bind fun es =>
      suppress (htonl h) (requiredBuflen (numElems hv.shape) vd) vd es 0 []
  | .automatic => .throw

/-- NDVecArrayStreamer.hxx 344-350, 368-374 and 78-83 `write_buffer`: chunk metadata and the memory of the buffer. -/
def chunkRecord (h : Host) (mode : Mode) (ws : List Nat) : List Nat :=
  (cMeta h).ser (mode.toNat, ws.length) ++ ws.flatMap (mem h 4)

/-- NDVecArrayStreamer.hxx 146-165, 331-353, 355-377 `serialize_all_chunks(_dense / _null_suppressed)`: the bytes
    written. -/
def serializeChunks (h : Host) (vd : Nat) (ha : Hdr) (buf : List Nat) (chunk : List Nat) (mode : Mode) :
    Res (List Nat) :=
  if mode = .automatic then .throw
  else
    (Res.ofLoop (arrayChunkLoop (fuelFor ha.shape) ha.shape chunk)).bind fun boxes =>
    runLoop (fun (p : List Nat × List Nat) out =>
      (chunkWords h vd mode (view ha p.1 p.2) buf).bind fun ws => .ok (out ++ chunkRecord h mode ws)) boxes []

/-- NDVecArrayStreamer.hxx 97-107 `is_serialization_chunk_well_formed`. -/
def wellFormed (chunk : List Nat) : Bool := chunk.any (· != INFTY)

/-- NDVecArrayStreamer.hxx 109-119 `permits_equally_sized_serialization_chunks`; `%` by zero is undefined. -/
def permitsEqual : List Nat → List Nat → Res Bool
  | a :: as, c :: cs =>
    if c < a then
      if c = 0 then .ub
      else if a % c ≠ 0 then .ok false
      else permitsEqual as cs
    else permitsEqual as cs
  | _, _ => .ok true

def accessOf (b : Bool) : Nat := if b then 0 else 1

/-- NDVecArrayStreamer.hxx 121-144 `serialize`. -/
def serialize (h : Host) (vd : Nat) (ha : Hdr) (buf : List Nat) (chunk : List Nat) (mode : Mode) : Res (List Nat) :=
  if wellFormed chunk = false then .throw
  else
    (permitsEqual ha.shape chunk).bind fun b =>
    (serializeChunks h vd ha buf chunk mode).bind fun body =>
    .ok ((sMeta h ha.shape.length).ser ⟨chunk, ha.shape, accessOf b⟩ ++ body)

/-- The worker of `loop_over_elements` storing the decoded elements one after the other through the element view
    (NDVecArraySerialization.hh 55-64, 174-198); iteration order as in `C09_loop_over_elements`. -/
def storeElems (vd : Nat) (hv : Hdr) (buf : List Nat) (es : List (List Nat)) : Res (List Nat) :=
  runLoop (fun (x : List Nat × List Nat) b => write vd hv b x.1 x.2) ((arrayElemLoop hv.shape).zip es) buf

/-- NDVecArrayStreamer.hxx 178-206: one iteration of `chunk_deserializer`; state is (rest of the stream, buffer of the
    array).  For an unknown mode nothing is read. -/
def readChunk (h : Host) (vd : Nat) (ha : Hdr) (p : List Nat × List Nat) (st : List Nat × List Nat) :
    Res (List Nat × List Nat) :=
  ((cMeta h).deser st.1).bind fun m =>
  (takeBytes (4 * m.1.2) m.2).bind fun r =>
  let ws := words h m.1.2 r.1
  let hv := view ha p.1 p.2
  let n := numElems hv.shape
  (if m.1.1 = 1 then fromBuffer (htonl h) vd n ws
    else if m.1.1 = 2 then desuppress (htonl h) vd n 0 ws
    else .ok ([], ws)).bind fun q =>
  (storeElems vd hv st.2 q.1).bind fun buf =>
  (Res.assert (q.2.length == 0)).bind fun _ => .ok (r.2, buf)

/-- NDVecArrayStreamer.hxx 167-209 `deserialize` into the array `(hd, dst)`; also returns the rest of the stream. -/
def deserialize (h : Host) (vd dims : Nat) (hd : Hdr) (dst : List Nat) (junk : Nat → Nat) (s : List Nat) :
    Res ((Hdr × List Nat) × List Nat) :=
  ((sMeta h dims).deser s).bind fun m =>
  (resize vd hd dst m.1.array_shape junk).bind fun a =>
  (Res.ofLoop (arrayChunkLoop (fuelFor a.1.shape) a.1.shape m.1.ser_chunk)).bind fun boxes =>
  (runLoop (readChunk h vd a.1) boxes (m.2, a.2)).bind fun st => .ok ((a.1, st.2), st.1)

/-- NDVecArrayStreamer.hxx 254-309 `append_slice` on a stream positioned at the beginning of a file that holds one
    array record and nothing else; the result is the new file. The metadata is overwritten in place, the chunks of the
    slice are written at the end. -/
def appendSlice (h : Host) (vd : Nat) (file : List Nat) (hs : Hdr) (src : List Nat) (axis : Nat) (mode : Mode) :
    Res (List Nat) :=
  ((sMeta h hs.shape.length).deser file).bind fun m =>
  if m.1.access = 1 then .throw
  else
    (Res.assert (decide (axis < hs.shape.length))).bind fun _ =>
    if shapeAllowsConcat m.1.array_shape hs.shape axis = false then .throw
    else
      (permitsEqual hs.shape m.1.ser_chunk).bind fun b =>
      let shape' := m.1.array_shape.set axis (wadd (m.1.array_shape.getD axis 0) (hs.shape.getD axis 0))
      let m' : SMeta := ⟨m.1.ser_chunk, shape', accessOf b⟩
      (serializeChunks h vd hs src m.1.ser_chunk mode).bind fun body =>
      .ok ((sMeta h hs.shape.length).ser m' ++ file.drop ((sMeta h hs.shape.length).ser m').length ++ body)

/-- NDVecArrayStreamer.hxx 311-327 `mark_as_final`. -/
def markAsFinal (h : Host) (dims : Nat) (file : List Nat) : Res (List Nat) :=
  ((sMeta h dims).deser file).bind fun m =>
  if m.1.access ≠ 1 then
    let m' : SMeta := { m.1 with access := 1 }
    .ok ((sMeta h dims).ser m' ++ file.drop ((sMeta h dims).ser m').length)
  else .ok file

end Verif.Stream
