import Verif.Ops.Props34
import Verif.Meep.Slices
/-
Model of the saving callback (MEEPCylindricalGreensFunctionCalculator.hxx 292-439), from the downsampling of the field buffer on, and of the loop over the time
steps (585-599).

The field buffer (filled from MEEP and truncated, 318-371) is an input: `fld n r` is the buffer of simulation chunk `r` at step `n`. The number of steps is an
input; the loop condition is a comparison of `double`s. The names of new chunk files are inputs. Console output is left out.
-/
namespace Verif.Meep
open Verif Verif.ND Verif.Dist Verif.Tree Verif.Ops

/-! ### The program -/

/-- The part of a simulation chunk that is stored: lines 79-87 `storage_chunk_start_ind`, relative to the storage domain (375-376), and `storage_chunk_shape`. -/
structure SimChunk where
  start : List Nat
  shape : List Nat

/-- Lines 131-134: the two buffers that live as long as the simulation, and the storage. -/
structure SaveState where
  proc : Arr
  chunk : Arr
  st : MState

/-- Lines 402-410 (`simulation_chunk_storer`) and 421-429 (`simulation_chunk_appender`), chosen by line 398; DistributedNDVecArray.hxx 1128-1132 for the end index and the
    overlap. `calc_chunk_size_t = 0` is a division by zero. -/
def saveBox (C : Cfg) (S : Sorter) (T n : Nat) (uuid s : List Nat) (proc : Arr) (box : List Nat × List Nat) (q : Arr × MState) : Res (Arr × MState) :=
  (resize C.vd (q.1.hdr C.vd) q.1.buf (vsub box.2 box.1) C.junk).bind fun r =>
  (fillFrom C.vd r.1 r.2 (proc.hdr C.vd) proc.buf box.1 box.2 (s.map fun _ => 0)).bind fun b =>
  (if T = 0 then .ub
   else if n % T = 0 then
    q.2.step C S (.register uuid ⟨r.1.shape, b⟩ (vadd s box.1) (vadd (vadd s box.1) r.1.shape) 0 false)
   else q.2.step C S (.append (vadd s box.1) ⟨r.1.shape, b⟩)).bind fun x => .ok (⟨r.1.shape, b⟩, x.1)

/-- Lines 373-437. `uuid b` is the name for the `b`-th box. -/
def saveChunk (C : Cfg) (S : Sorter) (T L : Nat) (ds : List Nat) (n : Nat) (uuid : Nat → List Nat) (c : SimChunk) (fld : List Nat) (q : SaveState) : Res SaveState :=
  (downsample C.vd (mkHdr C.vd (1 :: c.shape)) fld (n :: c.start) (1 :: ds) (q.proc.hdr C.vd) q.proc.buf C.junk).bind fun r =>
  (getDownsampledShape (n :: c.start) (1 :: c.shape) (1 :: ds)).bind fun sh =>
  (Res.assert (decide (r.1.1.shape = sh))).bind fun _ =>
  if numElems r.1.1.shape = 0 then .ok { q with proc := ⟨r.1.1.shape, r.1.2⟩ }
  else
    (Res.ofLoop (chunkLoop (fuelFor r.1.1.shape) (r.1.1.shape.map fun _ => 0) r.1.1.shape (r.1.1.shape.map fun _ => L))).bind fun boxes =>
    (runLoop (fun (b : (List Nat × List Nat) × Nat) x => saveBox C S T n (uuid b.2) r.2 ⟨r.1.1.shape, r.1.2⟩ b.1 x) boxes.zipIdx (q.chunk, q.st)).bind fun x =>
    .ok ⟨⟨r.1.1.shape, r.1.2⟩, x.1, x.2⟩

/-- Line 598: one call of `loop_in_chunks`. -/
def saveStep (C : Cfg) (S : Sorter) (T L : Nat) (ds : List Nat) (uuid : Nat → Nat → Nat → List Nat) (cs : List SimChunk) (fld : Nat → Nat → List Nat) (n : Nat) (q : SaveState) :
    Res SaveState :=
  runLoop (fun (c : SimChunk × Nat) x => saveChunk C S T L ds n (uuid n c.2) c.1 (fld n c.2) x) cs.zipIdx q

/-- Lines 582-599: `N` steps; `ind_time = stepcnt++`. -/
def simulate (C : Cfg) (S : Sorter) (T L : Nat) (ds : List Nat) (uuid : Nat → Nat → Nat → List Nat) (cs : List SimChunk) (fld : Nat → Nat → List Nat) (N : Nat) (q : SaveState) :
    Res SaveState :=
  runLoop (saveStep C S T L ds uuid cs fld) (List.range N) q

/-! ### Specification -/

/-- The parameters of a simulation make sense. `ds` are the spatial downsampling factors, `T = calc_chunk_size_t`, `L = calc_chunk_size_linear`. The streamer
    chunk size is the one of line 490. -/
structure SimOk (C : Cfg) (T L : Nat) (ds : List Nat) (uuid : Nat → Nat → Nat → List Nat) (cs : List SimChunk) (fld : Nat → Nat → List Nat) (N : Nat) : Prop where
  dims : C.dims = ds.length + 1
  stream : C.chunk = 1 :: List.replicate ds.length (2 ^ 64 - 1)
  posT : 0 < T
  posL : 0 < L
  args : ∀ c ∈ cs, c.shape.length = ds.length ∧ DsOk c.start c.shape ds
  lt : ∀ c ∈ cs, ∀ d < ds.length, c.start.getD d 0 + c.shape.getD d 0 < 2 ^ 62
  apart : cs.Pairwise fun c c' => DisjointBox c.start (addVec c.start c.shape) c'.start (addVec c'.start c'.shape)
  data : ∀ n < N, ∀ r c, cs[r]? = some c → (fld n r).length = volume C.vd (1 :: c.shape) ∧ ∀ w ∈ fld n r, w < 2 ^ 32
  vol : T * L ^ ds.length * C.vd < 2 ^ 62 ∧ L ^ ds.length < 2 ^ 32 ∧ L < 2 ^ 62 ∧ T < 2 ^ 62
  name : ∀ n r b, uuid n r b ≠ [] ∧ (uuid n r b).length < 2 ^ 64
  inj : ∀ n r b n' r' b', uuid n r b = uuid n' r' b' → n = n' ∧ r = r' ∧ b = b'
  steps : N < 2 ^ 62
  total : N * (cs.map fun c => numElems c.shape).sum + 1 < 2 ^ 64

end Verif.Meep
