import Verif.Meep.Props43
import Verif.Meep.Props57
/-
Model of the two MEEP callbacks as a whole (MEEPCylindricalGreensFunctionCalculator.hxx 211-439): the probing of the simulation chunks, the filling of the field buffer from MEEP, the statistics tracker, the
limit on the dynamic range and the saving of the buffer (from downsampling on: Save.lean), and of the job of a process with them (453-612).

MEEP is an input: the simulation chunks with the arguments `is`, `ie` of the callbacks, the grid points in the order in which `LOOP_OVER_IVECS` visits them, and the field there. There are no
symmetries and no shift (`meep::identity()`, line 467): `ichild = iparent`. `update_values(idx)` gives the field at the visited point. Numbers are elements of an ordered field `K`; the
conversion between `double` and `scalar_t` loses nothing; `std::sqrt` is any function; `enc` gives the 32 bits of a number in memory. Console output is left out.
-/
namespace Verif.Meep
open Verif Verif.ND Verif.Dist Verif.Tree Verif.Ops

variable {K : Type} [Field K] [LinearOrder K] [IsStrictOrderedRing K]

/-! ### The program -/

/-- The arguments `ichunk`, `is`, `ie` of the callbacks and the points visited by `LOOP_OVER_IVECS` (in twice the grid units, as in MEEP). -/
structure MeepChunk where
  key : Nat
  lo : List Int
  hi : List Int
  pts : List (List Int)

/-- The field in MEEP and the parameters of the calculation. `E n x` are `values[0]` (the z component) and `values[1]` (the r component) of line 352-354 at step `n` and point `x`. -/
structure Phys (K : Type) where
  E : Nat → List Int → K × K
  sqrt : K → K
  absMin : K
  dr : K
  enc : K → Nat
  junk : Nat → K

/-- Lines 217-218 and 344-346: `(std::size_t)((x - 1) / 2)`; the division of `int`s truncates. -/
def cellInd (x : Int) : Nat := ((x - 1).tdiv 2 % 2 ^ 64).toNat

/-- Lines 211-220 `get_cylindrical_chunk_start_ind`. -/
def chunkStartInd (lo : List Int) : Res (List Nat) :=
  (Res.assert (lo.all fun x => decide (0 ≤ x))).bind fun _ => .ok (lo.map cellInd)

/-- Lines 222-239 `get_cylindrical_chunk_shape`. -/
def chunkShapeOf (lo hi : List Int) : List Nat := List.zipWith (fun s e => (max 0 ((e - s).tdiv 2 + 1)).toNat) lo hi

/-- Lines 72-90 `SimulationChunkMetadata`: `chunk_start_ind`, `storage_chunk_start_ind`, `storage_chunk_shape` (`chunk_shape` is not used). `rank` is the number of chunks that were there
    before: it is not in the program and only tells apart the random names of new files. -/
structure ChunkMeta where
  chunkStart : List Nat
  start : List Nat
  shape : List Nat
  rank : Nat

/-- Lines 92-138 `ChunkloopData`, the part that changes: `sim_chunk_meta`, `fstats`, `field_buffer`, `field_absval_buffer`, and the rest in `sv`. -/
structure FillState (K : Type) where
  metas : Nat → Option ChunkMeta
  count : Nat
  tr : Tracker Nat K
  fldb : Hdr × List K
  absb : Hdr × List K
  sv : SaveState

/-- Lines 244-291 `eisvogel_setup_cylindrical_storage_chunkloop`, for the storage domain `[dom, dom + domShape)`. -/
def setupCb (dom domShape : List Nat) (c : MeepChunk) (q : FillState K) : Res (FillState K) :=
  (chunkStartInd c.lo).bind fun s =>
  if overlaps s (chunkShapeOf c.lo c.hi) dom domShape then
    let o := chunkOverlap s (chunkShapeOf c.lo c.hi) dom domShape
    (q.tr.add c.key o.2 0).bind fun t =>
    .ok { q with metas := fun k => if k = c.key then emplace (q.metas c.key) ⟨s, o.1, o.2, q.count⟩ else q.metas k, count := q.count + 1, tr := t }
  else .ok q

/-- Lines 333-361: one point of the loop; `b` are the contents of `field_buffer` and `field_absval_buffer`. -/
def fillPoint (X : Phys K) (n : Nat) (m : ChunkMeta) (hf ha : Hdr) (x : List Int) (b : List K × List K) : Res (List K × List K) :=
  if contains m.start m.shape (x.map cellInd) then
    let ez := (X.E n x).1
    let er := (X.E n x).2
    (write 2 hf b.1 (vsub (n :: x.map cellInd) (n :: m.start)) [er, ez]).bind fun f =>
    (write 1 ha b.2 (vsub (x.map cellInd) m.start) [X.sqrt (ez * ez + er * er)]).bind fun a => .ok (f, a)
  else .ok b

/-- Lines 294-439 `eisvogel_cylindrical_saving_chunkloop` at step `n`. -/
def saveCb (X : Phys K) (C : Cfg) (S : Sorter) (T L : Nat) (ds : List Nat) (dom : List Nat) (uuid : Nat → Nat → Nat → List Nat) (n : Nat) (c : MeepChunk) (q : FillState K) : Res (FillState K) :=
  match q.metas c.key with
  | none => .ok q
  | some m =>
    (resize 1 q.absb.1 q.absb.2 m.shape X.junk).bind fun a =>
    (resize 2 q.fldb.1 q.fldb.2 (1 :: m.shape) X.junk).bind fun f =>
    (chunkStartInd c.lo).bind fun s =>
    (Res.assert (decide (s = m.chunkStart))).bind fun _ =>
    (runLoop (fillPoint X n m f.1 a.1) c.pts (f.2, a.2)).bind fun b =>
    (q.tr.update c.key a.1 b.2).bind fun t =>
    (limitRange 2 t c.key f.1 b.1 a.1 b.2 X.absMin X.dr).bind fun out =>
    (saveChunk C S T L ds n (uuid n m.rank) ⟨vsub m.start dom, m.shape⟩ (out.map X.enc) q.sv).bind fun sv =>
    .ok { q with tr := t, fldb := (f.1, out), absb := (a.1, b.2), sv := sv }

/-- Line 580: the setup callback for all chunks of the process. -/
def setupAll (dom domShape : List Nat) (cs : List MeepChunk) (q : FillState K) : Res (FillState K) := runLoop (setupCb dom domShape) cs q

/-- Lines 582-599: the saving callback for all chunks of the process, in `N` steps. -/
def fillSteps (X : Phys K) (C : Cfg) (S : Sorter) (T L : Nat) (ds : List Nat) (dom : List Nat) (uuid : Nat → Nat → Nat → List Nat) (cs : List MeepChunk) (N : Nat) (q : FillState K) : Res (FillState K) :=
  runLoop (fun n q => runLoop (saveCb X C S T L ds dom uuid n) cs q) (List.range N) q

/-- A process: its directories, the names of new files, its MEEP simulation chunks. -/
structure MProc where
  work : Nat
  out : Nat
  uuid : Nat → Nat → Nat → List Nat
  chunks : List MeepChunk

/-- The buffers before the first call (lines 573-577, 110-116): shape and contents do not matter. -/
structure Buffers (K : Type) where
  fld : List Nat × List K
  abs : List Nat × List K
  proc : Arr
  chunk : Arr

/-- Lines 491-500 (the tracker has the block size 2), 580-605, and the destructor of the storage. -/
def fillJob (X : Phys K) (C : Cfg) (S : Sorter) (T L : Nat) (ds : List Nat) (N : Nat) (init : List Nat) (B : Buffers K) (p : Padded) (P : MProc) (st : MState) : Res MState :=
  (st.run C S [.open P.work init]).bind fun r =>
  (setupAll p.start p.shape P.chunks ⟨fun _ => none, 0, Tracker.new Nat K 2, (mkHdr 2 B.fld.1, B.fld.2), (mkHdr 1 B.abs.1, B.abs.2), ⟨B.proc, B.chunk, r.1⟩⟩).bind fun q0 =>
  (fillSteps X C S T L ds p.start P.uuid P.chunks N q0).bind fun q =>
  (q.sv.st.run C S [.swap 0 ds.length, .move P.out, .close]).bind fun r => .ok r.1

/-! ### Specification -/

/-- The MEEP grid point with the given index: the points of the `Centered` grid have odd coordinates. -/
def node (i : List Nat) : List Int := i.map fun (k : Nat) => 2 * (k : Int) + 1

/-- The field at a grid point, radial component first, and its magnitude. -/
def Phys.vec (X : Phys K) (n : Nat) (i : List Nat) : List K := [(X.E n (node i)).2, (X.E n (node i)).1]
def Phys.mag (X : Phys K) (n : Nat) (i : List Nat) : K := X.sqrt ((X.E n (node i)).1 * (X.E n (node i)).1 + (X.E n (node i)).2 * (X.E n (node i)).2)

/-- The indices of the grid points of a simulation chunk: first index and number. -/
def MeepChunk.box (c : MeepChunk) : SimChunk := ⟨c.lo.map fun x => ((x - 1) / 2).toNat, List.zipWith (fun s e => ((e - s) / 2 + 1).toNat) c.lo c.hi⟩

/-- `lo` and `hi` are points of the grid, and the points from `lo` to `hi` are visited. -/
structure MeepChunk.Ok (c : MeepChunk) (dims : Nat) : Prop where
  len : c.lo.length = dims ∧ c.hi.length = dims
  odd : ∀ d < dims, 1 ≤ c.lo.getD d 0 ∧ c.lo.getD d 0 % 2 = 1 ∧ c.hi.getD d 0 % 2 = 1 ∧ c.lo.getD d 0 ≤ c.hi.getD d 0
  pts : ∀ x, x ∈ c.pts ↔ x.length = dims ∧ ∀ d < dims, c.lo.getD d 0 ≤ x.getD d 0 ∧ x.getD d 0 ≤ c.hi.getD d 0 ∧ x.getD d 0 % 2 = 1

/-- The index is in the stored part of the chunk. -/
def MeepChunk.StoredAt (c : MeepChunk) (p : Padded) (i : List Nat) : Prop := InBox c.box.start (addVec c.box.start c.box.shape) i ∧ InBox p.start (addVec p.start p.shape) i

/-- The indices are in the same block of `2 × … × 2` indices; blocks are counted from the first stored index of the chunk. -/
def MeepChunk.SameBlock (c : MeepChunk) (p : Padded) (i j : List Nat) : Prop :=
  ∀ d < p.start.length, (i.getD d 0 - max (c.box.start.getD d 0) (p.start.getD d 0)) / 2 = (j.getD d 0 - max (c.box.start.getD d 0) (p.start.getD d 0)) / 2

/-- `M` is the largest magnitude of the field up to step `n` in the stored part of the chunk in the block of `i` (or zero). -/
structure IsPeak (X : Phys K) (p : Padded) (c : MeepChunk) (n : Nat) (i : List Nat) (M : K) : Prop where
  nonneg : 0 ≤ M
  upper : ∀ n' ≤ n, ∀ j, c.StoredAt p j → c.SameBlock p i j → X.mag n' j ≤ M
  attained : M = 0 ∨ ∃ n' ≤ n, ∃ j, c.StoredAt p j ∧ c.SameBlock p i j ∧ X.mag n' j = M

/-- What is stored for step `n` and index `i`: the field, if its magnitude survives the limit on the dynamic range, and zero otherwise. -/
def IsSample (X : Phys K) (p : Padded) (procs : List MProc) (n : Nat) (i v : List Nat) : Prop :=
  ∃ P ∈ procs, ∃ c ∈ P.chunks, c.StoredAt p i ∧ ∃ M, IsPeak X p c n i M ∧
    (Survives M (X.mag n i) X.absMin X.dr → v = (X.vec n i).map X.enc) ∧ (¬ Survives M (X.mag n i) X.absMin X.dr → v = [X.enc 0, X.enc 0])

/-- A calculation (as in `CalcOk`, without the buffers). -/
structure MeepOk (X : Phys K) (C : Cfg) (T L ds N : Nat) (cal start shape : List Nat) (out : Nat) (fs : FS) (procs : List MProc) : Prop where
  vd : C.vd = 2
  enc : ∀ x, X.enc x < 2 ^ 32
  grid : ∀ P ∈ procs, ∀ c ∈ P.chunks, c.Ok start.length ∧ ∀ d < start.length, c.hi.getD d 0 < 2 * (cal.getD d 0 : Int)
  keys : ∀ P ∈ procs, (P.chunks.map MeepChunk.key).Nodup
  apart : (procs.flatMap fun P => P.chunks).Pairwise fun c c' => DisjointBox c.box.start (addVec c.box.start c.box.shape) c'.box.start (addVec c'.box.start c'.box.shape)
  cover : ∀ i, ValidInd cal i → ∃ P ∈ procs, ∃ c ∈ P.chunks, InBox c.box.start (addVec c.box.start c.box.shape) i
  dims : C.dims = start.length + 1
  stream : C.chunk = 1 :: List.replicate start.length (2 ^ 64 - 1)
  posT : 0 < T
  posL : 0 < L
  dom : DomOk start.length cal start shape ds
  vol : T * L ^ start.length * C.vd < 2 ^ 62 ∧ max T L ^ start.length < 2 ^ 32 ∧ L < 2 ^ 62 ∧ T < 2 ^ 62
  name : ∀ P ∈ procs, ∀ n r b, P.uuid n r b ≠ [] ∧ (P.uuid n r b).length < 2 ^ 64
  inj : ∀ P ∈ procs, ∀ n r b n' r' b', P.uuid n r b = P.uuid n' r' b' → n = n' ∧ r = r' ∧ b = b'
  names : procs.Pairwise fun P P' => ∀ n r b n' r' b', P.uuid n r b ≠ P'.uuid n' r' b'
  dirs : procs.Pairwise fun P P' => P.work ≠ P'.work ∧ P.work ≠ P'.out ∧ P.out ≠ P'.work ∧ P.out ≠ P'.out
  own : ∀ P ∈ procs, P.work ≠ P.out ∧ P.out ≠ out ∧ out ≠ P.work
  clean : ∀ P ∈ procs, ∀ n, fs (P.work, .chunk n) = none ∧ fs (P.out, .chunk n) = none
  index : ∀ d, fs (d, .index) = none
  steps : N < 2 ^ 62
  total : N * prod cal + 1 < 2 ^ 64

end Verif.Meep
