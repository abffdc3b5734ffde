import Verif.Dist.Model
import Verif.Tree.Props
/-
Model of `ChunkIndex` and `ChunkLibrary` (DistributedNDVecArray.hxx 497-806 and 810-1105), and of the operations of
`DistributedNDVecArray` that are plain forwards to the library (1112-1172, 1330-1341).

The payload of a tree entry is a `ChunkMetadata` record that the library also modifies through the pointers it gets from the tree.  Here the
records are kept in a list (`heap`), in the order in which the entries were inserted, and the payload of an entry is the position of its record.
`RebuildSTR`, which would move entries, is never called by the library.

`uuid_generate_random` (514-522) is a parameter: the characters of the path it returns.  (The code writes its 37 bytes into an array of 36
characters; this is not modelled.)
-/
namespace Verif.Dist
open Verif Verif.ND Verif.Bytes Verif.Stream

/-! ### ChunkIndex -/

/-- DistributedNDVecArray.hh 164-176.  `dir` is the directory of `m_index_path`. `m_last_accessed_ind` is not used anywhere. -/
structure Index where
  dir : Nat
  nextId : Nat
  tree : Tree.Tree Nat
  heap : List Meta
  valid : Bool
  shape : List Nat
  start : List Nat
  stop : List Nat

/-- `m_chunk_tree.InsertElement(m, m.start_ind, m.end_ind)`. -/
def Index.insert (S : Tree.Sorter) (x : Index) (m : Meta) : Res Index :=
  (Tree.insertElement S x.tree x.heap.length m.start m.stop).bind fun t => .ok { x with tree := t, heap := x.heap ++ [m] }

/-- Inserting a list of records, in order (DistributedNDVecArray.hxx 630-632, 720-722). -/
def Index.insertAll (S : Tree.Sorter) : Index → List Meta → Res Index
  | x, [] => .ok x
  | x, m :: ms => (x.insert S m).bind fun x' => x'.insertAll S ms

/-- DistributedNDVecArray.hxx 699-712 `load_index_entries`; reading a file that does not exist fails in `deserialize`: not modelled, `abort`. -/
def loadEntries (C : Cfg) (fs : FS) (dir : Nat) : Res (List Meta) :=
  match fs (dir, .index) with
  | none => .abort
  | some f => ((vector C.hst (metaCodec C.hst C.dims)).deser f).bind fun r => .ok r.1

def Index.empty (C : Cfg) (dir : Nat) : Index :=
  ⟨dir, 0, Tree.empty C.dims, [], false, List.replicate C.dims 0, List.replicate C.dims 0, List.replicate C.dims 0⟩

/-- DistributedNDVecArray.hxx 498-507, constructor, and 714-723 `load_and_rebuild_index`.  The counter of identifiers starts at 0. -/
def Index.open (C : Cfg) (S : Tree.Sorter) (fs : FS) (dir : Nat) : Res Index :=
  match fs (dir, .index) with
  | none => .ok (Index.empty C dir)
  | some _ => (loadEntries C fs dir).bind fun ms => (Index.empty C dir).insertAll S ms

/-- DistributedNDVecArray.hxx 525-541 `RegisterChunk`; also returns the new record. -/
def Index.register (S : Tree.Sorter) (x : Index) (uuid : List Nat) (start shape : List Nat) (overlap : Nat) (ct : CType) : Res (Index × Meta) :=
  let m := mkMeta ct (if ct = .specified then uuid else []) x.nextId start shape overlap
  (Index.insert S { x with valid := false, nextId := wadd x.nextId 1 } m).bind fun x' => .ok (x', m)

/-- DistributedNDVecArray.hxx 548-555 `GetChunk` (non-const) and 752-755; the record is returned with its position. -/
def Index.getChunk (x : Index) (p : List Nat) : Res (Index × Option (Nat × Meta)) :=
  (Tree.searchPoint x.tree p).bind fun r =>
  match r.2 with
  | none => .ok ({ x with tree := r.1, valid := false }, none)
  | some h =>
    match x.heap[h]? with
    | none => .ub
    | some m => .ok ({ x with tree := r.1, valid := false }, some (h, m))

/-- Following the references in a list of payloads. -/
def derefAll (heap : List Meta) : List Nat → Res (List Meta)
  | [] => .ok []
  | h :: hs =>
    match heap[h]? with
    | none => .ub
    | some m => (derefAll heap hs).bind fun ms => .ok (m :: ms)

/-- DistributedNDVecArray.hxx 557-560 `GetChunks`. -/
def Index.getChunks (x : Index) (lo hi : List Nat) : Res (List Meta) :=
  (Tree.searchRegion x.tree lo hi).bind fun hs => derefAll x.heap hs

/-- DistributedNDVecArray.hxx 562-567 `UpdateChunkInIndex`. -/
def Index.updateBox (x : Index) (p : List Nat) (m : Meta) : Res Index :=
  (Tree.updateBoundingBox x.tree p m.start m.stop).bind fun t => .ok { x with tree := t }

/-- Writing a record through a pointer to it. -/
def Index.setMeta (x : Index) (h : Nat) (m : Meta) : Index := { x with heap := x.heap.set h m }

/-- `GetAllEntries`, `Apply`: the records in the order of the entries (RStarTree.hxx 1178-1199). -/
def Index.all (x : Index) : Res (List Meta) := derefAll x.heap (Tree.getAllEntries x.tree)

/-- DistributedNDVecArray.hxx 574-585 `FlushIndex`. -/
def Index.flush (C : Cfg) (x : Index) (fs : FS) : Res FS :=
  x.all.bind fun ms => .ok (fs.set (x.dir, .index) (some ((vector C.hst (metaCodec C.hst C.dims)).ser ms)))

/-- DistributedNDVecArray.hxx 587-600 `MoveIndex`. -/
def Index.move (C : Cfg) (x : Index) (fs : FS) (dir : Nat) : Res (Index × FS) :=
  (Res.assert (decide (dir ≠ x.dir))).bind fun _ =>
  (Index.flush C { x with dir } (fs.set (x.dir, .index) none)).bind fun fs1 => .ok ({ x with dir }, fs1)

/-- DistributedNDVecArray.hxx 602-614 `ClearIndex`.  The counter of identifiers is not reset. -/
def Index.clear (C : Cfg) (x : Index) (fs : FS) : Index × FS :=
  ({ x with valid := false, shape := List.replicate C.dims 0, tree := Tree.clear x.tree, heap := [] }, fs.set (x.dir, .index) none)

/-- DistributedNDVecArray.hxx 624-627: numbering the imported entries. -/
def renumber : Nat → List Meta → List Meta × Nat
  | n, [] => ([], n)
  | n, m :: ms => let r := renumber (wadd n 1) ms; ({ m with id := n } :: r.1, r.2)

/-- DistributedNDVecArray.hxx 616-638 `ImportIndex`. -/
def Index.import (C : Cfg) (S : Tree.Sorter) (x : Index) (fs : FS) (dir : Nat) (move : Bool) : Res (Index × FS) :=
  (loadEntries C fs dir).bind fun ms =>
  let r := renumber x.nextId ms
  (Index.insertAll S { x with valid := false, nextId := r.2 } r.1).bind fun x' => .ok (x', if move then fs.set (dir, .index) none else fs)

/-- `number_elements` (DistributedNDVecArray.hxx 780-782). -/
def numberElements (sh : List Nat) : Nat := sh.foldl (fun a x => a * x % U64) 1

/-- DistributedNDVecArray.hxx 762-806 `calculate_and_cache_index_metadata`. -/
def Index.calc (C : Cfg) (x : Index) : Res Index :=
  if Tree.isEmpty x.tree then
    .ok { x with start := List.replicate C.dims 0, stop := List.replicate C.dims 0, shape := List.replicate C.dims 0, valid := true }
  else
    (Tree.getBoundingBox x.tree).bind fun b =>
    x.all.bind fun ms =>
    let elements_from_shape := numberElements (vsub b.stop b.start)
    let elements_in_chunks := ms.foldl (fun n m => wadd n (numberElements (vsub m.stop m.start))) 0
    .ok { x with
      start := b.start, stop := b.stop
      shape := if elements_in_chunks = elements_from_shape then vsub b.stop b.start else List.replicate C.dims 0
      valid := true }

/-- `if(!m_index_metadata_valid) calculate_and_cache_index_metadata();` (DistributedNDVecArray.hxx 641-662). -/
def Index.ensure (C : Cfg) (x : Index) : Res Index := if x.valid then .ok x else x.calc C

/-- DistributedNDVecArray.hxx 656-662 `GetShape`. -/
def Index.getShape (C : Cfg) (x : Index) : Res (Index × List Nat) := (x.ensure C).bind fun x => .ok (x, x.shape)
/-- DistributedNDVecArray.hxx 640-646. -/
def Index.getStart (C : Cfg) (x : Index) : Res (Index × List Nat) := (x.ensure C).bind fun x => .ok (x, x.start)
/-- DistributedNDVecArray.hxx 648-654. -/
def Index.getStop (C : Cfg) (x : Index) : Res (Index × List Nat) := (x.ensure C).bind fun x => .ok (x, x.stop)
/-- DistributedNDVecArray.hxx 664-672 `GetVolume`. -/
def Index.getVolume (C : Cfg) (x : Index) : Res (Index × Nat) := (x.getShape C).bind fun r => .ok (r.1, numberElements r.2)

/-- DistributedNDVecArray.hxx 725-734 `get_overlap_start_ind`. -/
def overlapStart (m : Meta) (lo : List Nat) : List Nat := List.zipWith max lo m.start
/-- DistributedNDVecArray.hxx 736-745 `get_overlap_end_ind`. -/
def overlapEnd (m : Meta) (hi : List Nat) : List Nat := List.zipWith min hi m.stop

/-! ### ChunkLibrary -/

/-- DistributedNDVecArray.hh 370-378; `m_libdir` is the directory of the cache. -/
structure Lib where
  cc : CC
  idx : Index

/-- DistributedNDVecArray.hxx 818-829, constructor. -/
def Lib.open (C : Cfg) (S : Tree.Sorter) (fs : FS) (dir : Nat) (init_shape : List Nat) : Res Lib :=
  (Index.open C S fs dir).bind fun x => (CC.construct C dir init_shape).bind fun cc => .ok ⟨cc, x⟩

/-- The test `value == 0` for the numbers in the arrays (the bit patterns of `+0.0f` and `-0.0f`). -/
def floatNull (w : Nat) : Bool := decide (w = 0 ∨ w = 2 ^ 31)

/-- DistributedNDVecArray.hxx 831-855 `RegisterChunk`; `opt` is the hint `ENABLE_OPT`. -/
def Lib.register (C : Cfg) (S : Tree.Sorter) (lib : Lib) (fs : FS) (uuid : List Nat) (a : Arr) (start stop : List Nat) (overlap : Nat) (opt : Bool) :
    Res (Lib × FS) :=
  (Res.assert (decide (a.shape = (vsub stop start).map (wadd · (2 * overlap))))).bind fun _ =>
  (if opt then (isAllNull C.vd (a.hdr C.vd) a.buf floatNull).bind fun b => .ok (if b then CType.all_null else .specified)
    else .ok .specified).bind fun ct =>
  (lib.idx.register S uuid start (vsub stop start) overlap ct).bind fun r =>
  (registerNew C lib.cc fs r.2 a).bind fun q => .ok (⟨q.1, r.1⟩, q.2)

/-- DistributedNDVecArray.hxx 857-911 `AppendSlice<axis>` without hints.  A null pointer from `GetChunk` is dereferenced. -/
def Lib.append (C : Cfg) (axis : Nat) (lib : Lib) (fs : FS) (start : List Nat) (s : Arr) : Res (Lib × FS) :=
  let p := start.set axis (wsub (start.getD axis 0) 1)
  (lib.idx.getChunk p).bind fun r =>
  match r.2 with
  | none => .ub
  | some (h, m) =>
    if m.ctype ≠ .specified then .throw
    else
      (appendChunk C axis lib.cc fs m s).bind fun q =>
      ((r.1.setMeta h q.2.2).updateBox p q.2.2).bind fun x => .ok (⟨q.1, x⟩, q.2.1)

/-- DistributedNDVecArray.hxx 913-925 `operator[]`. -/
def Lib.get (C : Cfg) (lib : Lib) (fs : FS) (i : List Nat) : Res (Lib × FS × List Nat) :=
  (lib.idx.getChunk i).bind fun r =>
  match r.2 with
  | none => .ub
  | some (_, m) =>
    (retrieve C lib.cc fs m).bind fun q =>
    (q.2.2.get C.vd (vsub i m.offset)).bind fun v => .ok (⟨q.1, r.1⟩, q.2.1, v)

/-- One iteration of DistributedNDVecArray.hxx 939-972; the state is the cache, the files and the buffer of the target array (header `hd`). -/
def fillOne (C : Cfg) (hd : Hdr) (lo hi out : List Nat) (m : Meta) (st : CC × FS × List Nat) : Res (CC × FS × List Nat) :=
  let s := overlapStart m lo
  let e := overlapEnd m hi
  match m.ctype with
  | .all_null =>
    (fill C.vd hd st.2.2 (vadd (vsub s lo) out) (vadd (vsub e lo) out) 0).bind fun b => .ok (st.1, st.2.1, b)
  | .specified =>
    (retrieve C st.1 st.2.1 m).bind fun q =>
    (fillFrom C.vd hd st.2.2 (q.2.2.hdr C.vd) q.2.2.buf (vsub s m.offset) (vsub e m.offset) (vadd (vsub s lo) out)).bind fun b =>
    .ok (q.1, q.2.1, b)

/-- DistributedNDVecArray.hxx 927-973 `FillArray`; the target array is given by its header and buffer. -/
def Lib.fillArray (C : Cfg) (lib : Lib) (fs : FS) (hd : Hdr) (buf : List Nat) (lo hi out : List Nat) : Res (Lib × FS × List Nat) :=
  (Res.assert (hasIndex hd.shape out)).bind fun _ =>
  (Res.assert (hasIndex hd.shape (vsubS (vadd out (vsub hi lo)) 1))).bind fun _ =>
  (lib.idx.getChunks lo hi).bind fun ms =>
  (runLoop (fillOne C hd lo hi out) ms (lib.cc, fs, buf)).bind fun st => .ok (⟨st.1, lib.idx⟩, st.2.1, st.2.2)

/-- DistributedNDVecArray.hxx 1030-1035 `FlushLibrary`: first the index, then the cache. -/
def Lib.flush (C : Cfg) (lib : Lib) (fs : FS) : Res (Lib × FS) :=
  (lib.idx.flush C fs).bind fun fs1 => (Dist.flush C lib.cc fs1).bind fun q => .ok (⟨q.1, lib.idx⟩, q.2)

/-- End of life of a library: the members are destroyed in reverse order, the cache (DistributedNDVecArray.hxx 38-42) and then the index (509-512). -/
def Lib.destroy (C : Cfg) (lib : Lib) (fs : FS) : Res FS :=
  (Dist.flush C lib.cc fs).bind fun q => lib.idx.flush C q.2

/-- DistributedNDVecArray.hxx 991-1008 `MoveLibrary`. -/
def Lib.move (C : Cfg) (lib : Lib) (fs : FS) (dir : Nat) : Res (Lib × FS) :=
  (moveCache C lib.cc fs dir).bind fun q => (lib.idx.move C q.2 dir).bind fun r => .ok (⟨q.1, r.1⟩, r.2)

/-- DistributedNDVecArray.hxx 1010-1017 `ClearLibrary`. -/
def Lib.clear (C : Cfg) (lib : Lib) (fs : FS) : Res (Lib × FS) :=
  let r := lib.idx.clear C fs
  (clearCache C lib.cc r.2).bind fun q => .ok (⟨q.1, r.1⟩, q.2)

/-- DistributedNDVecArray.hxx 1038-1045 `ImportLibrary`. -/
def Lib.import (C : Cfg) (S : Tree.Sorter) (lib : Lib) (fs : FS) (dir : Nat) (move : Bool) : Res (Lib × FS) :=
  (lib.idx.import C S fs dir move).bind fun r =>
  let q := importCache lib.cc r.2 dir move
  .ok (⟨q.1, r.1⟩, q.2)

/-- The worker calls of one chunk in DistributedNDVecArray.hxx 1062-1075. -/
def loopOne (C : Cfg) (lo hi : List Nat) (m : Meta) (st : CC × FS × List (List Nat × List Nat)) : Res (CC × FS × List (List Nat × List Nat)) :=
  (retrieve C st.1 st.2.1 m).bind fun q =>
  (indexLoop C.vd (q.2.2.hdr C.vd) q.2.2.buf (vsub (overlapStart m lo) m.offset) (vsub (overlapEnd m hi) m.offset)).bind fun calls =>
  .ok (q.1, q.2.1, st.2.2 ++ calls.map fun c => (vadd m.offset c.1, c.2))

/-- DistributedNDVecArray.hxx 1055-1076 `index_loop_over_elements(start, end, worker)`: the calls of the worker. -/
def Lib.indexLoopRange (C : Cfg) (lib : Lib) (fs : FS) (lo hi : List Nat) : Res (Lib × FS × List (List Nat × List Nat)) :=
  (lib.idx.getChunks lo hi).bind fun ms =>
  (runLoop (loopOne C lo hi) ms (lib.cc, fs, [])).bind fun st => .ok (⟨st.1, lib.idx⟩, st.2.1, st.2.2)

/-- DistributedNDVecArray.hxx 1047-1053 `index_loop_over_elements(worker)`. -/
def Lib.indexLoopAll (C : Cfg) (lib : Lib) (fs : FS) : Res (Lib × FS × List (List Nat × List Nat)) :=
  (lib.idx.getShape C).bind fun r => Lib.indexLoopRange C { lib with idx := r.1 } fs (List.replicate C.dims 0) r.2

/-- `chunk_worker` of DistributedNDVecArray.hxx 1087-1103 with the worker of `SwapAxes` (980-987).  State: library, files, the new tree's
    records so far, and the array reused for the swapped data. -/
def swapOne (C : Cfg) (S : Tree.Sorter) (p q : Nat) (m : Meta) (st : Lib × FS × Index × Arr) : Res (Lib × FS × Index × Arr) :=
  (retrieve C st.1.cc st.2.1 m).bind fun r =>
  let m' := m.swap p q
  (swapAxes C.vd (r.2.2.hdr C.vd) r.2.2.buf (st.2.2.2.hdr C.vd) st.2.2.2.buf p q C.junk).bind fun b =>
  (replaceChunk C r.1 r.2.1 m m' ⟨b.1.shape, b.2⟩).bind fun c =>
  (st.1.idx.updateBox m.start m').bind fun x =>
  (st.2.2.1.insert S m').bind fun y => .ok (⟨c.1, x⟩, c.2, y, ⟨b.1.shape, b.2⟩)

/-- DistributedNDVecArray.hxx 975-989 `SwapAxes`, 1078-1105 `map_over_chunks`, 674-697 `Map`: the records are visited in the order of the old
    tree; the modified copies go into a new tree, which then replaces the old one. -/
def Lib.swapAxes (C : Cfg) (S : Tree.Sorter) (lib : Lib) (fs : FS) (p q : Nat) : Res (Lib × FS) :=
  lib.idx.all.bind fun ms =>
  (runLoop (swapOne C S p q) ms (lib, fs, Index.empty C lib.idx.dir, ⟨List.replicate C.dims 1, (List.range (volume C.vd (List.replicate C.dims 1))).map C.junk⟩)).bind fun st =>
  .ok (⟨st.1.cc, { st.1.idx with tree := st.2.2.1.tree, heap := st.2.2.1.heap, valid := false }⟩, st.2.1)

end Verif.Dist
