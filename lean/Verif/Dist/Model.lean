import Verif.Cache.Model
import Verif.Dist.Store
/-
Model of `ChunkMetadata`, `ChunkCache` (eisvogel/core/impl/DistributedNDVecArray.hh 19-81, 180-293 and DistributedNDVecArray.hxx 10-494).

The file system is a function from (directory, name) to the contents of the file.  Every operation of the code opens a file, reads or writes
it from its beginning and closes it, so a file operation is one step here (crashes inside a flush: `Crash.lean`).  Directories themselves
(`create_directory`, removal of an empty directory), permissions, and I/O errors are not modelled.  Chunks are owning arrays (`Arr`).
-/
namespace Verif.Dist
open Verif Verif.ND Verif.Bytes Verif.Stream

/-- DistributedNDVecArray.hh 19-22. -/
inductive CType where
  | specified
  | all_null
deriving DecidableEq, Repr

/-- DistributedNDVecArray.hh 32-81.  `path` is the sequence of characters of `filepath` (empty: no file).  `start_pos` is left out: it is set
    to 0 in both constructors (DistributedNDVecArray.hxx 423, 429) and never changed. -/
structure Meta where
  ctype : CType
  path : List Nat
  id : Nat
  shape : List Nat
  start : List Nat
  stop : List Nat
  overlap : Nat
  offset : List Nat
deriving DecidableEq, Repr

/-- DistributedNDVecArray.hxx 425-434, constructor. -/
def mkMeta (ctype : CType) (path : List Nat) (id : Nat) (start shape : List Nat) (overlap : Nat) : Meta :=
  { ctype, path, id, shape, start, stop := vadd start shape, overlap, offset := vsubS start overlap }

/-- DistributedNDVecArray.hxx 421-423, default constructor. -/
def defaultMeta (dims : Nat) : Meta :=
  ⟨.specified, [], 0, List.replicate dims 0, List.replicate dims 0, List.replicate dims 0, 0, List.replicate dims 0⟩

/-- `v[axis] += n`. -/
def bump (v : List Nat) (axis n : Nat) : List Nat := v.set axis (wadd (v.getD axis 0) n)

/-- DistributedNDVecArray.hxx 436-441 `GrowChunk<axis>`. -/
def Meta.grow (m : Meta) (axis n : Nat) : Meta := { m with stop := bump m.stop axis n, shape := bump m.shape axis n }

/-- DistributedNDVecArray.hxx 443-450 `SwapAxes<p, q>`. -/
def Meta.swap (m : Meta) (p q : Nat) : Meta :=
  { m with start := swapAt m.start p q, stop := swapAt m.stop p q, shape := swapAt m.shape p q, offset := swapAt m.offset p q }

/-- `static_cast<std::size_t>(chunk_type)`. -/
def CType.toNat : CType → Nat
  | .specified => 0
  | .all_null => 1

/-- `ChunkType{n}` of a stored number; other numbers give a value that is neither enumerator, which the code treats as an error when the chunk is
    used (deserialize_into_cache 297, FillArray 970); here reading such a record is the error. -/
def ctypeOf : Nat → Res CType
  | 0 => .ok .specified
  | 1 => .ok .all_null
  | _ => .throw

/-- DistributedNDVecArray.hxx 471-493 `Traits<ChunkMetadata<dims>>`. -/
def metaCodec (h : Host) (dims : Nat) : Codec Meta where
  ser m := (u64 h).ser m.ctype.toNat ++ (string h).ser m.path ++ (u64 h).ser m.id ++ (array dims (u64 h)).ser m.start ++
    (array dims (u64 h)).ser m.shape ++ (u64 h).ser m.overlap
  deser s :=
    ((u64 h).deser s).bind fun a =>
    (ctypeOf a.1).bind fun ct =>
    ((string h).deser a.2).bind fun b =>
    ((u64 h).deser b.2).bind fun c =>
    ((array dims (u64 h)).deser c.2).bind fun d =>
    ((array dims (u64 h)).deser d.2).bind fun e =>
    ((u64 h).deser e.2).bind fun f => .ok (mkMeta ct b.1 c.1 d.1 e.1 f.1, f.2)

/-! ### Files -/

/-- Names of files in a library directory: chunk files `<path>.chunk` (DistributedNDVecArray.hh 291) and the index `index.bin` (366). -/
inductive Name where
  | chunk (path : List Nat)
  | index
deriving DecidableEq

/-- Directory and name. -/
abbrev FileId := Nat × Name

/-- The files on disk. -/
abbrev FS := FileId → Option (List Nat)

def FS.set (fs : FS) (p : FileId) (c : Option (List Nat)) : FS := fun q => if q = p then c else fs q

/-! ### The chunk cache -/

/-- DistributedNDVecArray.hh 180-189 and 199. -/
inductive Stat where
  | nothing
  | serialize
  | append (axis : Nat)
deriving DecidableEq, Repr

/-- DistributedNDVecArray.hh 192-211. -/
structure Entry where
  info : Meta
  data : Arr
  stat : Stat

/-- DistributedNDVecArray.hh 283-293; the working directory and the cache. The other members are in `Cfg`. -/
structure CC where
  dir : Nat
  cache : Cache.Cache Nat Entry

/-- DistributedNDVecArray.hxx 31-36, constructor: a cache of at least one element. -/
def CC.construct (C : Cfg) (dir : Nat) (init_shape : List Nat) : Res CC :=
  (Cache.construct (max 1 C.size)
    (⟨defaultMeta C.dims, ⟨init_shape, (List.range (volume C.vd init_shape)).map C.junk⟩, .nothing⟩ : Entry) 0).bind fun c => .ok ⟨dir, c⟩

/-- DistributedNDVecArray.hxx 411-417 `get_abs_path`. -/
def absPath (dir : Nat) (m : Meta) : FileId := (dir, .chunk m.path)

/-- DistributedNDVecArray.hxx 364-409 `descope_cache_element`. -/
def descope (C : Cfg) (dir : Nat) (fs : FS) (e : Entry) : Res FS :=
  if e.info.path = [] then
    (Res.assert (decide (e.info.ctype ≠ .specified))).bind fun _ => .ok fs
  else
    match e.stat with
    | .serialize =>
      (serialize C.hst C.vd (e.data.hdr C.vd) e.data.buf C.chunk .null_suppressed).bind fun f =>
      .ok (fs.set (absPath dir e.info) (some f))
    | .append axis =>
      match fs (absPath dir e.info) with
      | none => .abort
      | some f =>
        (appendSlice C.hst C.vd f (e.data.hdr C.vd) e.data.buf axis .null_suppressed).bind fun f' =>
        .ok (fs.set (absPath dir e.info) (some f'))
    | .nothing => .ok fs

/-- `m_streamer.deserialize(ifs, arr)`, reading a whole file into an existing array. -/
def loadFile (C : Cfg) (f : List Nat) (old : Arr) : Res Arr :=
  (deserialize C.hst C.vd C.dims (old.hdr C.vd) old.buf C.junk f).bind fun r => .ok ⟨r.1.1.shape, r.1.2⟩

/-- DistributedNDVecArray.hxx 324-362 `sync_cache_element_with_disk`. -/
def sync (C : Cfg) (dir : Nat) (fs : FS) (e : Entry) : Res (FS × Entry) :=
  if e.info.ctype = .all_null then
    (Res.assert (decide (e.info.path = []))).bind fun _ =>
    (Res.assert (decide (e.stat = .nothing))).bind fun _ => .ok (fs, e)
  else
    match fs (absPath dir e.info) with
    | none => .abort
    | some f =>
      match e.stat with
      | .append axis =>
        (appendSlice C.hst C.vd f (e.data.hdr C.vd) e.data.buf axis .null_suppressed).bind fun f' =>
        (loadFile C f' e.data).bind fun a =>
        .ok (fs.set (absPath dir e.info) (some f'), { e with data := a, stat := .nothing })
      | _ => .ok (fs, { e with stat := .nothing })

/-- DistributedNDVecArray.hxx 264-268 and 312-316: if the cache is full, evict the oldest element and handle its outstanding operations. -/
def makeRoom (C : Cfg) (cc : CC) (fs : FS) : Res (CC × FS) :=
  if Cache.hasFreeSlot cc.cache then .ok (cc, fs)
  else
    (Cache.evictOldest cc.cache).bind fun r =>
    (descope C cc.dir fs (r.1.payload r.2)).bind fun fs1 => .ok ({ cc with cache := r.1 }, fs1)

/-- NDVecArray copy assignment into an existing owning array. -/
def assignArr (C : Cfg) (old a : Arr) : Res Arr :=
  (assign C.vd (old.hdr C.vd) old.buf (a.hdr C.vd) a.buf C.junk).bind fun r => .ok ⟨r.1.shape, r.2⟩

/-- DistributedNDVecArray.hxx 304-322 `insert_into_cache`, with 10-19 for the assignment to the slot. -/
def insertInto (C : Cfg) (cc : CC) (fs : FS) (m : Meta) (a : Arr) (s : Stat) : Res (CC × FS) :=
  (Res.assert (!Cache.contains cc.cache m.id)).bind fun _ =>
  (makeRoom C cc fs).bind fun q =>
  (Cache.insertRef q.1.cache m.id).bind fun r =>
  (assignArr C (r.1.payload r.2).data a).bind fun b =>
  .ok ({ q.1 with cache := Cache.store r.1 r.2 ⟨m, b, s⟩ }, q.2)

/-- DistributedNDVecArray.hxx 277-299: the contents of a chunk that is not in the cache. -/
def loadChunk (C : Cfg) (dir : Nat) (fs : FS) (m : Meta) (old : Arr) : Res Arr :=
  match m.ctype with
  | .specified =>
    match fs (absPath dir m) with
    | none => .abort
    | some f => loadFile C f old
  | .all_null => .ok ⟨m.shape, List.replicate (volume C.vd m.shape) 0⟩

/-- DistributedNDVecArray.hxx 260-302 `deserialize_into_cache`; returns the data. -/
def deserInto (C : Cfg) (cc : CC) (fs : FS) (m : Meta) : Res (CC × FS × Arr) :=
  (makeRoom C cc fs).bind fun q =>
  (Cache.insertRef q.1.cache m.id).bind fun r =>
  (loadChunk C q.1.dir q.2 m (r.1.payload r.2).data).bind fun a =>
  .ok ({ q.1 with cache := Cache.store r.1 r.2 ⟨m, a, .nothing⟩ }, q.2, a)

/-- One iteration of DistributedNDVecArray.hxx 192-195. -/
def flushOne (C : Cfg) (k : Nat) (q : CC × FS) : Res (CC × FS) :=
  (Cache.evict q.1.cache k).bind fun r =>
  (descope C q.1.dir q.2 (r.1.payload r.2)).bind fun fs1 => .ok ({ q.1 with cache := r.1 }, fs1)

/-- DistributedNDVecArray.hxx 187-196 `FlushCache`. -/
def flush (C : Cfg) (cc : CC) (fs : FS) : Res (CC × FS) := runLoop (flushOne C) (Cache.containedElements cc.cache) (cc, fs)

/-- DistributedNDVecArray.hxx 52-54, 133-135, 182-184: write through if the cache was requested with size 0. -/
def flushIfUncached (C : Cfg) (cc : CC) (fs : FS) : Res (CC × FS) := if C.size = 0 then flush C cc fs else .ok (cc, fs)

/-- DistributedNDVecArray.hxx 44-55 `RegisterNewChunk`. -/
def registerNew (C : Cfg) (cc : CC) (fs : FS) (m : Meta) (a : Arr) : Res (CC × FS) :=
  (insertInto C cc fs m a .serialize).bind fun q => flushIfUncached C q.1 q.2

/-- DistributedNDVecArray.hxx 57-71 `RemoveChunk`.  The file that is checked for and removed is `chunk_meta.filepath` itself, relative to the
    current directory and without the suffix `.chunk`; no file of this name is ever written by the library, so nothing is removed. -/
def removeChunk (cc : CC) (m : Meta) : Res CC :=
  if Cache.contains cc.cache m.id then (Cache.evict cc.cache m.id).bind fun r => .ok { cc with cache := r.1 }
  else .ok cc

/-- DistributedNDVecArray.hxx 73-82 `ReplaceChunk`. -/
def replaceChunk (C : Cfg) (cc : CC) (fs : FS) (m m' : Meta) (a : Arr) : Res (CC × FS) :=
  (Res.assert (decide (m.id = m'.id))).bind fun _ =>
  (removeChunk cc m).bind fun cc1 => registerNew C cc1 fs m' a

/-- DistributedNDVecArray.hxx 84-110 `RetrieveChunk`; returns the data. -/
def retrieve (C : Cfg) (cc : CC) (fs : FS) (m : Meta) : Res (CC × FS × Arr) :=
  if Cache.contains cc.cache m.id then
    (Cache.get cc.cache m.id).bind fun r =>
    let e := r.1.payload r.2
    match e.stat with
    | .append _ =>
      (sync C cc.dir fs e).bind fun q =>
      .ok ({ cc with cache := Cache.store r.1 r.2 q.2 }, q.1, q.2.data)
    | _ => .ok ({ cc with cache := r.1 }, fs, e.data)
  else deserInto C cc fs m

/-- NDVecArray `Append<axis>` to the data of a cache entry. -/
def appendArr (C : Cfg) (a s : Arr) (axis : Nat) : Res Arr :=
  (append C.vd (a.hdr C.vd) a.buf (s.hdr C.vd) s.buf axis C.junk).bind fun r => .ok ⟨r.1.shape, r.2⟩

/-- DistributedNDVecArray.hxx 164-179: the entry already waits for being appended to the file. -/
def appendPending (C : Cfg) (dir : Nat) (fs : FS) (e : Entry) (ax axis : Nat) (m : Meta) (s : Arr) : Res (FS × Entry) :=
  (if ax ≠ axis then (sync C dir fs e).bind fun q => .ok (q.1, { q.2 with stat := .append axis }) else .ok (fs, e)).bind fun q =>
  (appendArr C q.2.data s axis).bind fun b => .ok (q.1, { q.2 with info := m, data := b })

/-- DistributedNDVecArray.hxx 112-185 `AppendSlice<axis>`; returns the updated metadata. -/
def appendChunk (C : Cfg) (axis : Nat) (cc : CC) (fs : FS) (m : Meta) (s : Arr) : Res (CC × FS × Meta) :=
  if shapeAllowsConcat m.shape s.shape axis = false then .throw
  else
    let m' := m.grow axis (s.shape.getD axis 0)
    (if Cache.contains cc.cache m.id then
      (Cache.get cc.cache m.id).bind fun r =>
      let e := r.1.payload r.2
      match e.stat with
      | .nothing =>
        (Cache.evict r.1 m.id).bind fun r1 => insertInto C { cc with cache := r1.1 } fs m' s (.append axis)
      | .serialize =>
        (appendArr C e.data s axis).bind fun b =>
        .ok ({ cc with cache := Cache.store r.1 r.2 { e with info := m', data := b } }, fs)
      | .append ax =>
        (appendPending C cc.dir fs e ax axis m' s).bind fun q =>
        .ok ({ cc with cache := Cache.store r.1 r.2 q.2 }, q.1)
     else insertInto C cc fs m' s (.append axis)).bind fun q =>
    (flushIfUncached C q.1 q.2).bind fun q => .ok (q.1, q.2, m')

/-- All chunk files of directory `src` appear in directory `dst` instead (DistributedNDVecArray.hxx 211-217, 243-254, and 1375-1386). -/
def moveFiles (src dst : Nat) (fs : FS) : FS := fun p =>
  match p.2 with
  | .index => fs p
  | .chunk n =>
    if p.1 = dst then (match fs (src, .chunk n) with | some f => some f | none => fs p)
    else if p.1 = src then none else fs p

/-- The same with copies (DistributedNDVecArray.hxx 254).  `std::filesystem::copy` throws if the target exists: see `importCache`. -/
def copyFiles (src dst : Nat) (fs : FS) : FS := fun p =>
  match p.2 with
  | .index => fs p
  | .chunk n => if p.1 = dst then (match fs (src, .chunk n) with | some f => some f | none => fs p) else fs p

/-- DistributedNDVecArray.hxx 198-221 `MoveCache`. -/
def moveCache (C : Cfg) (cc : CC) (fs : FS) (dir : Nat) : Res (CC × FS) :=
  (flush C cc fs).bind fun q => .ok ({ q.1 with dir := dir }, moveFiles q.1.dir dir q.2)

/-- DistributedNDVecArray.hxx 223-237 `ClearCache`. -/
def clearCache (C : Cfg) (cc : CC) (fs : FS) : Res (CC × FS) :=
  (flush C cc fs).bind fun q => .ok (q.1, fun p => match p.2 with | .index => q.2 p | .chunk _ => if p.1 = q.1.dir then none else q.2 p)

/-- DistributedNDVecArray.hxx 239-258 `ImportCache`. -/
def importCache (cc : CC) (fs : FS) (dir : Nat) (move : Bool) : CC × FS :=
  (cc, if move then moveFiles dir cc.dir fs else copyFiles dir cc.dir fs)

end Verif.Dist
