import Verif.Dist.ReadCfg
import Verif.Meep.Props60
import Verif.Bytes.Props
/-
Making a Green's function of a distributed array and opening it again (GreensFunction.hxx 69-84, 475-492).

The file `green.meta` is kept apart from the other files: it has a name that no chunk file and no index file has.
-/
namespace Verif.Green
open Verif Verif.ND Verif.Dist Verif.Tree Verif.Bytes

/-! ### The program -/

/-- The files: those of libraries, and `green.meta` of each directory. -/
structure Disk where
  fs : FS
  green : Nat → Option (List Nat)

/-- ChunkLibrary's short constructor (DistributedNDVecArray.hxx 811-815, DistributedNDVecArray.hh 311): cache size `n`, streamer chunk size `INFTY` in all directions. -/
def readerCfg (C : Cfg) (n : Nat) : Cfg := { C with chunk := List.replicate C.dims (U64 - 1), size := n }

/-- Chunks in the cache are made with this shape (DistributedNDVecArray.hh 311, `init_cache_el_linear_size = 400`). -/
def readerShape (C : Cfg) : List Nat := List.replicate C.dims 400

/-- The statement `CylindricalGreensFunction(start, end, step, std::move(darr))` (GreensFunction.hxx 79-84, 475-480, 489-492) and the end of the life of both objects: the array is flushed, a second library
    object is made on the same directory, the metadata are written, the second object is destroyed, and later the array (which was not moved from). -/
def create (C : Cfg) (S : Sorter) (gm : GFMeta) (lib : Lib) (d : Disk) : Res Disk :=
  (lib.flush C d.fs).bind fun q =>
  (Lib.open (readerCfg C 1) S q.2 q.1.idx.dir (readerShape C)).bind fun g =>
  (g.destroy (readerCfg C 1) q.2).bind fun fs1 =>
  (q.1.destroy C fs1).bind fun fs2 =>
  .ok ⟨fs2, upd d.green q.1.idx.dir (some ((gfMeta C.hst).ser gm))⟩

/-- GreensFunction.hxx 69-77, 482-487: open an existing Green's function. (If there is no file `green.meta` the program goes on with undefined coordinates.) -/
def load (C : Cfg) (S : Sorter) (dir n : Nat) (d : Disk) : Res (Lib × GFMeta) :=
  (Lib.open (readerCfg C n) S d.fs dir (readerShape C)).bind fun g =>
  match d.green dir with
  | none => .ub
  | some f =>
    ((gfMeta C.hst).deser f).bind fun gm =>
    (g.idx.getStart (readerCfg C n)).bind fun x =>
    (Res.assert (decide (x.2 = List.replicate C.dims 0))).bind fun _ =>
    (x.1.getVolume (readerCfg C n)).bind fun y => .ok (⟨g.cc, y.1⟩, gm.1)

end Verif.Green
