import Verif.Rebuild.Whole
/-
Model of the parallel rechunking of a Green's function (MEEPCylindricalGreensFunctionCalculator.hxx 154-171, 622-736).

Every process has an array object of its own on the input directory. A process works through its share of the partitions; the calls of `RebuildChunksPartial` of different
processes may be interleaved in any way (the model takes such a call as one step; it reads the input directory and reads and writes the output directory of the partition). After
the barrier the master merges the outputs; all processes destroy their array objects at some time.
-/
namespace Verif.Meep
open Verif Verif.ND Verif.Dist Verif.Tree Verif.Rebuild

/-! ### get_partition_size -/

/-- Line 652: the position of the (first) largest element. -/
def longestAxis (v : List Nat) : Nat := v.idxOf (v.foldr max 0)

/-- Lines 654-656 `number_partitions_actual`: a product of `int`s in any order; overflow is undefined (the model says so if the product of the non-zero factors does not fit). -/
def intProd (v : List Nat) : Res Nat := if prod (v.map fun x => max x 1) < 2 ^ 31 then .ok (prod v) else .ub

/-- Lines 664-666: the loop. -/
def growLoop (ax n : Nat) : Nat → List Nat → Res (List Nat)
  | 0, _ => .diverge
  | fuel + 1, v => (intProd v).bind fun p => if p < n then growLoop ax n fuel (v.set ax (wadd (v.getD ax 0) 1)) else .ok v

/-- Vector.hh `operator*` of two vectors of `size_t`. -/
def vmul (a b : List Nat) : List Nat := List.zipWith (fun x y => x * y % U64) a b

/-- Lines 646-672 `get_partition_size(shape, chunk_size, number_partitions_requested)`. `q a b` is `ceil_nonneg` of the floating-point quotient of `a` and `b`, `guess` is the
    truncated floating-point root of the requested number. -/
def partitionSize (q : Nat → Nat → Nat) (guess : Nat) (shape chunk : List Nat) (n : Nat) : Res (List Nat) :=
  (growLoop (longestAxis shape) n (n + 1) (List.replicate shape.length guess)).bind fun pars =>
  .ok (vmul (List.zipWith q (List.zipWith q shape chunk) pars) chunk)

/-! ### The processes -/

/-- The parameters of `rechunk_mpi`: the directories (input, output, one for each partition), the number of processes, chunk size, overlap, the amount of padding, and the sources of
    file names (for every partition), roundings and roots. -/
structure Rech where
  indir : Nat
  out : Nat
  dir : Nat → Nat
  jobs : Nat
  req : List Nat
  overlap : Nat
  pre : List Nat
  post : List Nat
  uuid : Nat → Nat → List Nat
  q : Nat → Nat → Nat
  guess : Nat

/-- What a process does, as seen from outside: construct the array object and find the partitions; rechunk partition `n`. -/
inductive Ev where
  | start (j : Nat)
  | part (j n : Nat)
deriving DecidableEq

/-- The process. -/
def Ev.job : Ev → Nat
  | .start j => j
  | .part j _ => j

/-- The files, and for every process the array object and the list of partitions. -/
structure PState where
  fs : FS
  proc : Nat → Option (Lib × List (List Nat × List Nat))

/-- Lines 154-163 `ensure_empty_directory`. -/
def emptyDir (fs : FS) (d : Nat) : FS := fun p => if p.1 = d then none else fs p

/-- Lines 688, 691-702, 727: the array object, and the partitions that `index_loop_over_chunks` will hand out. -/
def startProc (C : Cfg) (S : Sorter) (X : Rech) (fs : FS) : Res (Lib × List (List Nat × List Nat)) :=
  (Lib.open C S fs X.indir (List.replicate C.dims 1)).bind fun lib =>
  (lib.idx.getShape C).bind fun s =>
  let shape := vsub (vsub s.2 X.pre) X.post
  (partitionSize X.q X.guess shape X.req X.jobs).bind fun size =>
  match chunkLoop (fuelFor (vadd X.pre shape)) X.pre (vadd X.pre shape) size with
  | none => .diverge
  | some parts => .ok (⟨lib.cc, s.1⟩, parts)

/-- One step: lines 688-702, or lines 713-724 for one partition. -/
def procStep (C : Cfg) (S : Sorter) (X : Rech) (e : Ev) (st : PState) : Res PState :=
  match e with
  | .start j => (startProc C S X st.fs).bind fun r => .ok { st with proc := upd st.proc j (some r) }
  | .part j n =>
    match st.proc j with
    | none => .ub
    | some (lib, parts) =>
      match parts[n]? with
      | none => .ub
      | some p =>
        (rebuildPartial C S (cylindrical C.vd) (X.uuid n) lib (emptyDir st.fs (X.dir n)) p.1 p.2 (vsub p.1 X.pre) X.req (X.dir n) X.overlap true).bind fun r =>
        .ok { fs := r.2, proc := upd st.proc j (some (r.1, parts)) }

/-- What process `j` of `J` does with `m` partitions: lines 688, 704-727. -/
def program (J m j : Nat) : List Ev := .start j :: ((List.range m).filter fun n => n % J = j).map fun n => .part j n

/-- Lines 622-644 `merge_mpi_chunks` (no cache). -/
def mergeParts (C : Cfg) (S : Sorter) (out : Nat) (dirs : List Nat) (fs : FS) : Res FS :=
  (Lib.open (outCfg C) S (emptyDir fs out) out (List.replicate C.dims 1)).bind fun lib =>
  (runLoop (fun d (r : Lib × FS) => r.1.import (outCfg C) S r.2 d true) dirs (lib, emptyDir fs out)).bind fun r =>
  r.1.destroy (outCfg C) r.2

/-- Lines 165-170 `verify_shape` and the assertion of line 735. -/
def verifyShape (C : Cfg) (S : Sorter) (out : Nat) (shape : List Nat) (fs : FS) : Res FS :=
  (Lib.open C S fs out (List.replicate C.dims 1)).bind fun lib =>
  (lib.idx.getShape C).bind fun s =>
  (s.1.getShape C).bind fun t =>
  (Lib.destroy C ⟨lib.cc, t.1⟩ fs).bind fun fs' =>
  (Res.assert (t.2 == shape)).bind fun _ => .ok fs'

/-- After the barrier: the master (process 0) merges, every process destroys its array object. -/
inductive Fin where
  | merge
  | close (j : Nat)

/-- One step after the barrier: lines 731-736 (master), and the destructor of the array object. -/
def finStep (C : Cfg) (S : Sorter) (X : Rech) (parts : List (List Nat × List Nat)) (shape : List Nat) (e : Fin) (st : PState) : Res PState :=
  match e with
  | .merge => (mergeParts C S X.out ((List.range parts.length).map X.dir) st.fs).bind fun fs => (verifyShape C S X.out shape fs).bind fun fs => .ok { st with fs := fs }
  | .close j =>
    match st.proc j with
    | none => .ub
    | some (lib, _) => (lib.destroy C st.fs).bind fun fs => .ok { fs := fs, proc := upd st.proc j none }

/-! ### Specification -/

/-- The steps before the barrier, in an order that is possible: each process does its own steps in order. -/
structure Schedule (J m : Nat) (σ : List Ev) : Prop where
  order : ∀ j < J, (σ.filter fun e => e.job = j) = program J m j
  only : ∀ e ∈ σ, e.job < J

/-- The steps after the barrier, in a possible order: the master closes its array object after merging. -/
structure Finish (J : Nat) (τ : List Fin) : Prop where
  perm : τ.Perm (.merge :: (List.range J).map .close)
  last : ∃ a b, τ = a ++ .merge :: b ∧ .close 0 ∈ b

end Verif.Meep
