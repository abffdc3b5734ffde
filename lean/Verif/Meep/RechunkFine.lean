import Verif.Meep.RechunkEnd
/-
The parallel rechunking with finer steps: the calls of `RebuildChunksPartial` of different processes overlap in time.

Here a step of a process is: constructing the array object and finding the partitions; emptying the directory of a partition and opening the output library; making one chunk (reading the
region from the input, padding it, writing it to the output); flushing and closing the output library of a partition.  Between any two steps of a process the others can make any
number of steps.  (Within a step a process only reads files in the input directory, which no process changes, and reads and writes files in the directory of its partition, which no other
process uses.)
-/
namespace Verif.Meep
open Verif Verif.ND Verif.Dist Verif.Tree Verif.Rebuild

/-- A call of `RebuildChunksPartial` in progress (DistributedNDVecArray.hxx 1198-1293): the number of the partition, the range of the whole array and the shift of the output (lines 1213-1224), the chunks that are still to be made, the input and output
    libraries and the chunk buffer. -/
structure Busy where
  n : Nat
  gs : List Nat
  ge : List Nat
  shift : List Nat
  todo : List ((List Nat × List Nat) × Nat)
  src : Lib
  out : Lib
  buf : Arr

/-- The parameters of the loop over the chunks of partition `n`. -/
def partCfg (C : Cfg) (S : Sorter) (X : Rech) (n : Nat) (gs ge shift : List Nat) : RCfg := ⟨C, outCfg C, S, cylindrical C.vd, gs, ge, shift, X.overlap, true, X.uuid n⟩

/-- Where a process is in MEEPCylindricalGreensFunctionCalculator.hxx 688-727: not yet started; between two partitions, with the partitions it has still to do; at work on a partition. -/
inductive FProc where
  | fresh
  | idle (lib : Lib) (parts : List (List Nat × List Nat)) (rest : List Nat)
  | busy (parts : List (List Nat × List Nat)) (rest : List Nat) (b : Busy)

/-- The files and the processes. -/
structure FState where
  fs : FS
  proc : Nat → FProc

/-- The next step of process `j`, MEEPCylindricalGreensFunctionCalculator.hxx 688-727. A process that has done all its partitions waits at the barrier. -/
def fineStep (C : Cfg) (S : Sorter) (X : Rech) (j : Nat) (st : FState) : Res FState :=
  match st.proc j with
  | .fresh => (startProc C S X st.fs).bind fun r =>
      .ok ⟨st.fs, upd st.proc j (.idle r.1 r.2 ((List.range r.2.length).filter fun n => n % X.jobs = j))⟩
  | .idle lib parts [] => .ok ⟨st.fs, upd st.proc j (.idle lib parts [])⟩
  | .idle lib parts (n :: rest) =>
    match parts[n]? with
    | none => .ub
    | some p =>
      (partBegin C S (cylindrical C.vd) (X.uuid n) lib (emptyDir st.fs (X.dir n)) p.1 p.2 (vsub p.1 X.pre) X.req (X.dir n) X.overlap true).bind fun b =>
      .ok ⟨b.2.2.fs, upd st.proc j (.busy parts rest ⟨n, b.1.gs, b.1.ge, b.1.shift, b.2.1.zipIdx, b.2.2.src, b.2.2.out, b.2.2.buf⟩)⟩
  | .busy parts rest ⟨_, _, _, _, [], src, out, buf⟩ =>
    (partEnd C ⟨src, st.fs, out, buf⟩).bind fun q => .ok ⟨q.2, upd st.proc j (.idle q.1 parts rest)⟩
  | .busy parts rest ⟨n, gs, ge, sh, x :: xs, src, out, buf⟩ =>
    (rebuildOne (partCfg C S X n gs ge sh) x ⟨src, st.fs, out, buf⟩).bind fun s => .ok ⟨s.fs, upd st.proc j (.busy parts rest ⟨n, gs, ge, sh, xs, s.src, s.out, s.buf⟩)⟩

/-- The process has reached the barrier. -/
def FProc.finished : FProc → Prop
  | .idle _ _ rest => rest = []
  | _ => False

/-- At the barrier: the files, and the array objects of the processes. -/
def FState.atBarrier (st : FState) : PState :=
  ⟨st.fs, fun j => match st.proc j with
    | .idle lib parts _ => some (lib, parts)
    | _ => none⟩

/-! ### The steps without interruption -/

/-- A partition done without interruption: the steps are those of the call of `RebuildChunksPartial`. -/
theorem fine_loop (C : Cfg) (S : Sorter) (X : Rech) (j : Nat) (parts : List (List Nat × List Nat)) (rest : List Nat) (n : Nat) (gs ge sh : List Nat) :
    ∀ (todo : List ((List Nat × List Nat) × Nat)) (st : RState) (proc : Nat → FProc), proc j = .busy parts rest ⟨n, gs, ge, sh, todo, st.src, st.out, st.buf⟩ →
      runLoop (fineStep C S X) (List.replicate (todo.length + 1) j) ⟨st.fs, proc⟩ =
        (runLoop (rebuildOne (partCfg C S X n gs ge sh)) todo st).bind fun s => (partEnd C s).bind fun q => .ok ⟨q.2, upd proc j (.idle q.1 parts rest)⟩
  | [], st, proc, h => by
      simp only [List.length_nil, Nat.zero_add, List.replicate_one, runLoop, Res.ok_bind]
      unfold fineStep
      simp only [h]
      cases partEnd C st <;> rfl
  | x :: xs, st, proc, h => by
      rw [List.length_cons, List.replicate_succ]
      simp only [runLoop]
      have h1 : fineStep C S X j ⟨st.fs, proc⟩ = (rebuildOne (partCfg C S X n gs ge sh) x st).bind fun s => .ok ⟨s.fs, upd proc j (.busy parts rest ⟨n, gs, ge, sh, xs, s.src, s.out, s.buf⟩)⟩ := by
        unfold fineStep
        simp only [h]
      rw [h1]
      cases rebuildOne (partCfg C S X n gs ge sh) x st with
      | ok s =>
        simp only [Res.ok_bind]
        rw [fine_loop C S X j parts rest n gs ge sh xs s (upd proc j (.busy parts rest ⟨n, gs, ge, sh, xs, s.src, s.out, s.buf⟩)) (by unfold upd; rw [if_pos rfl])]
        congr 1; funext s; congr 1; funext q
        congr 2
        funext k
        unfold upd
        split <;> rfl
      | _ => rfl

/-- The same, from the beginning of the partition. -/
theorem fine_alone (C : Cfg) (S : Sorter) (X : Rech) (j : Nat) (lib : Lib) (parts : List (List Nat × List Nat)) (rest : List Nat) (n : Nat) (p : List Nat × List Nat) (hp : parts[n]? = some p) (fs : FS)
    (proc : Nat → FProc) (h : proc j = .idle lib parts (n :: rest)) {boxes : List (List Nat × List Nat)} (hb : chunkLoop (fuelFor p.2) p.1 p.2 X.req = some boxes) :
    runLoop (fineStep C S X) (List.replicate (boxes.length + 2) j) ⟨fs, proc⟩ =
      (rebuildPartial C S (cylindrical C.vd) (X.uuid n) lib (emptyDir fs (X.dir n)) p.1 p.2 (vsub p.1 X.pre) X.req (X.dir n) X.overlap true).bind fun q =>
        .ok ⟨q.2, upd proc j (.idle q.1 parts rest)⟩ := by
  rw [rebuildPartial_split, List.replicate_succ]
  simp only [runLoop]
  have h1 : fineStep C S X j ⟨fs, proc⟩ =
      (partBegin C S (cylindrical C.vd) (X.uuid n) lib (emptyDir fs (X.dir n)) p.1 p.2 (vsub p.1 X.pre) X.req (X.dir n) X.overlap true).bind fun b =>
      .ok ⟨b.2.2.fs, upd proc j (.busy parts rest ⟨n, b.1.gs, b.1.ge, b.1.shift, b.2.1.zipIdx, b.2.2.src, b.2.2.out, b.2.2.buf⟩)⟩ := by
    unfold fineStep
    simp only [h, hp]
  rw [h1]
  cases hbeg : partBegin C S (cylindrical C.vd) (X.uuid n) lib (emptyDir fs (X.dir n)) p.1 p.2 (vsub p.1 X.pre) X.req (X.dir n) X.overlap true with
  | ok b =>
    simp only [Res.ok_bind]
    have hlen : b.2.1 = boxes ∧ b.1 = partCfg C S X n b.1.gs b.1.ge b.1.shift := by
      unfold partBegin at hbeg
      obtain ⟨_, _, hbeg⟩ := Res.bind_eq_ok.1 hbeg
      obtain ⟨_, _, hbeg⟩ := Res.bind_eq_ok.1 hbeg
      obtain ⟨_, _, hbeg⟩ := Res.bind_eq_ok.1 hbeg
      rw [hb] at hbeg
      rw [← Res.ok.inj hbeg]
      exact ⟨rfl, rfl⟩
    have hl : boxes.length + 1 = b.2.1.zipIdx.length + 1 := by rw [List.length_zipIdx, hlen.1]
    rw [hl, fine_loop C S X j parts rest n b.1.gs b.1.ge b.1.shift b.2.1.zipIdx b.2.2 _ (by unfold upd; rw [if_pos rfl]), ← hlen.2]
    cases runLoop (rebuildOne b.1) b.2.1.zipIdx b.2.2 with
    | ok s =>
      simp only [Res.ok_bind]
      congr 1; funext q
      congr 2
      funext k
      unfold upd
      split <;> rfl
    | _ => rfl
  | _ => rfl

end Verif.Meep
