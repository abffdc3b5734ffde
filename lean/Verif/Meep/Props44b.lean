import Verif.Meep.RechunkAny
import Verif.Meep.Props44
/-
C44 (rechunking by several processes): the calls of `RebuildChunksPartial` of the processes overlap in time.
-/
namespace Verif.Meep
open Verif Verif.ND Verif.Dist Verif.Tree Verif.Rebuild Verif.Ops

/-- The states in which all processes have reached the barrier, with uninterrupted partitions in any order or with the finer steps in any order; `m` is the number of partitions. -/
def Reaches (C : Cfg) (S : Sorter) (X : Rech) (m : Nat) (fs : FS) (s : PState) : Prop :=
  (∃ σ, Schedule X.jobs m σ ∧ runLoop (procStep C S X) σ ⟨fs, fun _ => none⟩ = .ok s) ∨
  (∃ σ t, runLoop (fineStep C S X) σ ⟨fs, fun _ => .fresh⟩ = .ok t ∧ (∀ j < X.jobs, (t.proc j).finished) ∧ s = t.atBarrier)

/-- C44 for a state of the files that has come about in whatever way, with both kinds of steps. -/
theorem rechunk_any (C : Cfg) (hC : C.Ok) (hchunk : C.chunk = (outCfg C).chunk) (hj : ∀ k, C.junk k < 2 ^ 32) (S : Sorter) (Z : SlabSize) (st : MState) (w : World) (e3 : WInv C S Z st w)
    (hcur : w.cur = none) (X : Rech) (ps : List Piece) (hdisk : w.disk X.indir = some ps) (ge : List Nat) (h : CanRechunk C ps ge X) :
    ∃ (parts : List (List Nat × List Nat)) (T : Nat → Nat), (∀ i, InBox X.pre (X.stop ge) i ↔ ∃ p ∈ parts, InBox p.1 p.2 i) ∧ (parts.Pairwise fun p q => DisjointBox p.1 p.2 q.1 q.2) ∧
    (∀ σ, Schedule X.jobs parts.length σ → ∃ s1, runLoop (procStep C S X) σ ⟨st.fs, fun _ => none⟩ = .ok s1) ∧
    (∀ σ : List Nat, ∃ t, runLoop (fineStep C S X) σ ⟨st.fs, fun _ => .fresh⟩ = .ok t ∧ ∀ j, T j ≤ σ.count j → (t.proc j).finished) ∧
    ∀ s1 τ, Reaches C S X parts.length st.fs s1 → Finish X.jobs τ →
    ∃ st2 w' ps', runLoop (finStep C S X parts (X.shape ge)) τ s1 = .ok st2 ∧
      -- the directories
      WInv C S Z ⟨none, st2.fs⟩ w' ∧ w'.cur = none ∧ w'.disk X.out = some ps' ∧ (∀ n < parts.length, ∀ m, st2.fs (X.dir n, m) = none) ∧
      (∀ d, d ≠ X.out → (∀ n < parts.length, d ≠ X.dir n) → w'.disk d = w.disk d ∧ ∀ m, st2.fs (d, m) = st.fs (d, m)) ∧
      -- the chunks
      (∀ b e, BoxOK (List.replicate C.dims 0) (X.shape ge) X.req b e ↔ ∃ p ∈ ps', p.start = b ∧ p.stop = e) ∧ (∀ p ∈ ps', p.overlap = X.overlap) ∧
      (∀ i, InBox (List.replicate C.dims 0) (X.shape ge) i ↔ Covered ps' i) ∧ ps'.Pairwise (fun p q => DisjointBox p.start p.stop q.start q.stop) ∧
      -- the values
      (∀ p' ∈ ps', ∀ i, InBox p'.start p'.stop i → ∃ p ∈ ps, InBox p.start p.stop (addVec i X.pre) ∧ p'.val i = p.val (addVec i X.pre)) ∧
      (∀ more, AllLegal C w' more → ∃ st' outs', MState.run C S ⟨none, st2.fs⟩ more = .ok (st', outs') ∧ AllAnswer C w' more outs') ∧
      -- the padding
      (∀ init, ∃ lib, Lib.open C S st2.fs X.out init = .ok lib ∧ ∀ i, InBox (List.replicate C.dims 0) (X.shape ge) i →
        ∃ lib'' fs'' m a, chunkAt C lib st2.fs i = .ok (lib'', fs'', m, a) ∧ InBox m.start m.stop i ∧ BoxOK (List.replicate C.dims 0) (X.shape ge) X.req m.start m.stop ∧ m.overlap = X.overlap ∧
        ((m.ctype = .specified ∧ a.shape = (subVec m.stop m.start).map (· + 2 * X.overlap) ∧
          ∀ j, InBoxZ (padStart m.start X.overlap) (padEnd m.stop X.overlap) j →
            ∃ v, a.get C.vd (loc (padStart m.start X.overlap) j) = .ok v ∧ PadValue C.vd ps ge (shiftZ X.pre j) v) ∨
         (m.ctype = .all_null ∧
          ∀ j, InBoxZ (padStart m.start X.overlap) (padEnd m.stop X.overlap) j → PadValue C.vd ps ge (shiftZ X.pre j) (List.replicate C.vd 0)))) := by
  obtain ⟨cs, hsv, hr, hnm⟩ := e3.disk _ _ hdisk
  obtain ⟨parts, hP, hst⟩ := startProc_ok (S := S) (Z := Z) hC h hr
  have hi0 : FInv C S Z ps ge X cs parts st.fs ⟨st.fs, fun _ => .fresh⟩ := ⟨fun _ _ _ => rfl, fun _ => trivial⟩
  have hi1 : PInv C S Z ps ge X cs parts st.fs (fun _ => False) (fun _ => False) ⟨st.fs, fun _ => none⟩ :=
    ⟨fun _ _ _ => rfl, fun j hj => hj.elim, fun j lib q hq => (by cases hq), fun n hn => hn.elim⟩
  have hall := fine_run hC hchunk hj h hr hP hst hsv
  have hreq : ∀ p ∈ parts, ∃ boxes, chunkLoop (fuelFor p.2) p.1 p.2 X.req = some boxes := fun p hp => by
    obtain ⟨_, _, hpart, _⟩ := part_cond (n := 0) hC h hsv.chunky hr hP hp
    have hs : Safe p.1 p.2 X.req := safe_of (by rw [hpart.startLen, hpart.reqLen]) (by rw [hpart.stopLen, hpart.reqLen]) fun d hd => by
      have hd' : d < C.dims := by rw [← hpart.reqLen]; exact hd
      have := hpart.sub d hd'
      have := hpart.reqPos d hd'
      omega
    obtain ⟨boxes, b1, _⟩ := C02_chunk_loop_partitions _ _ _ hs
    exact ⟨boxes, b1 _ lt_fuelFor⟩
  refine ⟨parts, fun j => left X parts j .fresh, hP.cover, hP.disj, fun σ hσ => ?_, fun σ => ?_, fun s1 τ hs hτ => ?_⟩
  · obtain ⟨s1, a1, _⟩ := phase1 hC hchunk hj h hr hP hst hsv σ _ _ _ hσ.enabled hi1
    exact ⟨s1, a1⟩
  · obtain ⟨t, a1, a2, a3⟩ := hall σ _ hi0
    refine ⟨t, a1, fun j hT => finished_of_left hreq a2 ?_⟩
    rw [a3 j]
    replace hT : left X parts j .fresh ≤ σ.count j := hT
    show left X parts j .fresh - _ = 0
    omega
  · rcases hs with ⟨σ, hσ, hrun⟩ | ⟨σ, t, hrun, hf, rfl⟩
    · obtain ⟨s1', a1, a2⟩ := phase1 hC hchunk hj h hr hP hst hsv σ _ _ _ hσ.enabled hi1
      rw [hrun] at a1
      cases a1
      exact rechunk_rest C hC hchunk S Z st w e3 hcur X ps ge h hsv hr hP a2 (fun j hj => Or.inr (hσ.starts hj)) (fun n hn => Or.inr ⟨_, hσ.parts h.jobs.1 hn⟩) hτ
    · obtain ⟨t', a1, a2, _⟩ := hall σ _ hi0
      rw [hrun] at a1
      cases a1
      exact rechunk_rest C hC hchunk S Z st w e3 hcur X ps ge h hsv hr hP (a2.barrier h.jobs.1 hf) (fun j hj => hj) (fun n hn => hn) hτ

/-- **C44.** The same with finer steps: one step of a process is the construction of its array object, the opening of the output library of a partition, ONE CHUNK of a partition, or the flush and
    the closing of the output library of a partition (`fineStep`; made without interruption they are the call of `RebuildChunksPartial`, `fine_alone`).  `σ` says which process makes the next
    step; it is an arbitrary sequence of process numbers.  Then
    * no step fails, whatever `σ` (also if some processes never get to run);
    * for each process there is a number of steps after which it is at the barrier, independent of what the others do;
    * as soon as all processes are at the barrier, the rest (the merge by process 0, the others closing their array objects, in any order) succeeds, and the result is the one of `C44_rechunk`.
    So neither the order nor the overlap in time of the processes matters. -/
theorem C44_any_interleaving (C : Cfg) (hC : C.Ok) (hchunk : C.chunk = (outCfg C).chunk) (hj : ∀ k, C.junk k < 2 ^ 32) (S : Sorter) (Z : SlabSize) (fs : FS) (hfs : ∀ d, fs (d, .index) = none)
    (ops : List LOp) (hl : AllLegal C (World.init fs) ops) (w : World) (hw : (World.init fs).run C ops = w) (hcur : w.cur = none) (X : Rech) (ps : List Piece) (hdisk : w.disk X.indir = some ps)
    (ge : List Nat) (h : CanRechunk C ps ge X) :
    ∃ (st : MState) (outs : List Out) (parts : List (List Nat × List Nat)) (T : Nat → Nat), MState.run C S ⟨none, fs⟩ ops = .ok (st, outs) ∧
    (∀ i, InBox X.pre (X.stop ge) i ↔ ∃ p ∈ parts, InBox p.1 p.2 i) ∧ (parts.Pairwise fun p q => DisjointBox p.1 p.2 q.1 q.2) ∧
    ∀ σ : List Nat, ∃ st1, runLoop (fineStep C S X) σ ⟨st.fs, fun _ => .fresh⟩ = .ok st1 ∧ (∀ j, T j ≤ σ.count j → (st1.proc j).finished) ∧
    ((∀ j < X.jobs, (st1.proc j).finished) → ∀ τ, Finish X.jobs τ →
      ∃ st2 w' ps', runLoop (finStep C S X parts (X.shape ge)) τ st1.atBarrier = .ok st2 ∧
      -- the directories
      w'.cur = none ∧ w'.disk X.out = some ps' ∧ (∀ n < parts.length, ∀ m, st2.fs (X.dir n, m) = none) ∧
      (∀ d, d ≠ X.out → (∀ n < parts.length, d ≠ X.dir n) → w'.disk d = w.disk d ∧ ∀ m, st2.fs (d, m) = st.fs (d, m)) ∧
      -- the chunks
      (∀ b e, BoxOK (List.replicate C.dims 0) (X.shape ge) X.req b e ↔ ∃ p ∈ ps', p.start = b ∧ p.stop = e) ∧ (∀ p ∈ ps', p.overlap = X.overlap) ∧
      (∀ i, InBox (List.replicate C.dims 0) (X.shape ge) i ↔ Covered ps' i) ∧ ps'.Pairwise (fun p q => DisjointBox p.start p.stop q.start q.stop) ∧
      -- the values
      (∀ p' ∈ ps', ∀ i, InBox p'.start p'.stop i → ∃ p ∈ ps, InBox p.start p.stop (addVec i X.pre) ∧ p'.val i = p.val (addVec i X.pre)) ∧
      (∀ more, AllLegal C w' more → ∃ st' outs', MState.run C S ⟨none, st2.fs⟩ more = .ok (st', outs') ∧ AllAnswer C w' more outs') ∧
      -- the padding
      (∀ init, ∃ lib, Lib.open C S st2.fs X.out init = .ok lib ∧ ∀ i, InBox (List.replicate C.dims 0) (X.shape ge) i →
        ∃ lib'' fs'' m a, chunkAt C lib st2.fs i = .ok (lib'', fs'', m, a) ∧ InBox m.start m.stop i ∧ BoxOK (List.replicate C.dims 0) (X.shape ge) X.req m.start m.stop ∧ m.overlap = X.overlap ∧
        ((m.ctype = .specified ∧ a.shape = (subVec m.stop m.start).map (· + 2 * X.overlap) ∧
          ∀ j, InBoxZ (padStart m.start X.overlap) (padEnd m.stop X.overlap) j →
            ∃ v, a.get C.vd (loc (padStart m.start X.overlap) j) = .ok v ∧ PadValue C.vd ps ge (shiftZ X.pre j) v) ∨
         (m.ctype = .all_null ∧
          ∀ j, InBoxZ (padStart m.start X.overlap) (padEnd m.stop X.overlap) j → PadValue C.vd ps ge (shiftZ X.pre j) (List.replicate C.vd 0))))) := by
  obtain ⟨st, outs, e1, e2, e3⟩ := runW_ok hC ops (WInv.init (S := S) (Z := Z) hfs) hl
  rw [hw] at e3
  obtain ⟨parts, T, p1, p2, _, p3, p4⟩ := rechunk_any C hC hchunk hj S Z st w e3 hcur X ps hdisk ge h
  refine ⟨st, outs, parts, T, e1, p1, p2, fun σ => ?_⟩
  obtain ⟨t, a1, a2⟩ := p3 σ
  refine ⟨t, a1, a2, fun hf τ hτ => ?_⟩
  obtain ⟨st2, w', ps', b1, _, r⟩ := p4 _ τ (Or.inr ⟨σ, t, a1, hf, rfl⟩) hτ
  exact ⟨st2, w', ps', b1, r⟩

/-! ### An example -/

namespace Ex44
open Verif.Dist.Ex

/-- The two processes alternate: both have begun their partitions before either has finished its own, and each makes a chunk between two chunks of the other. -/
def ζ : List Nat := [1, 0, 1, 0, 1, 0, 0, 1, 0, 1, 0, 1]

/-- The program with these interleaved steps: who is at the barrier, and the chunk around an index of the result. -/
def fineRun (i : List Nat) : Res (List Nat × List Nat × CType × Arr) :=
  (MState.run (Rebuild.Ex.cfgI 1) Tree.Ex.S ⟨none, fun _ => none⟩ ops).bind fun r =>
  (runLoop (fineStep (Rebuild.Ex.cfgI 1) Tree.Ex.S X) ζ ⟨r.1.fs, fun _ => .fresh⟩).bind fun s =>
  match s.proc 0, s.proc 1 with
  | .idle _ parts [], .idle _ _ [] =>
    (runLoop (finStep (Rebuild.Ex.cfgI 1) Tree.Ex.S X parts [2, 3]) τ s.atBarrier).bind fun t =>
    (Lib.open (Rebuild.Ex.cfgI 1) Tree.Ex.S t.fs 1 [1, 1]).bind fun lib =>
    (chunkAt (Rebuild.Ex.cfgI 1) lib t.fs i).bind fun c => .ok (c.2.2.1.start, c.2.2.1.stop, c.2.2.1.ctype, c.2.2.2)
  | _, _ => .ub

/-- The same result as with uninterrupted partitions. -/
example : fineRun [0, 1] = .ok ([0, 0], [1, 2], .specified, ⟨[3, 4], [3, 4, 3, 4,  1, 2, 1, 2,  3, 4, 3, 4]⟩) := by decide +kernel
example : fineRun [1, 2] = .ok ([1, 2], [2, 3], .specified, ⟨[3, 3], [1, 2, 0,  3, 4, 0,  0, 0, 0]⟩) := by decide +kernel

/-- After half of the steps both processes are in the middle of a partition: process 0 in partition 0, process 1 in partition 1. -/
example : ((MState.run (Rebuild.Ex.cfgI 1) Tree.Ex.S ⟨none, fun _ => none⟩ ops).bind fun r =>
    (runLoop (fineStep (Rebuild.Ex.cfgI 1) Tree.Ex.S X) (ζ.take 6) ⟨r.1.fs, fun _ => .fresh⟩).bind fun s =>
    match s.proc 0, s.proc 1 with
    | .busy _ _ b, .busy _ _ c => .ok (b.n, b.todo.length, c.n, c.todo.length)
    | _, _ => .ub) = .ok (0, 1, 1, 1) := by decide +kernel

/-- The conditions of the theorem hold. -/
example : ∃ (st : MState) (T : Nat → Nat), ∀ σ : List Nat, ∃ st1, runLoop (fineStep (Rebuild.Ex.cfgI 1) Tree.Ex.S X) σ ⟨st.fs, fun _ => .fresh⟩ = .ok st1 ∧
    ∀ j, T j ≤ σ.count j → (st1.proc j).finished := by
  obtain ⟨st, outs, parts, T, _, _, _, h⟩ := C44_any_interleaving (Rebuild.Ex.cfgI 1) (Rebuild.Ex.cfgI_ok 1) rfl (fun _ => (by show 77 < 2 ^ 32; decide)) Tree.Ex.S Tree.Ex.Z (fun _ => none)
    (fun _ => rfl) ops legal _ rfl rfl X Rebuild.Ex.lib.pieces rfl [2, 4] can
  refine ⟨st, T, fun σ => ?_⟩
  obtain ⟨st1, h1, h2, _⟩ := h σ
  exact ⟨st1, h1, h2⟩

end Ex44

end Verif.Meep
