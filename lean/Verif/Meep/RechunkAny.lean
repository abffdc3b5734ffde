import Verif.Meep.RechunkFine
/-
Any interleaving of the steps of `RechunkFine` keeps what a process needs.
-/
namespace Verif.Meep
open Verif Verif.ND Verif.Dist Verif.Tree Verif.Rebuild Verif.Ops

variable {C : Cfg} {S : Sorter} {Z : SlabSize} {ps : List Piece} {ge : List Nat} {X : Rech} {cs : List (Meta × Arr)} {parts : List (List Nat × List Nat)}

theorem upd_at {α : Type} (f : Nat → α) (d : Nat) (x : α) : upd f d x d = x := by unfold upd; rw [if_pos rfl]
theorem upd_off {α : Type} (f : Nat → α) {d d' : Nat} (x : α) (h : d' ≠ d) : upd f d x d' = f d' := by unfold upd; rw [if_neg h]

/-- The state of the loop over chunks does not depend on other directories. -/
theorem loopInv_frame {R : RCfg} {cs cs' : List (Meta × Arr)} {start outStart : List Nat} {boxes : List (List Nat × List Nat)} {dir outdir n : Nat} {idx : Index} {fs₀ fs fs' : FS} {cl : Prop}
    {src out : Lib} {buf : Arr} (h : LoopInv R Z cs start outStart boxes dir outdir idx fs₀ cl n ⟨src, fs, out, buf⟩ cs') (hi : idx.dir = dir)
    (h1 : ∀ m, fs' (dir, m) = fs (dir, m)) (h2 : ∀ m, fs' (outdir, m) = fs (outdir, m)) :
    LoopInv R Z cs start outStart boxes dir outdir idx (fun q => if q.1 = dir ∨ q.1 = outdir then fs₀ q else fs' q) cl n ⟨src, fs', out, buf⟩ cs' where
  src := h.src.frameIndex fun m => by
    have e : src.idx = idx := h.idx
    rw [show (RState.src ⟨src, fs, out, buf⟩).idx.dir = dir by rw [← hi, ← e]]
    exact h1 _
  idx := h.idx
  out := h.out.frameIndex fun m => by rw [h.outDir]; exact h2 _
  outDir := h.outDir
  next := h.next
  len := h.len
  made := h.made
  bits := h.bits
  other := fun d a b m => by
    show fs' _ = if d = dir ∨ d = outdir then _ else _
    rw [if_neg (by simp [a, b])]
  srcFiles := fun m hm => by
    show fs' _ = if dir = dir ∨ dir = outdir then _ else _
    rw [if_pos (Or.inl rfl), h1]; exact h.srcFiles m hm
  outIndex := by
    show fs' _ = if outdir = dir ∨ outdir = outdir then _ else _
    rw [if_pos (Or.inr rfl), h2]; exact h.outIndex
  outFiles := fun m hm => by
    have hm : fs' (outdir, .chunk m) ≠ none := hm
    rw [h2] at hm
    show (if outdir = dir ∨ outdir = outdir then fs₀ (outdir, .chunk m) else _) ≠ none ∨ _
    rw [if_pos (Or.inr rfl)]
    exact h.outFiles m hm
  clean := fun hc => ⟨(h.clean hc).1, fun m => by
    show fs' _ = if dir = dir ∨ dir = outdir then _ else _
    rw [if_pos (Or.inl rfl), h1]; exact (h.clean hc).2 m⟩

/-- The partitions of process `j`. -/
def mine (X : Rech) (parts : List (List Nat × List Nat)) (j : Nat) : List Nat := (List.range parts.length).filter fun n => n % X.jobs = j

theorem mem_mine {j n : Nat} : n ∈ mine X parts j ↔ n < parts.length ∧ n % X.jobs = j := by
  unfold mine; rw [List.mem_filter, List.mem_range, decide_eq_true_iff]

theorem mine_nodup {j : Nat} : (mine X parts j).Nodup := List.Nodup.filter _ List.nodup_range

/-- Partition `n` is done. -/
def PartDoneAt (C : Cfg) (ps : List Piece) (ge : List Nat) (X : Rech) (parts : List (List Nat × List Nat)) (fs : FS) (n : Nat) : Prop :=
  ∃ p cs', parts[n]? = some p ∧ PartFiles C ps ge X n p fs cs'

theorem PartDoneAt.frame {fs fs' : FS} {n : Nat} (h : PartDoneAt C ps ge X parts fs n) (hf : ∀ m, fs' (X.dir n, m) = fs (X.dir n, m)) : PartDoneAt C ps ge X parts fs' n := by
  obtain ⟨p, cs', h1, h2⟩ := h
  exact ⟨p, cs', h1, h2.frame hf⟩

/-- A call of `RebuildChunksPartial` in progress. -/
def BusyOk (C : Cfg) (S : Sorter) (Z : SlabSize) (ge : List Nat) (X : Rech) (cs : List (Meta × Arr)) (parts : List (List Nat × List Nat)) (fs : FS) (b : Busy) : Prop :=
  ∃ (p : List Nat × List Nat) (boxes : List (List Nat × List Nat)) (y : Index) (fs₀ : FS) (cl : Prop) (k : Nat) (cs' : List (Meta × Arr)), parts[b.n]? = some p ∧ cl ∧ y.dir = X.indir ∧
    partCfg C S X b.n b.gs b.ge b.shift = ⟨C, outCfg C, S, cylindrical C.vd, List.replicate C.dims 0, ge, vsub (subVec p.1 X.pre) p.1, X.overlap, true, X.uuid b.n⟩ ∧
    Begun (partCfg C S X b.n b.gs b.ge b.shift) cs p.1 p.2 (subVec p.1 X.pre) X.req boxes ∧ k ≤ boxes.length ∧ b.todo = boxes.zipIdx.drop k ∧
    LoopInv (partCfg C S X b.n b.gs b.ge b.shift) Z cs p.1 (subVec p.1 X.pre) boxes X.indir (X.dir b.n) y fs₀ cl k ⟨b.src, fs, b.out, b.buf⟩ cs' ∧ ∀ m, fs₀ (X.dir b.n, m) = none

theorem BusyOk.frame {fs fs' : FS} {b : Busy} (h : BusyOk C S Z ge X cs parts fs b) (h1 : ∀ m, fs' (X.indir, m) = fs (X.indir, m)) (h2 : ∀ m, fs' (X.dir b.n, m) = fs (X.dir b.n, m)) :
    BusyOk C S Z ge X cs parts fs' b := by
  obtain ⟨p, boxes, y, fs₀, cl, k, cs', q1, q2, q3, q4, q5, q6, q7, q8, q9⟩ := h
  refine ⟨p, boxes, y, _, cl, k, cs', q1, q2, q3, q4, q5, q6, q7, loopInv_frame q8 q3 h1 h2, fun m => ?_⟩
  show (if X.dir b.n = X.indir ∨ X.dir b.n = X.dir b.n then _ else _) = none
  rw [if_pos (Or.inr rfl)]; exact q9 m

/-- What is known about a process. -/
def ProcOk (C : Cfg) (S : Sorter) (Z : SlabSize) (ps : List Piece) (ge : List Nat) (X : Rech) (cs : List (Meta × Arr)) (parts : List (List Nat × List Nat)) (j : Nat) (fs : FS) : FProc → Prop
  | .fresh => True
  | .idle lib q rest => q = parts ∧ Ready C S Z X cs fs lib ∧ ∃ pre, mine X parts j = pre ++ rest ∧ ∀ n ∈ pre, PartDoneAt C ps ge X parts fs n
  | .busy q rest b => q = parts ∧ (∃ pre, mine X parts j = pre ++ b.n :: rest ∧ ∀ n ∈ pre, PartDoneAt C ps ge X parts fs n) ∧ BusyOk C S Z ge X cs parts fs b

theorem ProcOk.frame {j : Nat} {fs fs' : FS} {P : FProc} (h : ProcOk C S Z ps ge X cs parts j fs P) (h1 : ∀ m, fs' (X.indir, m) = fs (X.indir, m))
    (h2 : ∀ n ∈ mine X parts j, ∀ m, fs' (X.dir n, m) = fs (X.dir n, m)) : ProcOk C S Z ps ge X cs parts j fs' P := by
  cases P with
  | fresh => trivial
  | idle lib q rest =>
    obtain ⟨a, b, pre, c, d⟩ := h
    exact ⟨a, b.frame h1, pre, c, fun n hn => (d n hn).frame (h2 n (by rw [c]; simp [hn]))⟩
  | busy q rest b =>
    obtain ⟨a, ⟨pre, c, d⟩, e⟩ := h
    exact ⟨a, ⟨pre, c, fun n hn => (d n hn).frame (h2 n (by rw [c]; simp [hn]))⟩, e.frame h1 (h2 b.n (by rw [c]; simp))⟩

/-- What is known about the state. -/
structure FInv (C : Cfg) (S : Sorter) (Z : SlabSize) (ps : List Piece) (ge : List Nat) (X : Rech) (cs : List (Meta × Arr)) (parts : List (List Nat × List Nat)) (fs₀ : FS) (st : FState) : Prop where
  other : ∀ d, (∀ n < parts.length, d ≠ X.dir n) → ∀ m, st.fs (d, m) = fs₀ (d, m)
  procs : ∀ j, ProcOk C S Z ps ge X cs parts j st.fs (st.proc j)

/-- How many steps partition `n` takes. -/
def cost (X : Rech) (parts : List (List Nat × List Nat)) (n : Nat) : Nat :=
  match parts[n]? with
  | none => 0
  | some p => match chunkLoop (fuelFor p.2) p.1 p.2 X.req with
    | none => 0
    | some boxes => boxes.length + 2

/-- How many steps a process still has to make. -/
def left (X : Rech) (parts : List (List Nat × List Nat)) (j : Nat) : FProc → Nat
  | .fresh => 1 + ((mine X parts j).map (cost X parts)).sum
  | .idle _ _ rest => (rest.map (cost X parts)).sum
  | .busy _ rest b => b.todo.length + 1 + (rest.map (cost X parts)).sum

/-- A step of process `j` that writes only in the directory of a partition of its own. -/
theorem FInv.step (h : CanRechunk C ps ge X) {fs₀ : FS} {st : FState} (hi : FInv C S Z ps ge X cs parts fs₀ st) {j n : Nat} (hn : n ∈ mine X parts j) {fs' : FS} {P : FProc}
    (hfs : ∀ d, d ≠ X.dir n → ∀ m, fs' (d, m) = st.fs (d, m)) (hP : ProcOk C S Z ps ge X cs parts j fs' P) : FInv C S Z ps ge X cs parts fs₀ ⟨fs', upd st.proc j P⟩ where
  other := fun d hd m => (hfs d (hd n (mem_mine.1 hn).1) m).trans (hi.other d hd m)
  procs := fun i => by
    show ProcOk C S Z ps ge X cs parts i fs' (upd st.proc j P i)
    by_cases e : i = j
    · subst e; rw [upd_at]; exact hP
    · rw [upd_off _ _ e]
      refine (hi.procs i).frame (fun m => hfs _ (Ne.symm (h.dirs n).1) m) fun k hk m => hfs _ (fun e' => ?_) m
      have := (h.dirs k).2.2 n e'
      subst this
      exact e ((mem_mine.1 hk).2.symm.trans (mem_mine.1 hn).2)

/-- A step of process `j` that writes nothing. -/
theorem FInv.still {fs₀ : FS} {st : FState} (hi : FInv C S Z ps ge X cs parts fs₀ st) {j : Nat} {P : FProc} (hP : ProcOk C S Z ps ge X cs parts j st.fs P) :
    FInv C S Z ps ge X cs parts fs₀ ⟨st.fs, upd st.proc j P⟩ where
  other := hi.other
  procs := fun i => by
    show ProcOk C S Z ps ge X cs parts i st.fs (upd st.proc j P i)
    by_cases e : i = j
    · subst e; rw [upd_at]; exact hP
    · rw [upd_off _ _ e]; exact hi.procs i

/-- Every step of every process succeeds. -/
theorem fineStep_ok (hC : C.Ok) (hchunk : C.chunk = (outCfg C).chunk) (hjunk : ∀ k, C.junk k < 2 ^ 32) (h : CanRechunk C ps ge X) (hr : Rep C cs ps)
    (hP : PartsOk C ge X parts) (hst : ∀ fs, Saved C fs X.indir cs → ∃ lib, startProc C S X fs = .ok (lib, parts) ∧ Ready C S Z X cs fs lib)
    {fs₀ : FS} (hsv : Saved C fs₀ X.indir cs) {st : FState} (hi : FInv C S Z ps ge X cs parts fs₀ st) (j : Nat) :
    ∃ fs' P, fineStep C S X j st = .ok ⟨fs', upd st.proc j P⟩ ∧ FInv C S Z ps ge X cs parts fs₀ ⟨fs', upd st.proc j P⟩ ∧ left X parts j P = left X parts j (st.proc j) - 1 := by
  have hind : ∀ m, st.fs (X.indir, m) = fs₀ (X.indir, m) := hi.other _ fun n _ => Ne.symm (h.dirs n).1
  have hp := hi.procs j
  cases hj : st.proc j with
  | fresh =>
    obtain ⟨lib, s1, s2⟩ := hst st.fs (hsv.frame hind)
    refine ⟨st.fs, .idle lib parts (mine X parts j), ?_, hi.still ⟨rfl, s2, [], rfl, fun n hn => by cases hn⟩, ?_⟩
    · unfold fineStep
      simp only [hj, s1, Res.ok_bind]
      rfl
    · show ((mine X parts j).map (cost X parts)).sum = 1 + _ - 1
      omega
  | idle lib q rest =>
    rw [hj] at hp
    obtain ⟨rfl, hR, pre, hpre, hdone⟩ := hp
    cases rest with
    | nil =>
      refine ⟨st.fs, .idle lib q [], ?_, hi.still ⟨rfl, hR, pre, hpre, hdone⟩, rfl⟩
      unfold fineStep
      simp only [hj]
    | cons n rest =>
      have hn : n ∈ mine X q j := by rw [hpre]; simp
      have hlt := (mem_mine.1 hn).1
      have hget := List.getElem?_eq_getElem hlt
      obtain ⟨hcs, hout, hpart, hhull, htot⟩ := part_cond (n := n) hC h hsv.chunky hr hP (List.getElem_mem hlt)
      have hdn := h.dirs n
      have hR1 : Ready C S Z X cs (emptyDir st.fs (X.dir n)) lib := hR.frame fun m => by unfold emptyDir; rw [if_neg (Ne.symm hdn.1)]
      obtain ⟨boxes, s0, y, b1, b2, b3, b4, b5, B, hinit⟩ := partBegin_ok (opt := true) hC hjunk hR1.inv hcs hhull hpart (outdir := X.dir n) (by unfold emptyDir; rw [if_pos rfl]) htot
      rw [hR.dir] at b4 hinit
      refine ⟨s0.fs, .busy q rest ⟨n, List.replicate C.dims 0, ge, vsub (subVec (q[n]'hlt).1 X.pre) (q[n]'hlt).1, boxes.zipIdx, s0.src, s0.out, s0.buf⟩, ?_, hi.step h hn (fun d hd m => ?_) ?_, ?_⟩
      · unfold fineStep
        simp only [hj, hget, hout, b1, Res.ok_bind]
      · rw [b5]; unfold emptyDir; rw [if_neg hd]
      · refine ⟨rfl, ⟨pre, hpre, fun k hk => (hdone k hk).frame fun m => ?_⟩, _, boxes, y, _, _, 0, [], hget, hR.clean, b4, rfl, B, Nat.zero_le _, rfl, hinit, fun m => by
          show emptyDir _ _ _ = none
          unfold emptyDir; rw [if_pos rfl]⟩
        rw [b5]
        unfold emptyDir
        rw [if_neg]
        intro e
        have := hdn.2.2 k (Eq.symm e)
        subst this
        have hnd := mine_nodup (X := X) (parts := q) (j := j)
        rw [hpre] at hnd
        exact (List.disjoint_of_nodup_append hnd) hk (by simp)
      · show boxes.zipIdx.length + 1 + _ = (List.map (cost X q) (n :: rest)).sum - 1
        have hc : cost X q n = boxes.length + 2 := by
          unfold cost
          simp only [hget, b2]
        rw [List.length_zipIdx, List.map_cons, List.sum_cons, hc]
        omega
  | busy q rest b =>
    rw [hj] at hp
    obtain ⟨rfl, ⟨pre, hpre, hdone⟩, p, boxes, y, f₀, cl, k, cs', q1, q2, q3, q4, q5, q6, q7, q8, q9⟩ := hp
    have hn : b.n ∈ mine X q j := by rw [hpre]; simp
    have hlt := (mem_mine.1 hn).1
    have hdn := h.dirs b.n
    have hpm : p ∈ q := List.mem_of_getElem? q1
    obtain ⟨n, gs, ge', sh, todo, src, out, buf⟩ := b
    have hne : ∀ k ∈ pre, k ≠ n := fun k hk e => by
      subst e
      have hnd := mine_nodup (X := X) (parts := q) (j := j)
      rw [hpre] at hnd
      exact (List.disjoint_of_nodup_append hnd) hk (by simp)
    cases todo with
    | nil =>
      have hkl : k = boxes.length := by
        have : (boxes.zipIdx.drop k).length = 0 := by rw [← q7]; rfl
        rw [List.length_drop, List.length_zipIdx] at this
        omega
      obtain ⟨fs', e1, e2, e3, e4, e5⟩ := partEnd_ok (S := S) hC rfl rfl rfl q8 q3 hdn.1
      have hD : PartDone C S Z (partCfg C S X n gs ge' sh) cs cs' p.1 p.2 (subVec p.1 X.pre) X.req X.indir (X.dir n) boxes f₀ fs' :=
        ⟨q5.boxOK, q5.cover, q5.disj, q5.num, q5.ctx, e3, q8.len.trans hkl, q8.made, fun d h1 h2 m => by rw [e4 d m h2]; exact q8.other d h1 h2 m,
          fun m hm => by rw [e4 _ _ (Ne.symm hdn.1)]; exact q8.srcFiles m hm, e5⟩
      have hfin := part_files hC hchunk h hsv.chunky hr hP hpm q4 hD q9
      refine ⟨fs', .idle src q rest, ?_, hi.step h hn (fun d hd m => e4 d m hd) ⟨rfl, ⟨e2, (q8.clean q2).1, ?_⟩, pre ++ [n], ?_, ?_⟩, ?_⟩
      · unfold fineStep
        simp only [hj, e1, Res.ok_bind]
      · have e : src.idx = y := q8.idx
        rw [e]; exact q3
      · rw [hpre]; simp
      · intro k hk
        rcases List.mem_append.1 hk with hk | hk
        · exact (hdone k hk).frame fun m => e4 _ _ fun e => hne k hk ((h.dirs k).2.2 n e)
        · rw [List.mem_singleton.1 hk]
          exact ⟨p, cs', q1, hfin⟩
      · show _ = ([] : List ((List Nat × List Nat) × Nat)).length + 1 + (rest.map (cost X q)).sum - 1
        show (rest.map (cost X q)).sum = _
        simp
    | cons x xs =>
      have hkl : k < boxes.length := by
        have hpos : 0 < (boxes.zipIdx.drop k).length := by rw [← q7]; simp
        rw [List.length_drop, List.length_zipIdx] at hpos
        omega
      have hdrop : boxes.zipIdx.drop k = (boxes[k], k) :: boxes.zipIdx.drop (k + 1) := by
        rw [List.drop_eq_getElem_cons (by simp; omega), List.getElem_zipIdx, Nat.zero_add]
      have q7' : x :: xs = boxes.zipIdx.drop k := q7
      rw [hdrop] at q7'
      obtain ⟨rfl, rfl⟩ := List.cons.inj q7'
      obtain ⟨st1, c, e1, e2⟩ := rebuildOne_ok (R := partCfg C S X n gs ge' sh) hC (outCfg_ok hC) hjunk q5.loop q3 (Ne.symm hdn.1) q8 (List.getElem?_eq_getElem hkl)
      have hfs : ∀ d, d ≠ X.dir n → ∀ m, st1.fs (d, m) = st.fs (d, m) := fun d hd m => by
        by_cases hdi : d = X.indir
        · rw [hdi, (e2.clean q2).2, ← (q8.clean q2).2]
        · rw [e2.other d hdi hd, ← q8.other d hdi hd]
      refine ⟨st1.fs, .busy q rest ⟨n, gs, ge', sh, boxes.zipIdx.drop (k + 1), st1.src, st1.out, st1.buf⟩, ?_, hi.step h hn hfs ⟨rfl, ⟨pre, hpre, fun i hk => ?_⟩, ?_⟩, ?_⟩
      · unfold fineStep
        simp only [hj, e1, Res.ok_bind]
      · exact (hdone i hk).frame fun m => hfs _ (fun e => hne i hk ((h.dirs i).2.2 n e)) m
      · exact ⟨p, boxes, y, f₀, cl, k + 1, _, q1, q2, q3, q4, q5, hkl, rfl, e2, q9⟩
      · show (boxes.zipIdx.drop (k + 1)).length + 1 + (rest.map (cost X q)).sum = (boxes.zipIdx.drop (k + 1)).length + 1 + 1 + (rest.map (cost X q)).sum - 1
        omega

/-- Any sequence of steps. -/
theorem fine_run (hC : C.Ok) (hchunk : C.chunk = (outCfg C).chunk) (hjunk : ∀ k, C.junk k < 2 ^ 32) (h : CanRechunk C ps ge X) (hr : Rep C cs ps)
    (hP : PartsOk C ge X parts) (hst : ∀ fs, Saved C fs X.indir cs → ∃ lib, startProc C S X fs = .ok (lib, parts) ∧ Ready C S Z X cs fs lib)
    {fs₀ : FS} (hsv : Saved C fs₀ X.indir cs) : ∀ (σ : List Nat) (st : FState), FInv C S Z ps ge X cs parts fs₀ st →
      ∃ st', runLoop (fineStep C S X) σ st = .ok st' ∧ FInv C S Z ps ge X cs parts fs₀ st' ∧ ∀ j, left X parts j (st'.proc j) = left X parts j (st.proc j) - σ.count j
  | [], st, hi => ⟨st, rfl, hi, fun j => by simp⟩
  | i :: σ, st, hi => by
      obtain ⟨fs', P, e1, e2, e3⟩ := fineStep_ok hC hchunk hjunk h hr hP hst hsv hi i
      obtain ⟨st', f1, f2, f3⟩ := fine_run hC hchunk hjunk h hr hP hst hsv σ _ e2
      refine ⟨st', by simp only [runLoop, e1, Res.ok_bind]; exact f1, f2, fun j => ?_⟩
      rw [f3 j]
      show left X parts j (upd st.proc i P j) - _ = _
      by_cases e : j = i
      · subst e
        rw [upd_at, e3, List.count_cons_self]
        omega
      · rw [upd_off _ _ e, List.count_cons_of_ne (Ne.symm e)]

/-- A process without steps left is at the barrier. -/
theorem finished_of_left {fs₀ : FS} {st : FState} (hreq : ∀ p ∈ parts, ∃ boxes, chunkLoop (fuelFor p.2) p.1 p.2 X.req = some boxes) (hi : FInv C S Z ps ge X cs parts fs₀ st) {j : Nat}
    (h0 : left X parts j (st.proc j) = 0) : (st.proc j).finished := by
  have hp := hi.procs j
  cases hj : st.proc j with
  | fresh =>
    rw [hj] at h0
    replace h0 : 1 + ((mine X parts j).map (cost X parts)).sum = 0 := h0
    omega
  | busy q rest b =>
    rw [hj] at h0
    replace h0 : b.todo.length + 1 + (rest.map (cost X parts)).sum = 0 := h0
    omega
  | idle lib q rest =>
    rw [hj] at h0 hp
    obtain ⟨rfl, _, pre, hpre, _⟩ := hp
    show rest = []
    cases rest with
    | nil => rfl
    | cons n rest =>
      exfalso
      have hlt := (mem_mine.1 (by rw [hpre]; simp : n ∈ mine X q j)).1
      obtain ⟨boxes, hb⟩ := hreq _ (List.getElem_mem hlt)
      have hc : cost X q n = boxes.length + 2 := by
        unfold cost
        simp only [List.getElem?_eq_getElem hlt, hb]
      replace h0 : ((n :: rest).map (cost X q)).sum = 0 := h0
      rw [List.map_cons, List.sum_cons, hc] at h0
      omega

/-- When all processes are at the barrier. -/
theorem FInv.barrier (hJ : 0 < X.jobs) {fs₀ : FS} {st : FState} (hi : FInv C S Z ps ge X cs parts fs₀ st) (hf : ∀ j < X.jobs, (st.proc j).finished) :
    PInv C S Z ps ge X cs parts fs₀ (fun j => j < X.jobs) (fun n => n < parts.length) st.atBarrier where
  other := hi.other
  started := fun j hj => by
    have h1 := hf j hj
    have h2 := hi.procs j
    cases hp : st.proc j with
    | fresh => rw [hp] at h1; exact h1.elim
    | busy q rest b => rw [hp] at h1; exact h1.elim
    | idle lib q rest =>
      rw [hp] at h2
      obtain ⟨rfl, _⟩ := h2
      refine ⟨lib, ?_⟩
      unfold FState.atBarrier
      simp only [hp]
  ready := fun j lib q hj => by
    have h2 := hi.procs j
    unfold FState.atBarrier at hj
    cases hp : st.proc j with
    | fresh => simp only [hp] at hj; cases hj
    | busy q rest b => simp only [hp] at hj; cases hj
    | idle lib' q' rest =>
      simp only [hp] at hj
      cases hj
      rw [hp] at h2
      exact ⟨h2.1, h2.2.1⟩
  done := fun n hn => by
    have hj := Nat.mod_lt n hJ
    have h1 := hf _ hj
    have h2 := hi.procs (n % X.jobs)
    cases hp : st.proc (n % X.jobs) with
    | fresh => rw [hp] at h1; exact h1.elim
    | busy q rest b => rw [hp] at h1; exact h1.elim
    | idle lib q rest =>
      rw [hp] at h1 h2
      obtain ⟨_, _, pre, hpre, hd⟩ := h2
      have h1 : rest = [] := h1
      rw [h1, List.append_nil] at hpre
      exact hd n (by rw [← hpre]; exact mem_mine.2 ⟨hn, rfl⟩)

end Verif.Meep
