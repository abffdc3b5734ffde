import Verif.Meep.Team
import Verif.Meep.Props61
/-
C102 (the processes of a calculation run at the same time).

Fill.lean and Jobs.lean run one process after the other. Here the steps of all processes, the library calls and the MEEP callbacks of one simulation chunk, are interleaved in an arbitrary order.
-/
namespace Verif.Meep
open Verif Verif.ND Verif.Dist Verif.Tree Verif.Ops Verif.Rebuild

variable {K : Type} [Field K] [LinearOrder K] [IsStrictOrderedRing K]

/-! ### The program -/

/-- One step of a process (MEEPCylindricalGreensFunctionCalculator.hxx): a call of the storage library, the setup callback (580) or the saving callback (598) for one simulation chunk. -/
inductive Act where
  | call (op : LOp)
  | setup (c : MeepChunk)
  | save (n : Nat) (c : MeepChunk)

/-- What the step does to the state of the process, as in `fillJob`. -/
def Act.run (X : Phys K) (C : Cfg) (S : Sorter) (T L : Nat) (ds : List Nat) (p : Padded) (uuid : Nat → Nat → Nat → List Nat) (q : FillState K) : Act → Res (FillState K)
  | .call op => (q.sv.st.step C S op).bind fun r => .ok { q with sv := { q.sv with st := r.1 } }
  | .setup c => setupCb p.start p.shape c q
  | .save n c => saveCb X C S T L ds p.start uuid n c q

/-- The steps of a process, in the order of `fillJob` (lines 491-605 and the destructor of the storage). -/
def MProc.acts (P : MProc) (N dims : Nat) (init : List Nat) : List Act :=
  .call (.open P.work init) :: (P.chunks.map .setup ++ ((List.range N).flatMap fun n => P.chunks.map (.save n)) ++ [.call (.swap 0 dims), .call (.move P.out), .call .close])

/-- The state of a process before its first step. -/
def FillState.fresh (K : Type) [Field K] [LinearOrder K] [IsStrictOrderedRing K] (B : Buffers K) (st : MState) : FillState K :=
  ⟨fun _ => none, 0, Tracker.new Nat K 2, (mkHdr 2 B.fld.1, B.fld.2), (mkHdr 1 B.abs.1, B.abs.2), ⟨B.proc, B.chunk, st⟩⟩

/-- The files, in the state of a process. -/
def files (K : Type) : FsPart (FillState K) where
  get q := q.sv.st.fs
  set q f := { q with sv := { q.sv with st := { q.sv.st with fs := f } } }
  get_set _ _ := rfl
  set_set _ _ _ := rfl
  set_get _ := rfl

/-- Process `k` makes the step `a` on the common files. -/
def teamStep (X : Phys K) (C : Cfg) (S : Sorter) (T L : Nat) (ds : List Nat) (p : Padded) (procs : List MProc) : Nat × Act → Team (FillState K) → Res (Team (FillState K)) :=
  Team.step (files K) fun k a q => match procs[k]? with
    | some P => a.run X C S T L ds p P.uuid q
    | none => .ub

/-! ### Specification -/

/-- `σ` contains the steps of all processes, those of each in their order. -/
def Interleaved (procs : List MProc) (N dims : Nat) (init : List Nat) (σ : List (Nat × Act)) : Prop :=
  ∀ k, ofProg k σ = match procs[k]? with
    | some P => P.acts N dims init
    | none => []

/-- No directory is used by two processes. -/
def OwnDirs (procs : List MProc) : Prop := procs.Pairwise fun P P' => P.work ≠ P'.work ∧ P.work ≠ P'.out ∧ P.out ≠ P'.work ∧ P.out ≠ P'.out

/-! ### The steps use only the directories of the process -/

section steps
variable {X : Phys K} {C : Cfg} {S : Sorter} {T L : Nat} {ds : List Nat} {p : Padded} {uuid : Nat → Nat → Nat → List Nat} {D : Nat → Bool} {g : FS}

def ovS (D : Nat → Bool) (g : FS) (st : MState) : MState := ⟨st.lib, ov D g st.fs⟩
def ovSv (D : Nat → Bool) (g : FS) (q : SaveState) : SaveState := { q with st := ovS D g q.st }
def ovQ (D : Nat → Bool) (g : FS) (q : FillState K) : FillState K := { q with sv := ovSv D g q.sv }

theorem saveBox_loc {n : Nat} {u s : List Nat} {proc : Arr} {box : List Nat × List Nat} {q : Arr × MState} (h : q.2.In D) :
    Loc (fun x : Arr × MState => (x.1, ovS D g x.2)) (fun x => x.2.In D) (saveBox C S T n u s proc box (q.1, ovS D g q.2)) (saveBox C S T n u s proc box q) := by
  unfold saveBox
  refine Loc.free fun r _ => Loc.free fun b _ => Loc.bind (o := ovM D g) (P := fun r => r.1.In D) ?_ fun x hx => Loc.ret rfl hx
  split
  · exact Loc.ub
  · split
    · exact step_loc (C := C) (S := S) (g := g) h (fun d hd => by cases hd)
    · exact step_loc (C := C) (S := S) (g := g) h (fun d hd => by cases hd)

theorem saveChunk_loc {n : Nat} {u : Nat → List Nat} {c : SimChunk} {fld : List Nat} {q : SaveState} (h : q.st.In D) :
    Loc (ovSv D g) (fun x => x.st.In D) (saveChunk C S T L ds n u c fld (ovSv D g q)) (saveChunk C S T L ds n u c fld q) := by
  unfold saveChunk
  refine Loc.free fun r _ => Loc.free fun sh _ => Loc.free fun _ _ => ?_
  split
  · exact Loc.ret rfl h
  · exact Loc.free fun boxes _ => Loc.bind (o := fun x : Arr × MState => (x.1, ovS D g x.2)) (P := fun x => x.2.In D) (Loc.loop (fun b x hx => saveBox_loc hx) _ (q.chunk, q.st) h) fun x hx => Loc.ret rfl hx

omit [IsStrictOrderedRing K] in
theorem saveCb_loc {n : Nat} {c : MeepChunk} {q : FillState K} (h : q.sv.st.In D) :
    Loc (ovQ D g) (fun x => x.sv.st.In D) (saveCb X C S T L ds p.start uuid n c (ovQ D g q)) (saveCb X C S T L ds p.start uuid n c q) := by
  unfold saveCb
  have e : (ovQ D g q).metas = q.metas := rfl
  rw [e]
  cases q.metas c.key with
  | none => exact Loc.ret rfl h
  | some m =>
    exact Loc.free fun _ _ => Loc.free fun _ _ => Loc.free fun _ _ => Loc.free fun _ _ => Loc.free fun _ _ => Loc.free fun _ _ => Loc.free fun _ _ =>
      Loc.bind (saveChunk_loc h) fun x hx => Loc.ret rfl hx

omit [LinearOrder K] [IsStrictOrderedRing K] in
theorem setupCb_loc {c : MeepChunk} {q : FillState K} (h : q.sv.st.In D) :
    Loc (ovQ D g) (fun x => x.sv.st.In D) (setupCb p.start p.shape c (ovQ D g q)) (setupCb p.start p.shape c q) := by
  unfold setupCb
  refine Loc.free fun _ _ => ?_
  split
  · exact Loc.free fun _ _ => Loc.ret rfl h
  · exact Loc.ret rfl h

/-- The step names only directories in `D`. -/
def Act.In (D : Nat → Bool) : Act → Prop
  | .call op => op.In D
  | _ => True

omit [IsStrictOrderedRing K] in
theorem act_loc {a : Act} (ha : a.In D) {q : FillState K} (h : q.sv.st.In D) :
    Loc (ovQ D g) (fun x => x.sv.st.In D) (Act.run X C S T L ds p uuid (ovQ D g q) a) (Act.run X C S T L ds p uuid q a) := by
  cases a with
  | call op => exact Loc.bind (step_loc (C := C) (S := S) (g := g) h ha) fun x hx => Loc.ret rfl hx
  | setup c => exact setupCb_loc h
  | save n c => exact saveCb_loc h

end steps

/-! ### One process after the other -/

section seq
variable {X : Phys K} {C : Cfg} {S : Sorter} {T L : Nat} {ds : List Nat} {N : Nat} {init : List Nat} {B : Buffers K} {p : Padded} {procs : List MProc}

theorem runLoop_flat {σ ι κ : Type} {f : κ → σ → Res σ} {g : ι → List κ} : ∀ (l : List ι) (s : σ), runLoop f (l.flatMap g) s = runLoop (fun i => runLoop f (g i)) l s
  | [], _ => rfl
  | i :: l, s => by
      rw [List.flatMap_cons, runLoop_append]
      simp only [runLoop]
      congr 1
      funext t
      exact runLoop_flat l t

/-- The steps of a process, made without interruption, are `fillJob`. -/
theorem fillJob_acts (P : MProc) {fs : FS} {st : MState} (h : fillJob X C S T L ds N init B p P ⟨none, fs⟩ = .ok st) :
    st.lib = none ∧ ∃ q, runLoop (fun a q => Act.run X C S T L ds p P.uuid q a) (P.acts N ds.length init) (FillState.fresh K B ⟨none, fs⟩) = .ok q ∧ q.sv.st = st := by
  unfold fillJob at h
  obtain ⟨r, h1, h2⟩ := Res.bind_eq_ok.1 h
  obtain ⟨q0, h3, h4⟩ := Res.bind_eq_ok.1 h2
  obtain ⟨q1, h5, h6⟩ := Res.bind_eq_ok.1 h4
  obtain ⟨z, h7, h8⟩ := Res.bind_eq_ok.1 h6
  have h8 := Res.ok.inj h8
  subst h8
  -- opening
  obtain ⟨a1, b1, c1⟩ := Res.bind_eq_ok.1 h1
  obtain ⟨a1', b1', c1'⟩ := Res.bind_eq_ok.1 c1
  have b1' := Res.ok.inj b1'
  subst b1'
  have c1' := Res.ok.inj c1'
  subst c1'
  -- the last three calls
  obtain ⟨a2, b2, c2⟩ := Res.bind_eq_ok.1 h7
  obtain ⟨y2, d2, c2⟩ := Res.bind_eq_ok.1 c2
  obtain ⟨a3, b3, c3⟩ := Res.bind_eq_ok.1 d2
  obtain ⟨y3, d3, c3⟩ := Res.bind_eq_ok.1 c3
  obtain ⟨a4, b4, c4⟩ := Res.bind_eq_ok.1 d3
  obtain ⟨y4, d4, c4⟩ := Res.bind_eq_ok.1 c4
  have d4 := Res.ok.inj d4
  subst d4
  have c4 := Res.ok.inj c4
  subst c4
  have c3 := Res.ok.inj c3
  subst c3
  have c2 := Res.ok.inj c2
  subst c2
  refine ⟨?_, { q1 with sv := { q1.sv with st := a4.1 } }, ?_, rfl⟩
  · have b4' : a3.1.step C S .close = .ok a4 := b4
    unfold MState.step at b4'
    cases hl : a3.1.lib with
    | none => rw [hl] at b4'; cases b4'
    | some l =>
      rw [hl] at b4'
      obtain ⟨f, _, e⟩ := Res.bind_eq_ok.1 b4'
      have e := Res.ok.inj e
      show a4.1.lib = none
      rw [← e]
  · unfold MProc.acts
    have e1 : Act.run X C S T L ds p P.uuid (FillState.fresh K B ⟨none, fs⟩) (.call (.open P.work init)) = .ok (FillState.fresh K B a1.1) := by
      show (MState.step C S ⟨none, fs⟩ (.open P.work init)).bind _ = _
      rw [b1]; rfl
    show (Act.run X C S T L ds p P.uuid (FillState.fresh K B ⟨none, fs⟩) (.call (.open P.work init))).bind _ = _
    rw [e1, Res.ok_bind, List.append_assoc, runLoop_append, runLoop_map]
    have e2 : runLoop (fun c q => Act.run X C S T L ds p P.uuid q (.setup c)) P.chunks (FillState.fresh K B a1.1) = .ok q0 := h3
    rw [e2, Res.ok_bind, runLoop_append, runLoop_flat]
    have e3 : runLoop (fun n => runLoop (fun a q => Act.run X C S T L ds p P.uuid q a) (P.chunks.map (.save n))) (List.range N) q0 = .ok q1 := by
      have : (fun n => runLoop (fun a q => Act.run X C S T L ds p P.uuid q a) (P.chunks.map (.save n))) = fun n q => runLoop (saveCb X C S T L ds p.start P.uuid n) P.chunks q := by
        funext n q
        rw [runLoop_map]
        rfl
      rw [this]
      exact h5
    rw [e3, Res.ok_bind]
    have f1 : Act.run X C S T L ds p P.uuid q1 (.call (.swap 0 ds.length)) = .ok { q1 with sv := { q1.sv with st := a2.1 } } := by
      show (q1.sv.st.step C S (.swap 0 ds.length)).bind _ = _
      rw [b2]; rfl
    have f2 : Act.run X C S T L ds p P.uuid { q1 with sv := { q1.sv with st := a2.1 } } (.call (.move P.out)) = .ok { q1 with sv := { q1.sv with st := a3.1 } } := by
      show (a2.1.step C S (.move P.out)).bind _ = _
      rw [b3]; rfl
    have f3 : Act.run X C S T L ds p P.uuid { q1 with sv := { q1.sv with st := a3.1 } } (.call .close) = .ok { q1 with sv := { q1.sv with st := a4.1 } } := by
      show (a3.1.step C S .close).bind _ = _
      rw [b4]; rfl
    simp only [runLoop, f1, f2, f3, Res.ok_bind]

/-- The steps, one process after the other, from process `n` on. -/
def inTurn (N dims : Nat) (init : List Nat) : Nat → List MProc → List (Nat × Act)
  | _, [] => []
  | n, P :: l => (P.acts N dims init).map (fun a => (n, a)) ++ inTurn N dims init (n + 1) l

theorem ofProg_append {α : Type} (k : Nat) (l l' : List (Nat × α)) : ofProg k (l ++ l') = ofProg k l ++ ofProg k l' := by simp [ofProg]
theorem ofProg_map_self {α : Type} (k : Nat) (l : List α) : ofProg k (l.map fun a => (k, a)) = l := by
  induction l with
  | nil => rfl
  | cons a l ih => rw [List.map_cons, ofProg_cons_self, ih]
theorem ofProg_map_ne {α : Type} {k n : Nat} (h : n ≠ k) (l : List α) : ofProg k (l.map fun a => (n, a)) = [] := by
  induction l with
  | nil => rfl
  | cons a l ih => rw [List.map_cons, ofProg_cons_ne h, ih]

theorem inTurn_before {N dims : Nat} {init : List Nat} : ∀ (l : List MProc) (n k : Nat), k < n → ofProg k (inTurn N dims init n l) = []
  | [], _, _, _ => rfl
  | P :: l, n, k, h => by
      unfold inTurn
      rw [ofProg_append, ofProg_map_ne (by omega), inTurn_before l (n + 1) k (by omega)]
      rfl

theorem ofProg_inTurn {N dims : Nat} {init : List Nat} : ∀ (l : List MProc) (n k : Nat), ofProg (n + k) (inTurn N dims init n l) = match l[k]? with
    | some P => P.acts N dims init
    | none => []
  | [], _, _ => rfl
  | P :: l, n, 0 => by
      unfold inTurn
      rw [ofProg_append, Nat.add_zero, ofProg_map_self, inTurn_before l (n + 1) n (by omega), List.append_nil]
      rfl
  | P :: l, n, k + 1 => by
      unfold inTurn
      rw [ofProg_append, ofProg_map_ne (by omega), List.nil_append]
      have := ofProg_inTurn (N := N) (dims := dims) (init := init) l (n + 1) k
      rw [show n + (k + 1) = n + 1 + k by omega, this]
      rfl

omit [IsStrictOrderedRing K] in
/-- Uninterrupted steps of process `n`. -/
theorem teamStep_block {n : Nat} {P : MProc} (hP : procs[n]? = some P) : ∀ (l : List Act) (st : Team (FillState K)) (q : FillState K),
    runLoop (fun a q => Act.run X C S T L ds p P.uuid q a) l ((files K).set (st.priv n) st.fs) = .ok q →
    ∃ st', runLoop (teamStep X C S T L ds p procs) (l.map fun a => (n, a)) st = .ok st' ∧ st'.fs = q.sv.st.fs ∧ ∀ k, k ≠ n → st'.priv k = st.priv k
  | [], st, q, h => by
      have h := Res.ok.inj h
      subst h
      exact ⟨st, rfl, rfl, fun _ _ => rfl⟩
  | a :: l, st, q, h => by
      obtain ⟨q1, h1, h2⟩ := Res.bind_eq_ok.1 h
      have hs : teamStep X C S T L ds p procs (n, a) st = .ok ⟨(files K).get q1, fun k => if k = n then q1 else st.priv k⟩ := by
        unfold teamStep Team.step
        simp only [hP]
        replace h1 : Act.run X C S T L ds p P.uuid ((files K).set (st.priv n) st.fs) a = .ok q1 := h1
        rw [h1]
        rfl
      obtain ⟨st', e1, e2, e3⟩ := teamStep_block hP l ⟨(files K).get q1, fun k => if k = n then q1 else st.priv k⟩ q (by
        simp only [if_true]
        rw [(files K).set_get]
        exact h2)
      refine ⟨st', ?_, e2, fun k hk => ?_⟩
      · simp only [List.map_cons, runLoop]
        rw [hs, Res.ok_bind]
        exact e1
      · rw [e3 k hk]
        simp only [hk, if_false]

theorem teamStep_inTurn : ∀ (l : List MProc) (n : Nat) (st : Team (FillState K)) (st1 : MState), (∀ i P, l[i]? = some P → procs[n + i]? = some P) →
    (∀ k, n ≤ k → (files K).set (st.priv k) st.fs = FillState.fresh K B ⟨none, st.fs⟩) → runLoop (fillJob X C S T L ds N init B p) l ⟨none, st.fs⟩ = .ok st1 →
    st1.lib = none ∧ ∃ st', runLoop (teamStep X C S T L ds p procs) (inTurn N ds.length init n l) st = .ok st' ∧ st'.fs = st1.fs
  | [], n, st, st1, _, _, h => by
      have h := Res.ok.inj h
      subst h
      exact ⟨rfl, st, rfl, rfl⟩
  | P :: l, n, st, st1, hl, hq, h => by
      obtain ⟨s, h1, h2⟩ := Res.bind_eq_ok.1 h
      obtain ⟨h3, q, h4, h5⟩ := fillJob_acts P h1
      rw [← hq n (Nat.le_refl n)] at h4
      obtain ⟨st', e1, e2, e3⟩ := teamStep_block (n := n) (hl 0 P rfl) _ st q h4
      have hs : s = ⟨none, st'.fs⟩ := by
        rw [e2, h5, ← h3]
      rw [hs] at h2
      obtain ⟨g1, st2, g2, g3⟩ := teamStep_inTurn l (n + 1) st' st1 (fun i Q hi => by
        rw [show n + 1 + i = n + (i + 1) by omega]
        exact hl (i + 1) Q hi) (fun k hk => by
          rw [e3 k (by omega)]
          have := hq k (by omega)
          have h' : (files K).set ((files K).set (st.priv k) st.fs) st'.fs = (files K).set (FillState.fresh K B ⟨none, st.fs⟩) st'.fs := by rw [this]
          rw [(files K).set_set] at h'
          exact h') h2
      refine ⟨g1, st2, ?_, g3⟩
      unfold inTurn
      rw [runLoop_append, e1, Res.ok_bind]
      exact g2

end seq

/-! ### The property -/

/-- The directories of process `k`. -/
def dirsOf (procs : List MProc) (k d : Nat) : Bool := match procs[k]? with
  | some P => decide (d = P.work ∨ d = P.out)
  | none => false

theorem dirsOf_disjoint {procs : List MProc} (h : OwnDirs procs) : ∀ k k' d, dirsOf procs k d = true → dirsOf procs k' d = true → k = k' := by
  intro k k' d h1 h2
  unfold dirsOf at h1 h2
  cases e1 : procs[k]? with
  | none => rw [e1] at h1; cases h1
  | some P =>
    cases e2 : procs[k']? with
    | none => rw [e2] at h2; cases h2
    | some P' =>
      rw [e1] at h1
      rw [e2] at h2
      have h1 := of_decide_eq_true h1
      have h2 := of_decide_eq_true h2
      obtain ⟨l1, e1⟩ := List.getElem?_eq_some_iff.1 e1
      obtain ⟨l2, e2⟩ := List.getElem?_eq_some_iff.1 e2
      have hp := List.pairwise_iff_getElem.1 h
      rcases Nat.lt_trichotomy k k' with hk | hk | hk
      · have := hp k k' l1 l2 hk
        rw [e1, e2] at this
        omega
      · exact hk
      · have := hp k' k l2 l1 hk
        rw [e1, e2] at this
        omega

theorem acts_in {procs : List MProc} {k : Nat} {P : MProc} (h : procs[k]? = some P) {N dims : Nat} {init : List Nat} {a : Act} (ha : a ∈ P.acts N dims init) : a.In (dirsOf procs k) := by
  have own : ∀ d, d = P.work ∨ d = P.out → dirsOf procs k d = true := fun d hd => by
    unfold dirsOf
    rw [h]
    exact decide_eq_true hd
  simp only [MProc.acts, List.mem_cons, List.mem_append, List.mem_map, List.mem_flatMap, List.not_mem_nil, or_false] at ha
  rcases ha with rfl | ((⟨c, _, rfl⟩ | ⟨n, _, c, _, rfl⟩) | rfl | rfl | rfl)
  · intro d hd
    cases hd
    exact own _ (.inl rfl)
  · trivial
  · trivial
  · intro d hd; cases hd
  · intro d hd
    cases hd
    exact own _ (.inr rfl)
  · intro d hd; cases hd

theorem mem_ofProg {α : Type} {k : Nat} {a : α} {σ : List (Nat × α)} (h : (k, a) ∈ σ) : a ∈ ofProg k σ :=
  List.mem_map.2 ⟨(k, a), List.mem_filter.2 ⟨h, by simp⟩, rfl⟩

/-- **C102.** If the processes of a calculation, each in directories of its own, succeed when they run one after the other, then they succeed when they run at the same time, in whatever order their steps are made,
    and leave the same files. -/
theorem C102_at_the_same_time (X : Phys K) (C : Cfg) (S : Sorter) (T L : Nat) (ds : List Nat) (N : Nat) (init : List Nat) (B : Buffers K) (p : Padded) (procs : List MProc) (hdirs : OwnDirs procs) (fs : FS)
    (st1 : MState) (h : runLoop (fillJob X C S T L ds N init B p) procs ⟨none, fs⟩ = .ok st1) (σ : List (Nat × Act)) (hσ : Interleaved procs N ds.length init σ) :
    ∃ t, runLoop (teamStep X C S T L ds p procs) σ ⟨fs, fun _ => FillState.fresh K B ⟨none, fs⟩⟩ = .ok t ∧ st1 = ⟨none, t.fs⟩ := by
  obtain ⟨h1, t0, h2, h3⟩ := teamStep_inTurn (X := X) (C := C) (S := S) (T := T) (L := L) (ds := ds) (N := N) (init := init) (B := B) (p := p) procs 0 ⟨fs, fun _ => FillState.fresh K B ⟨none, fs⟩⟩ st1
    (fun i P hi => by rw [Nat.zero_add]; exact hi) (fun _ _ => rfl) h
  have hloc : Local (files K) (fun k a q => match procs[k]? with
      | some P => Act.run X C S T L ds p P.uuid q a
      | none => .ub) (dirsOf procs) (fun k q => q.sv.st.In (dirsOf procs k)) (fun k a => a.In (dirsOf procs k)) := by
    intro k a q g hin ha
    dsimp only
    cases procs[k]? with
    | none => exact Loc.ub
    | some P => exact act_loc ha hin
  have hok : ∀ τ : List (Nat × Act), Interleaved procs N ds.length init τ → ∀ e ∈ τ, e.2.In (dirsOf procs e.1) := by
    intro τ hτ e he
    have hm := mem_ofProg (k := e.1) (a := e.2) he
    rw [hτ e.1] at hm
    cases hP : procs[e.1]? with
    | none => rw [hP] at hm; cases hm
    | some P => rw [hP] at hm; exact acts_in hP hm
  have hT : Interleaved procs N ds.length init (inTurn N ds.length init 0 procs) := fun k => by
    have := ofProg_inTurn (N := N) (dims := ds.length) (init := init) procs 0 k
    rwa [Nat.zero_add] at this
  obtain ⟨t, e1, e2, _⟩ := team_any (dirsOf_disjoint hdirs) hloc (hok _ hT) (hok σ hσ) (fun k => by rw [hT k, hσ k]) (fun k l e => by cases e) h2
  refine ⟨t, e1, ?_⟩
  rw [e2, h3, ← h1]

/-- **C102**, with the result (C61): the processes run at the same time, their steps in any order; the results are merged. Then the stored result holds the samples, as after `C61_calculation`. -/
theorem C102_calculation (X : Phys K) (C : Cfg) (hC : C.Ok) (S : Sorter) (Z : SlabSize) (fs : FS) (T L ds N pad out : Nat) (cal start shape : List Nat) (p : Padded) (procs : List MProc)
    (init : List Nat) (B : Buffers K) (hp : padDomain cal start shape ds pad = .ok p) (h : MeepOk X C T L ds N cal start shape out fs procs) (σ : List (Nat × Act))
    (hσ : Interleaved procs N start.length init σ) :
    ∃ (t : Team (FillState K)) (st2 st3 : MState), runLoop (teamStep X C S T L (start.map fun _ => ds) p procs) σ ⟨fs, fun _ => FillState.fresh K B ⟨none, fs⟩⟩ = .ok t ∧
      mergeJobs C S init out (procs.map fun P => P.out) ⟨none, t.fs⟩ = .ok st2 ∧ MState.step C S st2 (.open out init) = .ok (st3, .unit) ∧
      (∀ n j, n < N → ValidInd p.shape (j.map (· * ds)) →
        ∃ st u v, st3.step C S (.get (swapAt (n :: j) 0 start.length)) = .ok (st, .vec v) ∧ IsSample X p procs n (addVec p.start (j.map (· * ds))) u ∧ VEq u v) ∧
      (∀ lo hi, RegOkay C lo hi → ∃ st calls, st3.step C S (.loop lo hi) = .ok (st, .calls calls) ∧ (calls.map Prod.fst).Nodup ∧
        (∀ i, i ∈ calls.map Prod.fst ↔ InBox lo hi i ∧ ∃ n j, n < N ∧ ValidInd p.shape (j.map (· * ds)) ∧ i = swapAt (n :: j) 0 start.length) ∧
        ∀ c ∈ calls, ∀ n j, n < N → ValidInd p.shape (j.map (· * ds)) → c.1 = swapAt (n :: j) 0 start.length →
          ∃ u, IsSample X p procs n (addVec p.start (j.map (· * ds))) u ∧ VEq u c.2) ∧
      (0 < N → ∃ st s, st3.step C S (.query .shape) = .ok (st, .ind (swapAt (N :: s) 0 start.length)) ∧ s.length = start.length ∧ ∀ d < start.length, IsCeil (p.shape.getD d 0) ds (s.getD d 0)) := by
  obtain ⟨st1, st2, st3, a1, a2, a3⟩ := C61_calculation X C hC S Z fs T L ds N pad out cal start shape p procs init B hp h
  obtain ⟨t, b1, b2⟩ := C102_at_the_same_time X C S T L (start.map fun _ => ds) N init B p procs h.dirs fs st1 a1 σ (by rw [List.length_map]; exact hσ)
  rw [b2] at a2
  exact ⟨t, st2, st3, b1, a2, a3⟩

/-- **C102**, up to the final array (partial: the excluded case of `C60_pipeline_partial`). The processes run at the same time in both stages: the steps of the calculation are made in any order `σ`, the single chunks of
    the rechunking in any order `ρ`, and the rest in any order `τ`. The finished array holds the samples. -/
theorem C102_pipeline_partial (Y : Phys K) (C : Cfg) (hC : C.Ok) (hchunk : C.chunk = (outCfg C).chunk) (hj : ∀ k, C.junk k < 2 ^ 32) (S : Sorter) (Z : SlabSize) (fs : FS) (T L ds N : Nat)
    (cal start shape : List Nat) (p : Padded) (procs : List MProc) (init : List Nat) (B : Buffers K) (X : Rech) (hp : padDomain cal start shape ds X.overlap = .ok p)
    (h : MeepOk Y (outCfg C) T L ds N cal start shape X.indir fs procs) (hN : 0 < N) (hpos : 0 < start.length) (hX : PipeOk C N cal p X)
    (hr : start.getD (start.length - 1) 0 % ds = 0 ∨ X.overlap * ds ≤ start.getD (start.length - 1) 0) :
    ∃ F : SimField, (∀ n i, InBox p.start (addVec p.start p.shape) i → IsSample Y p procs n i (F n i)) ∧
    ∃ (parts : List (List Nat × List Nat)) (steps : Nat → Nat), ∀ σ, Interleaved procs N start.length init σ →
      ∃ (t : Team (FillState K)) (st2 : MState), runLoop (teamStep Y (outCfg C) S T L (start.map fun _ => ds) p procs) σ ⟨fs, fun _ => FillState.fresh K B ⟨none, fs⟩⟩ = .ok t ∧
        mergeJobs (outCfg C) S init X.indir (procs.map fun P => P.out) ⟨none, t.fs⟩ = .ok st2 ∧
        ∀ ρ : List Nat, ∃ u, runLoop (fineStep C S X) ρ ⟨st2.fs, fun _ => .fresh⟩ = .ok u ∧ (∀ j, steps j ≤ ρ.count j → (u.proc j).finished) ∧
          ((∀ j < X.jobs, (u.proc j).finished) → ∀ τ, Finish X.jobs τ → ∃ s2, runLoop (finStep C S X parts (finalShape ds N shape)) τ u.atBarrier = .ok s2 ∧
            Holds C S s2.fs X.out (finalShape ds N shape) X.req X.overlap (PadField C.vd ds N start p F)) := by
  obtain ⟨F, hF, st1, st2, parts, steps, a1, a2, a3⟩ := C61_any_interleaving_partial Y C hC hchunk hj S Z fs T L ds N cal start shape p procs init B X hp h hN hpos hX hr
  refine ⟨F, hF, parts, steps, fun σ hσ => ?_⟩
  obtain ⟨t, b1, b2⟩ := C102_at_the_same_time Y (outCfg C) S T L (start.map fun _ => ds) N init B p procs h.dirs fs st1 a1 σ (by rw [List.length_map]; exact hσ)
  rw [b2] at a2
  exact ⟨t, st2, b1, a2, a3⟩

/-! ### The hypotheses are met -/

namespace Ex102

/-- Alternately one element of the first and one of the second list. -/
def alternate {α : Type} : List α → List α → List α
  | [], l => l
  | a :: l, [] => a :: l
  | a :: l, b :: l' => a :: b :: alternate l l'

/-- The two processes of C61 take turns; process 1 has one chunk more and finishes alone. -/
def σ : List (Nat × Act) := match Ex61.procs with
  | [P, Q] => alternate ((P.acts 2 2 [1, 1, 1]).map fun a => (0, a)) ((Q.acts 2 2 [1, 1, 1]).map fun a => (1, a))
  | _ => []

theorem interleaved : Interleaved Ex61.procs 2 2 [1, 1, 1] σ
  | 0 => rfl
  | 1 => rfl
  | k + 2 => by
    show ofProg (k + 2) σ = []
    unfold ofProg
    rw [List.map_eq_nil_iff, List.filter_eq_nil_iff]
    have h : ∀ j ∈ σ.map Prod.fst, j < 2 := by
      have e : σ.map Prod.fst = [0, 1, 0, 1, 0, 1, 0, 1, 0, 1, 0, 1, 0, 1, 1, 1, 1] := rfl
      rw [e]
      decide
    intro e he
    have := h e.1 (List.mem_map_of_mem he)
    simp only [decide_eq_true_eq]
    omega

example := C102_calculation Ex61.X Ex45.cfg Ex45.cfg_ok Tree.Ex.S Tree.Ex.Z (fun _ => none) 2 2 2 2 1 0 [6, 7] [1, 2] [3, 4] Ex57.pd Ex61.procs [1, 1, 1] ⟨([], []), ([], []), ⟨[], []⟩, ⟨[], []⟩⟩ Ex57.padded Ex61.ok
  σ interleaved

example := C102_pipeline_partial Ex61.X Ex60.cfg Ex60.cfg_ok rfl (fun _ => (by show 77 < 2 ^ 32; decide)) Tree.Ex.S Tree.Ex.Z (fun _ => none) 2 2 2 2 [6, 7] [1, 2] [3, 4] Ex57.pd Ex61.procs [1, 1, 1]
  ⟨([], []), ([], []), ⟨[], []⟩, ⟨[], []⟩⟩ (Ex60.X [1, 0, 0] [0, 1, 0]) Ex57.padded Ex61.ok (by decide) (by decide) (Ex60.pipe [0, 1] [1, 0] [1, 0] [5, 6]) (Or.inl (by decide))

end Ex102

end Verif.Meep
