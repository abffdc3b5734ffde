import Verif.Dist.Props33
import Verif.Green.CreateProof
/-
C66: a Green's function that was made of a distributed array can be opened again, with its coordinates and its data.
-/
namespace Verif.Green
open Verif Verif.ND Verif.Dist Verif.Tree Verif.Bytes

/-! ### Specification -/

/-- Coordinates that fit into the file: three `float`s (their bits) each. -/
def ValidMeta (m : GFMeta) : Prop :=
  (m.start_pos.length = 3 ∧ ∀ v ∈ m.start_pos, v < 2 ^ 32) ∧ (m.end_pos.length = 3 ∧ ∀ v ∈ m.end_pos, v < 2 ^ 32) ∧ (m.sample_interval.length = 3 ∧ ∀ v ∈ m.sample_interval, v < 2 ^ 32)

/-! ### Proof -/

variable {C : Cfg} {S : Sorter} {Z : SlabSize}

theorem legal_withSize {n : Nat} {w : World} {op : LOp} (ho : op.Reads) (h : Legal C w op) : Legal { C with size := n } w op := by
  cases op with
  | fill P st hd buf lo hi out =>
    obtain ⟨l, h1, h2, h3⟩ := h
    exact ⟨l, h1, ⟨h2.small, h2.view, h2.loLen, h2.hiLen, h2.lt, h2.shape, h2.fits⟩, h3⟩
  | loop lo hi =>
    obtain ⟨l, h1, h2, h3⟩ := h
    exact ⟨l, h1, ⟨h2.loLen, h2.hiLen, h2.lt⟩, h3⟩
  | get => exact h
  | query => exact h
  | loopAll => exact h
  | _ => exact ho.elim

theorem answer_withSize {n : Nat} {w : World} {op : LOp} {r : Out} (ho : op.Reads) (h : Answer { C with size := n } w op r) : Answer C w op r := by
  cases op with
  | fill P st hd buf lo hi out => cases r <;> exact h
  | loop lo hi => cases r <;> exact h
  | get => cases r <;> exact h
  | query => exact h
  | loopAll => cases r <;> exact h
  | _ => exact ho.elim

theorem allLegal_withSize {n : Nat} : ∀ {ops : List LOp} {w : World}, (∀ op ∈ ops, op.Reads) → AllLegal C w ops → AllLegal { C with size := n } w ops
  | [], _, _, _ => trivial
  | op :: ops, w, ho, h => by
      refine ⟨legal_withSize (ho op List.mem_cons_self) h.1, ?_⟩
      have := allLegal_withSize (n := n) (fun o h' => ho o (List.mem_cons_of_mem _ h')) h.2
      rw [next_reads (ho op List.mem_cons_self)] at this ⊢
      exact this

theorem allAnswer_withSize {n : Nat} : ∀ {ops : List LOp} {w : World} {rs : List Out}, (∀ op ∈ ops, op.Reads) → AllAnswer { C with size := n } w ops rs → AllAnswer C w ops rs
  | [], _, [], _, _ => trivial
  | [], _, _ :: _, _, h => h.elim
  | _ :: _, _, [], _, h => h.elim
  | op :: ops, w, r :: rs, ho, h => by
      refine ⟨answer_withSize (ho op List.mem_cons_self) h.1, ?_⟩
      have h2 := h.2
      rw [next_reads (ho op List.mem_cons_self)] at h2 ⊢
      exact allAnswer_withSize (fun o h' => ho o (List.mem_cons_of_mem _ h')) h2

theorem answer_pieces {w w' : World} {l l' : LibSpec} (h : w.cur = some l) (h' : w'.cur = some l') (hp : l'.pieces = l.pieces) {op : LOp} {r : Out} (ho : op.Reads) (ha : Answer C w' op r) :
    Answer C w op r := by
  have key : ∀ {P : List Piece → Prop}, (∀ x, w'.cur = some x → P x.pieces) → ∀ x, w.cur = some x → P x.pieces := fun {P} hk x hx => by
    have := hk _ h'
    rw [h] at hx; cases hx
    rw [hp] at this; exact this
  cases op with
  | fill P st hd buf lo hi out =>
    cases r with
    | buf b =>
      exact ⟨ha.1, key (P := fun ps => (∀ p ∈ ps, ∀ i, InBox lo hi i → InBox p.start p.stop i → ∃ v, ND.read C.vd hd b (target lo out i) = .ok v ∧ VEq (p.val i) v) ∧
        (∀ j, ValidInd P j → (∀ p ∈ ps, ∀ i, InBox lo hi i → InBox p.start p.stop i → j ≠ addVec st (target lo out i)) →
          ND.read C.vd (mkHdr C.vd P) b j = ND.read C.vd (mkHdr C.vd P) buf j)) ha.2⟩
    | _ => exact ha.elim
  | loop lo hi =>
    cases r with
    | calls cs => exact key (P := fun ps => LoopAnswer ps (fun i => InBox lo hi i ∧ Covered ps i) cs) ha
    | _ => exact ha.elim
  | get i =>
    cases r with
    | vec v => exact key (P := fun ps => ∀ p ∈ ps, InBox p.start p.stop i → VEq (p.val i) v) ha
    | _ => exact ha.elim
  | query q => exact key (P := fun ps => ShapeAnswer C.dims ps q r) ha
  | loopAll =>
    cases r with
    | calls cs => exact key (P := fun ps => LoopAnswer ps (Covered ps) cs) ha
    | _ => exact ha.elim
  | _ => exact ho.elim

theorem allAnswer_pieces {w w' : World} {l : LibSpec} {d k : Nat} (h : w.cur = some l) (h' : w'.cur = some ⟨d, k, l.pieces⟩) : ∀ {ops : List LOp} {rs : List Out}, (∀ op ∈ ops, op.Reads) →
    AllAnswer C w' ops rs → AllAnswer C w ops rs
  | [], [], _, _ => trivial
  | [], _ :: _, _, ha => ha.elim
  | _ :: _, [], _, ha => ha.elim
  | op :: ops, r :: rs, ho, ha => by
      refine ⟨answer_pieces h h' rfl (ho op List.mem_cons_self) ha.1, ?_⟩
      have h2 := ha.2
      rw [next_reads (ho op List.mem_cons_self)] at h2 ⊢
      exact allAnswer_pieces h h' (fun o h' => ho o (List.mem_cons_of_mem _ h')) h2

theorem hull_unique {dims : Nat} {ps : List Piece} {lo hi lo' hi' : List Nat} (h : IsHull dims ps lo hi) (h' : IsHull dims ps lo' hi') : lo = lo' := by
  refine ext_getD (h.loLen.trans h'.loLen.symm) fun d hd => ?_
  rw [h.loLen] at hd
  obtain ⟨p, p1, p2⟩ := h.loAtt d hd
  obtain ⟨q, q1, q2⟩ := h'.loAtt d hd
  have := (h.encl d hd q q1).1
  have := (h'.encl d hd p p1).1
  omega

theorem load_core (hC : C.Ok) {fs : FS} {w : World} {green : Nat → Option (List Nat)} {dir : Nat} {ps : List Piece} (hw : WInv C S Z ⟨none, fs⟩ w) (hc : w.cur = none) (hd : w.disk dir = some ps)
    (hn : ps.length < 2 ^ 64) {lo hi : List Nat} (hh : IsHull C.dims ps lo hi) (hv : boxVolume lo hi < 2 ^ 64) {gm : GFMeta} (hg : ValidMeta gm)
    (hgr : green dir = some ((gfMeta C.hst).ser gm)) (n : Nat) :
    (lo ≠ List.replicate C.dims 0 → load C S dir n ⟨fs, green⟩ = .abort) ∧
    (lo = List.replicate C.dims 0 → ∃ g, load C S dir n ⟨fs, green⟩ = .ok (g, gm) ∧ g.cc.Clean ∧ g.idx.dir = dir ∧
      WInv { C with size := n } S Z ⟨some g, fs⟩ (w.next C (.open dir (readerShape C)))) := by
  have hw' : WInv { C with size := n } S Z ⟨none, fs⟩ w := WInv.size (C := { C with size := n }) (n := C.size) hw hc
  obtain ⟨st1, r1, a1, a2, a3⟩ := stepW_ok (withSize_ok hC n) hw' (.open dir (readerShape C)) ⟨hc, by rw [hd]; exact hn⟩
  have hcur : (w.next { C with size := n } (.open dir (readerShape C))).cur = some ⟨dir, 0, ps⟩ := by
    show some (⟨dir, 0, (w.disk dir).getD []⟩ : LibSpec) = _
    rw [hd]; rfl
  unfold MState.step at a1
  obtain ⟨g, a4, a5⟩ := Res.bind_eq_ok.1 a1
  cases a5
  have hne : ps ≠ [] := fun e => by
    obtain ⟨p, p1, _⟩ := hh.loAtt 0 hC.dims
    rw [e] at p1; cases p1
  have hq : ∀ {w : World}, w.cur = some ⟨dir, 0, ps⟩ → ∀ q, Legal { C with size := n } w (.query q) := fun hc q => ⟨_, hc, fun lo' hi' h' => by
    have e1 := hull_unique h' hh
    have e2 : hi' = hi := by
      refine ext_getD (h'.hiLen.trans hh.hiLen.symm) fun d hd => ?_
      rw [h'.hiLen] at hd
      obtain ⟨p, p1, p2⟩ := h'.hiAtt d hd
      obtain ⟨q, q1, q2⟩ := hh.hiAtt d hd
      have := (h'.encl d hd q q1).2
      have := (hh.encl d hd p p1).2
      omega
    rw [e1, e2]; exact hv⟩
  have a4' : Lib.open (readerCfg C n) S fs dir (readerShape C) = .ok g := a4
  have c1 := open_clean a4
  obtain ⟨st2, r2, b1, b2, b3⟩ := stepW_ok (withSize_ok hC n) a3 (.query .start) (hq hcur _)
  unfold MState.step at b1
  obtain ⟨x, b4, b5⟩ := Res.bind_eq_ok.1 b1
  cases b5
  have b4' : g.idx.getStart (readerCfg C n) = .ok x := b4
  have b2' := b2 _ hcur
  obtain ⟨hi', b6⟩ := b2'.2 hne
  have hx : x.2 = lo := hull_unique b6 hh
  have hde : (gfMeta C.hst).deser ((gfMeta C.hst).ser gm) = .ok (gm, []) := by
    have := C11_greens_function_metadata C.hst gm hg.1 hg.2.1 hg.2.2 []
    rwa [List.append_nil] at this
  constructor
  · intro hlo
    unfold load
    simp only [a4', hgr, hde, b4', Res.ok_bind, hx]
    rw [decide_eq_false hlo]
    rfl
  · intro hlo
    obtain ⟨st3, r3, d1, d2, d3⟩ := stepW_ok (withSize_ok hC n) b3 (.query .volume) (hq hcur _)
    unfold MState.step at d1
    obtain ⟨y, d4, d5⟩ := Res.bind_eq_ok.1 d1
    cases d5
    have d4' : x.1.getVolume (readerCfg C n) = .ok y := d4
    obtain ⟨g', f1, f2, f3⟩ := step_clean (C := { C with size := n }) (S := S) (st := ⟨some g, fs⟩) rfl c1.1 (op := .query .start) trivial b1
    obtain ⟨g'', f4, f5, f6⟩ := step_clean (C := { C with size := n }) (S := S) f1 f2.clean (op := .query .volume) trivial d1
    cases f1
    cases f4
    refine ⟨⟨g.cc, y.1⟩, ?_, f5.clean, (f6.trans f3).trans c1.2.1, d3⟩
    unfold load
    simp only [a4', hgr, hde, b4', Res.ok_bind, hx, d4']
    rw [decide_eq_true hlo]
    rfl

theorem create_core (hC : C.Ok) {st : MState} {w : World} {l : LibSpec} (hw : WInv C S Z st w) (hl : w.cur = some l) (hn : l.pieces.length < 2 ^ 64) (gm : GFMeta) (green : Nat → Option (List Nat)) :
    ∃ lib fs2, st.lib = some lib ∧ create C S gm lib ⟨st.fs, green⟩ = .ok ⟨fs2, upd green l.dir (some ((gfMeta C.hst).ser gm))⟩ ∧ WInv C S Z ⟨none, fs2⟩ (w.next C .close) := by
  obtain ⟨lib, cs, a1, a2, a3, a4, a5, _⟩ := hw.opened l hl
  obtain ⟨q, fs2, b1, b2, b3, b4, b5, b6⟩ := create_lib (S := S) (Z := Z) hC a2 (by rw [a3.1]; exact hn) gm green
  refine ⟨lib, fs2, a1, by rw [← a5]; exact b6, ?_⟩
  obtain ⟨st1, r1, c1, _, c3⟩ := stepW_ok hC hw .flush ⟨l, hl⟩
  have e1 : st.step C S .flush = .ok (⟨some q.1, q.2⟩, .unit) := by
    unfold MState.step
    simp only [a1, b1, Res.ok_bind]
  rw [e1] at c1
  cases c1
  have hw1 : w.next C .flush = w := by unfold World.next; rfl
  rw [hw1] at c3
  obtain ⟨st2, r2, d1, _, d3⟩ := stepW_ok hC c3 .close ⟨l, hl⟩
  have e2 : MState.step C S ⟨some q.1, q.2⟩ .close = .ok (⟨none, fs2⟩, .unit) := by
    unfold MState.step
    simp only [b4, Res.ok_bind]
  rw [e2] at d1
  cases d1
  exact d3

/-- **C66.** After any allowed history that ends with an open array whose chunks start at the origin, making a Green's function of the array (with any coordinates) succeeds, and so does opening it
    afterwards with any size of the cache: the coordinates that are read back are those that were given, and every element access, region read, shape query and loop is answered as by the original array.
    Closing it changes no file. -/
theorem C66_create_load (C : Cfg) (hC : C.Ok) (S : Sorter) (Z : SlabSize) (fs : FS) (hfs : ∀ d, fs (d, .index) = none) (green : Nat → Option (List Nat)) (ops : List LOp)
    (hl : AllLegal C (World.init fs) ops) (l : LibSpec) (hcur : ((World.init fs).run C ops).cur = some l) (hn : l.pieces.length < 2 ^ 64)
    (hi : List Nat) (hh : IsHull C.dims l.pieces (List.replicate C.dims 0) hi) (hv : boxVolume (List.replicate C.dims 0) hi < 2 ^ 64) (gm : GFMeta) (hg : ValidMeta gm) :
    ∃ st rs lib d, MState.run C S ⟨none, fs⟩ ops = .ok (st, rs) ∧ st.lib = some lib ∧ create C S gm lib ⟨st.fs, green⟩ = .ok d ∧
      ∀ n, ∃ g, load C S l.dir n d = .ok (g, gm) ∧
        ∀ reads, (∀ op ∈ reads, op.Reads) → AllLegal C ((World.init fs).run C ops) reads →
          ∃ st' rs' st'', MState.run (readerCfg C n) S ⟨some g, d.fs⟩ reads = .ok (st', rs') ∧ AllAnswer C ((World.init fs).run C ops) reads rs' ∧
            st'.step (readerCfg C n) S .close = .ok (st'', .unit) ∧ st''.fs = d.fs := by
  obtain ⟨st, rs, a1, _, a3⟩ := runW_ok (S := S) (Z := Z) hC ops (WInv.init hfs) hl
  generalize (World.init fs).run C ops = w at *
  obtain ⟨lib, fs2, b1, b2, b3⟩ := create_core (S := S) (Z := Z) hC a3 hcur hn gm green
  refine ⟨st, rs, lib, _, a1, b1, b2, fun n => ?_⟩
  have hd : (w.next C .close).disk l.dir = some l.pieces := by
    unfold World.next
    rw [hcur]
    show upd _ l.dir _ l.dir = _
    unfold upd; rw [if_pos rfl]
  have hc : (w.next C .close).cur = none := by
    unfold World.next
    rw [hcur]
  obtain ⟨g, c1, c2, c3, c4⟩ := (load_core (S := S) (Z := Z) hC (green := upd green l.dir (some ((gfMeta C.hst).ser gm))) b3 hc hd hn hh hv hg (by unfold upd; rw [if_pos rfl]) n).2 rfl
  refine ⟨g, c1, fun reads hr hlr => ?_⟩
  have hw2 : ((w.next C .close).next C (.open l.dir (readerShape C))).cur = some ⟨l.dir, 0, l.pieces⟩ := by
    show some (⟨l.dir, 0, (_ : Option (List Piece)).getD []⟩ : LibSpec) = _
    rw [hd]; rfl
  generalize (w.next C .close).next C (.open l.dir (readerShape C)) = w2 at *
  -- the same calls are allowed, with the same answers
  have hleg : AllLegal C w2 reads := by
    clear c4 b3
    induction reads with
    | nil => trivial
    | cons op ops ih =>
      have hro := hr op List.mem_cons_self
      refine ⟨?_, ?_⟩
      · have := hlr.1
        cases op with
        | query => obtain ⟨l', e, h'⟩ := this; rw [hcur] at e; cases e; exact ⟨_, hw2, h'⟩
        | loop => obtain ⟨l', e, h'⟩ := this; rw [hcur] at e; cases e; exact ⟨_, hw2, h'⟩
        | loopAll => obtain ⟨l', hi', e, h'⟩ := this; rw [hcur] at e; cases e; exact ⟨_, hi', hw2, h'⟩
        | get => obtain ⟨l', p, e, h'⟩ := this; rw [hcur] at e; cases e; exact ⟨_, p, hw2, h'⟩
        | fill => obtain ⟨l', e, h'⟩ := this; rw [hcur] at e; cases e; exact ⟨_, hw2, h'⟩
        | _ => exact hro.elim
      · rw [next_reads hro]
        have h2 := hlr.2
        rw [next_reads hro] at h2
        exact ih (fun o h' => hr o (List.mem_cons_of_mem _ h')) h2
  obtain ⟨st', rs', d1, d2, d3⟩ := runW_ok (withSize_ok hC n) reads c4 (allLegal_withSize hr hleg)
  obtain ⟨g', e1, e2, e3⟩ := run_clean reads (st := ⟨some g, fs2⟩) rfl c2 hr d1
  have hans : AllAnswer C w2 reads rs' := allAnswer_withSize hr d2
  rw [run_reads hr] at d3
  obtain ⟨lib', cs, f1, f2, f3, _⟩ := d3.opened _ hw2
  rw [e1] at f1
  cases f1
  have hg'd : g'.idx.dir = l.dir := e3.trans c3
  obtain ⟨cs', s1, s2, _⟩ := b3.disk _ _ hd
  have hidx : fs2 (l.dir, .index) = some (indexFile C (cs.map Prod.fst)) := by
    have hr' : Rep C cs l.pieces := ⟨f3.1, fun k c p hk hp => ⟨(f3.2 k c p hk hp).id, (f3.2 k c p hk hp).file, (f3.2 k c p hk hp).start, (f3.2 k c p hk hp).stop, (f3.2 k c p hk hp).overlap,
      (f3.2 k c p hk hp).val⟩⟩
    rw [Rep.metas (Rebuild.Chunky.size f2.chunky) s1.chunky hr' s2]; exact s1.index
  have hdes := destroy_reader (S := S) (Z := Z) hC (n := n) hidx hg'd e2.clean (by have h : st'.fs = fs2 := e2.fs; rw [h] at f2; exact f2)
  refine ⟨st', rs', ⟨none, fs2⟩, ?_, ?_, ?_, rfl⟩
  · rw [← d1]
    exact run_chunk (C := { C with size := n }) reads (st := ⟨some g, fs2⟩) rfl c2 hr
  · exact allAnswer_pieces hcur hw2 hr hans
  · unfold MState.step
    simp only [e1]
    have h : st'.fs = fs2 := e2.fs
    rw [h, hdes]
    rfl

/-- **C66.** If the chunks do not start at the origin, making the Green's function still succeeds and writes everything, but opening it ends the program (an assertion). -/
theorem C66_load_needs_origin (C : Cfg) (hC : C.Ok) (S : Sorter) (Z : SlabSize) (fs : FS) (hfs : ∀ d, fs (d, .index) = none) (green : Nat → Option (List Nat)) (ops : List LOp)
    (hl : AllLegal C (World.init fs) ops) (l : LibSpec) (hcur : ((World.init fs).run C ops).cur = some l) (hn : l.pieces.length < 2 ^ 64)
    (lo hi : List Nat) (hh : IsHull C.dims l.pieces lo hi) (hlo : lo ≠ List.replicate C.dims 0) (hv : boxVolume lo hi < 2 ^ 64) (gm : GFMeta) (hg : ValidMeta gm) :
    ∃ st rs lib d, MState.run C S ⟨none, fs⟩ ops = .ok (st, rs) ∧ st.lib = some lib ∧ create C S gm lib ⟨st.fs, green⟩ = .ok d ∧ ∀ n, load C S l.dir n d = .abort := by
  obtain ⟨st, rs, a1, _, a3⟩ := runW_ok (S := S) (Z := Z) hC ops (WInv.init hfs) hl
  generalize (World.init fs).run C ops = w at *
  obtain ⟨lib, fs2, b1, b2, b3⟩ := create_core (S := S) (Z := Z) hC a3 hcur hn gm green
  refine ⟨st, rs, lib, _, a1, b1, b2, fun n => ?_⟩
  have hd : (w.next C .close).disk l.dir = some l.pieces := by
    unfold World.next
    rw [hcur]
    show upd _ l.dir _ l.dir = _
    unfold upd; rw [if_pos rfl]
  have hc : (w.next C .close).cur = none := by
    unfold World.next
    rw [hcur]
  exact (load_core (S := S) (Z := Z) hC (green := upd green l.dir (some ((gfMeta C.hst).ser gm))) b3 hc hd hn hh hv hg (by unfold upd; rw [if_pos rfl]) n).1 hlo

/-! ### Two chunks that fill `[0, 2) x [0, 4)` -/

namespace Ex66

def gm : GFMeta := ⟨[0, 0, 1065353216], [1084227584, 1073741824, 1077936128], [1065353216, 1065353216, 1]⟩

theorem gm_ok : ValidMeta gm := ⟨⟨rfl, by decide⟩, ⟨rfl, by decide⟩, ⟨rfl, by decide⟩⟩

theorem full_isHull {l : LibSpec} (hl : ((World.init fun _ => none).run (Dist.Ex.cfg 1) Dist.Ex.full).cur = some l) : IsHull 2 l.pieces [0, 0] [2, 4] := by
  cases hl
  refine ⟨rfl, rfl, fun d hd p hp => ?_, fun d hd => ⟨_, List.mem_cons_self, ?_⟩, fun d hd => ⟨_, List.mem_cons_of_mem _ List.mem_cons_self, ?_⟩⟩
  · rcases List.mem_cons.1 hp with rfl | hp
    · rcases d with _ | _ | d
      · decide
      · decide
      · omega
    · rcases List.mem_cons.1 hp with rfl | hp
      · rcases d with _ | _ | d
        · decide
        · decide
        · omega
      · cases hp
  · rcases d with _ | _ | d
    · rfl
    · rfl
    · omega
  · rcases d with _ | _ | d
    · rfl
    · rfl
    · omega

/-- C66 applies: an element of the second chunk is read from the Green's function that was opened again. -/
example : ∃ st rs lib d, MState.run (Dist.Ex.cfg 1) Tree.Ex.S ⟨none, fun _ => none⟩ Dist.Ex.full = .ok (st, rs) ∧ st.lib = some lib ∧
    create (Dist.Ex.cfg 1) Tree.Ex.S gm lib ⟨st.fs, fun _ => none⟩ = .ok d ∧ ∀ n, ∃ g, load (Dist.Ex.cfg 1) Tree.Ex.S 0 n d = .ok (g, gm) ∧
      ∃ st' r, MState.run (readerCfg (Dist.Ex.cfg 1) n) Tree.Ex.S ⟨some g, d.fs⟩ [.get [1, 3]] = .ok (st', [r]) := by
  obtain ⟨st, rs, lib, d, h1, h2, h3, h4⟩ := C66_create_load (Dist.Ex.cfg 1) (Dist.Ex.cfg_ok 1) Tree.Ex.S Tree.Ex.Z _ (fun _ => rfl) (fun _ => none) Dist.Ex.full Dist.Ex.full_legal _ rfl
    (by decide) [2, 4] (full_isHull rfl) (by decide) gm gm_ok
  refine ⟨st, rs, lib, d, h1, h2, h3, fun n => ?_⟩
  obtain ⟨g, g1, g2⟩ := h4 n
  refine ⟨g, g1, ?_⟩
  obtain ⟨st', rs', _, k1, k2, _⟩ := g2 [.get [1, 3]] (fun op ho => by rw [List.mem_singleton] at ho; subst ho; trivial)
    ⟨⟨_, _, rfl, List.mem_cons_of_mem _ List.mem_cons_self, Dist.Ex.inBox2 (n := 2) (m := 4) (by decide) (by decide), fun _ => rfl⟩, trivial⟩
  match rs', k2 with
  | [r], _ => exact ⟨st', r, k1⟩

/-- A single chunk that does not start at the origin. -/
example : ∃ st rs lib d, MState.run (Dist.Ex.cfg 1) Tree.Ex.S ⟨none, fun _ => none⟩ Dist.Ex.away = .ok (st, rs) ∧ st.lib = some lib ∧
    create (Dist.Ex.cfg 1) Tree.Ex.S gm lib ⟨st.fs, fun _ => none⟩ = .ok d ∧ ∀ n, load (Dist.Ex.cfg 1) Tree.Ex.S 0 n d = .abort :=
  C66_load_needs_origin (Dist.Ex.cfg 1) (Dist.Ex.cfg_ok 1) Tree.Ex.S Tree.Ex.Z _ (fun _ => rfl) (fun _ => none) Dist.Ex.away Dist.Ex.away_legal _ rfl
    (by decide) [1, 0] [3, 2] ⟨rfl, rfl, fun d hd p hp => (by
      have hd : d < 2 := hd
      rcases List.mem_cons.1 hp with rfl | hp
      · rcases d with _ | _ | d
        · decide
        · decide
        · omega
      · cases hp), fun d hd => ⟨_, List.mem_cons_self, by
      have hd : d < 2 := hd
      rcases d with _ | _ | d
      · rfl
      · rfl
      · omega⟩, fun d hd => ⟨_, List.mem_cons_self, by
      have hd : d < 2 := hd
      rcases d with _ | _ | d
      · rfl
      · rfl
      · omega⟩⟩ (by decide) (by decide) gm gm_ok

end Ex66

end Verif.Green
