import Verif.Dist.Grown
/-
C78: what is still there after a crash.
-/
namespace Verif.Dist
open Verif Verif.ND Verif.Tree Verif.Bytes Verif.Stream Verif.NullSup
open Verif.Cache (CRel keyGone)

variable {C : Cfg} {S : Sorter} {Z : SlabSize}

/-! ### Specification -/

/-- The effect of a call: as `Ledger.next`, but a chunk that is appended to stays on the list, as it was when it was written. -/
def Ledger.nextOld (G : Ledger) (w : World) : LOp → Ledger
  | .append _ _ => G
  | op => G.next w op

def Ledger.runOld (C : Cfg) : Ledger → World → List LOp → Ledger
  | G, _, [] => G
  | G, w, op :: ops => (G.nextOld w op).runOld C (w.next C op) ops

/-! ### Proof -/

/-- No other chunk ends where the slice begins. -/
theorem ends_disjoint (hC : C.Ok) {lib : Lib} {fs : FS} {cs : List (Meta × Arr)} {l : LibSpec} {start : List Nat} {s : Arr} {k j : Nat} {p₀ p : Piece}
    (a2 : LInv C S Z lib fs cs) (a3 : Rep C cs l.pieces) (hr : CanAppend C l k p₀ start s) (hj : l.pieces[j]? = some p) (hjk : j ≠ k) :
    ¬ start = p.start.set 0 (p.stop.getD 0 0) := by
  intro e
  have kd := hC.dims
  obtain ⟨c0, m1, m2⟩ := a3.right hr.at_
  obtain ⟨c, n1, n2⟩ := a3.right hj
  have hp0 := a2.chunky.placed c0 (List.mem_of_getElem? m1)
  have hp := a2.chunky.placed c (List.mem_of_getElem? n1)
  have l1 := hp0.startLen
  have l2 := hp0.stopLen
  have l3 := hp.startLen
  have l4 := hp.stopLen
  rw [m2.start] at l1; rw [m2.stop] at l2; rw [n2.start] at l3; rw [n2.stop] at l4
  -- the last row of both contains the same point
  have g0 : ∀ d, (p₀.start.set 0 (p₀.stop.getD 0 0)).getD d 0 = (p.start.set 0 (p.stop.getD 0 0)).getD d 0 := fun d => by rw [← hr.start, e]
  have ge : p₀.stop.getD 0 0 = p.stop.getD 0 0 := by
    have := g0 0; rw [getD_set0 (by omega), getD_set0 (by omega)] at this; simpa using this
  have gs : ∀ d, d ≠ 0 → p₀.start.getD d 0 = p.start.getD d 0 := fun d hd => by
    have := g0 d; rw [getD_set0 (by omega), getD_set0 (by omega), if_neg hd, if_neg hd] at this; exact this
  have b0 : ∀ d < C.dims, p₀.start.getD d 0 < p₀.stop.getD d 0 := fun d hd => by
    have h1 := hp0.pos d hd; have h2 := hp0.getD_stop d
    rw [m2.start, m2.stop] at h2; omega
  have b1 : ∀ d < C.dims, p.start.getD d 0 < p.stop.getD d 0 := fun d hd => by
    have h1 := hp.pos d hd; have h2 := hp.getD_stop d
    rw [n2.start, n2.stop] at h2; omega
  have x0 := b0 0 kd
  have x1 := b1 0 kd
  refine hr.disj j p hj hjk (p.start.set 0 (p.stop.getD 0 0 - 1)) ⟨?_, ?_⟩
  · refine ⟨by simp, by simp; omega, fun d hd => ?_⟩
    have hd : d < C.dims := by simp at hd; omega
    rw [getD_set0 (by omega)]
    have := b1 d hd
    split
    · rename_i e; subst e; omega
    · omega
  · refine ⟨by simp; omega, by simp; omega, fun d hd => ?_⟩
    have hd : d < C.dims := by simp at hd; omega
    rw [getD_set0 (by omega), getD_set0 (by omega)]
    split
    · rename_i e; subst e; omega
    · rename_i e
      rw [← gs d e]
      exact ⟨Nat.le_refl _, b0 d hd⟩

theorem Extended.readable (hC : C.Ok) {cs : List (Meta × Arr)} (hch : Chunky C cs) {ps : List Piece} (hr : Rep C cs ps) {p p' : Piece} (hx : Extended p p') (hp : p' ∈ ps)
    {fs : FS} {d : Nat} (h : Readable C S fs d p') : Readable C S fs d p := fun init i hi hplain => by
  obtain ⟨c, n1, n2⟩ := hr.rightMem hp
  have kd := hC.dims
  have hlen : 0 < p.stop.length := by
    obtain ⟨n, hn⟩ := hx.stop
    have h1 := (hch.placed c n1).stopLen
    rw [n2.stop, hn] at h1; simp at h1; omega
  rw [← hx.val i hi]
  exact h init i (hx.inBox hlen hi) fun e => by rw [hx.overlap]; exact hplain (hx.file.symm.trans e)

abbrev EInv (C : Cfg) (S : Sorter) (Z : SlabSize) (st : MState) (w : World) (G : Ledger) : Prop := GInv C S Z (Longer C) st w G

theorem EInv.step (hC : C.Ok) {st : MState} {w : World} {G : Ledger} (h : EInv C S Z st w G) (op : LOp) (hl : Legal C w op) :
    ∃ st' r, st.step C S op = .ok (st', r) ∧ EInv C S Z st' (w.next C op) (G.nextOld w op) := by
  obtain ⟨st', r, e1, _, e3⟩ := stepW_ok hC h.inv op hl
  refine ⟨st', r, e1, ?_⟩
  by_cases hna : ∀ start s, op ≠ .append start s
  · have : G.nextOld w op = G.next w op := by
      cases op <;> first | rfl | exact absurd rfl (hna _ _)
    rw [this]
    exact GInv.step_other hC Longer.keeps h op hl hna e1 e3
  · simp only [ne_eq, not_forall, not_not] at hna
    obtain ⟨start, s, rfl⟩ := hna
    obtain ⟨l, k, p₀, h1, hr⟩ := hl
    obtain ⟨lib, cs, a1, a2, a3, _⟩ := h.inv.opened l h1
    simp only [MState.step, a1] at e1
    obtain ⟨_, g, e1⟩ := Res.bind_eq_ok.1 e1; cases e1
    refine GInv.local0 h e3 h1 (l' := { l with pieces := l.pieces.map fun p => if start = p.start.set 0 (p.stop.getD 0 0) then p.extend C s else p })
      (by unfold World.next; rw [h1]) rfl (by unfold World.next; rw [h1]) rfl (fun d p hp => hp) a1 rfl ((libAppend_grows g).2 _) fun p p' hp hk hs => ?_
    obtain ⟨c, c1, c2⟩ := a3.right hr.at_
    have ha := appOk_of hC a2 a3 hr c1 c2
    refine ⟨_, List.mem_map.2 ⟨p', hp, rfl⟩, ?_⟩
    by_cases hid : p'.id = c.1.id
    · rw [if_pos (same_id a2 a3 hr c1 c2 hp hid)]
      have kd := hC.dims
      have hlen : 0 < p.stop.length := by
        obtain ⟨c', n1, n2⟩ := a3.rightMem hp
        obtain ⟨n, hn⟩ := hs.1.stop
        have h1 := (a2.chunky.placed c' n1).stopLen
        rw [n2.stop, hn] at h1; simp at h1; omega
      obtain ⟨x1, x2⟩ := hs.1.extend (C := C) hlen s
      refine ⟨x1, ?_⟩
      rw [x2]
      have e : p.id = c.1.id := hs.1.id.symm.trans hid
      have := hs.2
      rw [e] at this ⊢
      exact libAppend_slack hC a2 ha g this
    · have hne : ¬ start = p'.start.set 0 (p'.stop.getD 0 0) := fun e => hid ?_
      · rw [if_neg hne]
        exact Longer.keeps.calm hs (libAppend_calm hC a2 ha g hid)
      -- only one chunk ends there
      rw [c2.id]
      obtain ⟨j, hj⟩ := List.getElem?_of_mem hp
      by_cases hjk : j = k
      · subst hjk; rw [hr.at_] at hj; cases hj; rfl
      · exfalso
        exact ends_disjoint hC a2 a3 hr hj hjk e

theorem EInv.run (hC : C.Ok) : ∀ (ops : List LOp) {st : MState} {w : World} {G : Ledger}, EInv C S Z st w G → AllLegal C w ops →
    ∃ st' rs, st.run C S ops = .ok (st', rs) ∧ EInv C S Z st' (w.run C ops) (G.runOld C w ops)
  | [], st, _, _, h, _ => ⟨st, [], rfl, h⟩
  | op :: ops, st, w, G, h, hl => by
      obtain ⟨st1, r, e1, e3⟩ := h.step hC op hl.1
      obtain ⟨st2, rs, g1, g3⟩ := EInv.run hC ops e3 hl.2
      exact ⟨st2, r :: rs, by simp only [MState.run, e1, g1, Res.ok_bind], g3⟩

/-- The files of a state in which the cache stands for the current chunks, with an index of the current or the previous list of chunks. -/
theorem open_old (hC : C.Ok) (Z : SlabSize) {l : LibSpec} {cc : CC} {fs : FS} {cs : List (Meta × Arr)} {s : List (Nat × Entry)} {ps : List Piece} (hch : Chunky C cs)
    (hs : CInv C (chunksOf cs) cc fs s) (hr : Rep C cs l.pieces) (hdir : cc.dir = l.dir) {p p' p'' : Piece} (hp : p' ∈ l.pieces) (hx : Longer C p p' cc.cache)
    (hp' : p'' ∈ ps) (hx' : Extended p p'') (hl : Lists C fs l.dir ps) (hn : ps.length < 2 ^ 64) : Readable C S fs l.dir p := by
  refine readable_file hC Z hl hp' hx' hn ?_
  rw [← hdir]
  exact LInv.fileHas hC hch hs hr hp hx

theorem EInv.readable (hC : C.Ok) {st : MState} {w : World} {G : Ledger} (h : EInv C S Z st w G) {d : Nat} {p : Piece} (hp : G.kept d p)
    (hn : (G.listed d).length < 2 ^ 64) : Readable C S st.fs d p := by
  by_cases hd : ∃ l, w.cur = some l ∧ l.dir = d
  · obtain ⟨l, h1, rfl⟩ := hd
    obtain ⟨lib, cs, a1, a2, a3, _, a5, _⟩ := h.inv.opened l h1
    obtain ⟨g1, g2, p', g3, g4⟩ := h.cur l h1 p hp
    obtain ⟨s, hs⟩ := a2.cache
    exact open_old hC Z a2.chunky hs a3 (a2.dir.trans a5) g3 (g4 lib a1) g1 (.refl _) g2 hn
  · exact h.closed_readable hC (fun l e e' => hd ⟨l, e, e'⟩) hp hn fun _ => rfl

/-! ### Result -/

/-- **C78 (part).** After an allowed history, in every directory: every chunk that was in the library when it was last flushed, closed or moved there, and
    that has been neither transposed nor removed since, can be read with the contents it had then by a library opened on the files as they are
    now, that is, after a crash between two calls; also on the files after any number of steps of `FlushLibrary` or of the destruction of the open library.
    Slices may have been appended to it.  (Fewer than `2^64` chunks.)

    Missing: chunks that have been transposed, which are lost (`C78_swap_crash`); and appending to a chunk after the crash (`C78_append_crash`). -/
theorem C78_durable_partial (C : Cfg) (hC : C.Ok) (S : Sorter) (Z : SlabSize) (fs : FS) (hfs : ∀ d, fs (d, .index) = none) (ops : List LOp)
    (hops : AllLegal C (World.init fs) ops) :
    ∃ st rs, MState.run C S ⟨none, fs⟩ ops = .ok (st, rs) ∧
      ∀ d p, (Ledger.init.runOld C (World.init fs) ops).kept d p → ((Ledger.init.runOld C (World.init fs) ops).listed d).length < 2 ^ 64 →
        Readable C S st.fs d p ∧
        ∀ lib, st.lib = some lib → ∀ n,
          (∃ fs', closeCrash C lib st.fs n = .ok fs' ∧ ((∀ l, ((World.init fs).run C ops).cur = some l → l.pieces.length < 2 ^ 64) → Readable C S fs' d p)) ∧
          (∃ fs', flushCrash C lib st.fs n = .ok fs' ∧ ((∀ l, ((World.init fs).run C ops).cur = some l → l.pieces.length < 2 ^ 64) → Readable C S fs' d p)) := by
  obtain ⟨st, rs, h1, h2⟩ := EInv.run (S := S) (Z := Z) hC ops (GInv.init hfs) hops
  refine ⟨st, rs, h1, fun d p hp hn => ⟨h2.readable hC hp hn, fun lib hlib n => ?_⟩⟩
  generalize (World.init fs).run C ops = w at h2 ⊢
  generalize Ledger.init.runOld C (World.init fs) ops = G at h2 hp hn
  have hcur : ∃ l, w.cur = some l := by
    cases e : w.cur with
    | none => rw [h2.inv.closed e] at hlib; cases hlib
    | some l => exact ⟨l, rfl⟩
  obtain ⟨l, hl⟩ := hcur
  obtain ⟨lib', cs, a1, a2, a3, _, a5, _⟩ := h2.inv.opened l hl
  rw [a1] at hlib; cases hlib
  have hdir : lib.cc.dir = l.dir := a2.dir.trans a5
  -- files of another directory
  have other : d ≠ l.dir → ∀ fs', (∀ m, fs' (d, m) = st.fs (d, m)) → Readable C S fs' d p := fun hd fs' hf =>
    h2.closed_readable hC (fun l₂ e => by rw [hl] at e; cases e; exact fun e => hd e.symm) hp hn hf
  have sameDir : ∀ {fs1 fs2 : FS}, SameBut lib.cc.dir (chunksOf cs) fs1 fs2 → d ≠ l.dir → ∀ m, fs2 (d, m) = fs1 (d, m) := fun hsb hd m =>
    hsb _ fun _ _ _ _ _ e => hd ((Prod.ext_iff.1 e).1.trans hdir)
  have idxSame : ∀ {fs1 fs2 : FS}, SameBut lib.cc.dir (chunksOf cs) fs1 fs2 → fs2 (l.dir, .index) = fs1 (l.dir, .index) := fun hsb =>
    hsb _ fun _ _ _ _ _ e => by cases (Prod.ext_iff.1 e).2
  constructor
  · unfold closeCrash
    split
    · obtain ⟨cc', fs', s', g1, g2, g3, g4, g5⟩ := flush_some hC a2 n
      refine ⟨fs', by rw [g1]; rfl, fun _ => ?_⟩
      by_cases hd : d = l.dir
      · subst hd
        obtain ⟨k2, k3, p', k1, k4⟩ := h2.cur l hl p hp
        exact open_old hC Z a2.chunky g3 a3 (g2.trans hdir) k1 (Longer.keeps.calm (k4 lib a1) (g5 _)) k2 (.refl _) (k3.frame (idxSame g4)) hn
      · exact other hd _ (sameDir g4 hd)
    · obtain ⟨fs', e1, e2, e3⟩ := destroy_ok hC a2
      refine ⟨fs', e1, fun hlen => ?_⟩
      by_cases hd : d = l.dir
      · subst hd
        obtain ⟨_, _, p', k1, k4⟩ := h2.cur l hl p hp
        have e2 : Saved C fs' l.dir cs := by rw [← a5]; exact e2
        exact (k4 lib a1).1.readable hC a2.chunky a3 k1
          (readable_of hC Z (e2.lists a3) k1 (hlen l hl) e2.chunky a3 k1 fun c hc _ => e2.disk _ _ _ (chunksOf_of_mem e2.chunky.ids hc))
      · refine other hd _ fun m => e3 _ (fun e => hd ((Prod.ext_iff.1 e).1.trans a5)) fun _ _ _ _ _ e => hd ((Prod.ext_iff.1 e).1.trans a5)
  · cases n with
    | zero => exact ⟨st.fs, rfl, fun _ => h2.readable hC hp hn⟩
    | succ n =>
      let fs1 : FS := st.fs.set (lib.idx.dir, .index) (some (indexFile C (cs.map Prod.fst)))
      have a2' : LInv C S Z lib fs1 cs := a2.frameIndex fun m => set_index_chunk _ _ _ _ _
      obtain ⟨cc', fs', s', g1, g2, g3, g4, g5⟩ := flush_some hC a2' n
      refine ⟨fs', ?_, fun hlen => ?_⟩
      · show (lib.idx.flush C st.fs).bind _ = _
        rw [index_flush_ok a2.idx]
        simp only [Res.ok_bind]
        rw [g1]; rfl
      by_cases hd : d = l.dir
      · subst hd
        obtain ⟨_, _, p', k1, k4⟩ := h2.cur l hl p hp
        have hL : Lists C fs1 l.dir l.pieces := ⟨cs, a2.chunky, by rw [← a5]; exact set_index_self _ _ _, a3⟩
        exact open_old hC Z a2.chunky g3 a3 (g2.trans hdir) k1 (Longer.keeps.calm (k4 lib a1) (g5 _)) k1 (k4 lib a1).1 (hL.frame (idxSame g4)) (hlen l hl)
      · refine other hd _ fun m => (sameDir g4 hd m).trans ?_
        show (if (d, m) = (lib.idx.dir, Name.index) then _ else _) = _
        rw [if_neg fun e => hd ((Prod.ext_iff.1 e).1.trans a5)]

/-- Crash after the flush in the history of Props29: the chunk with the appended slice is safe. -/
example : ∃ st rs p, MState.run (Ex.cfg 1) Tree.Ex.S ⟨none, fun _ => none⟩ (Ex.hist.take 7) = .ok (st, rs) ∧ p.Plain ∧ InBox p.start p.stop [2, 1] ∧
    Readable (Ex.cfg 1) Tree.Ex.S st.fs 0 p := by
  obtain ⟨st, rs, h1, h2⟩ := C78_durable_partial (Ex.cfg 1) (Ex.cfg_ok 1) Tree.Ex.S Tree.Ex.Z _ (fun _ => rfl) (Ex.hist.take 7) (Ex.hist_take 7)
  exact ⟨st, rs, _, h1, fun _ => rfl, Ex.inBox2 (n := 3) (m := 2) (by decide) (by decide), (h2 0 _ (List.mem_cons_self) (by decide)).1⟩

/-- At the end of that history a library is open in directory 1 that has imported the one in directory 5: the chunks of the latter are safe, while the
    former is flushed or closed, too. -/
example : ∃ st rs p lib, MState.run (Ex.cfg 1) Tree.Ex.S ⟨none, fun _ => none⟩ Ex.hist = .ok (st, rs) ∧ st.lib = some lib ∧ InBox p.start p.stop [1, 2] ∧
    ∀ n, ∃ fs', flushCrash (Ex.cfg 1) lib st.fs n = .ok fs' ∧ Readable (Ex.cfg 1) Tree.Ex.S fs' 5 p := by
  obtain ⟨st, rs, h1, h2⟩ := C78_durable_partial (Ex.cfg 1) (Ex.cfg_ok 1) Tree.Ex.S Tree.Ex.Z _ (fun _ => rfl) Ex.hist Ex.hist_legal
  obtain ⟨st', rs', g1, _, g2⟩ := runW_ok (S := Tree.Ex.S) (Z := Tree.Ex.Z) (Ex.cfg_ok 1) Ex.hist (WInv.init (fun _ => rfl)) Ex.hist_legal
  rw [h1] at g1; cases g1
  obtain ⟨lib, cs, a1, _⟩ := g2.opened _ rfl
  obtain ⟨p, hp, hb⟩ : ∃ p, (Ledger.init.runOld (Ex.cfg 1) (World.init fun _ => none) Ex.hist).kept 5 p ∧ InBox p.start p.stop [1, 2] :=
    ⟨_, List.mem_cons_self, Ex.inBox2 (n := 2) (m := 3) (by decide) (by decide)⟩
  refine ⟨st, rs, p, lib, h1, a1, hb, fun n => ?_⟩
  obtain ⟨fs', k1, k2⟩ := ((h2 5 p hp (by decide)).2 lib a1 n).2
  exact ⟨fs', k1, k2 fun l e => by cases e; decide⟩

/-- A chunk of two rows is flushed and then a slice is appended, which waits in the cache: the two rows are safe,
    also while the library is closed. -/
def appended : List LOp := [.open 0 [1, 1], .register [65] ⟨[2, 2], [1, 2, 3, 4]⟩ [0, 0] [2, 2] 0 false, .flush, .append [2, 0] ⟨[1, 2], [5, 6]⟩]

theorem appended_legal : AllLegal (Ex.cfg 1) (World.init fun _ => none) appended :=
  ⟨⟨rfl, by decide⟩, ⟨_, rfl, Ex.canRegister (n := 2) (m := 2) (x := 0) (y := 0) (by decide) (by decide) rfl (by decide) (by decide) (by decide) (by decide)
      (fun p hp => by cases hp) (by decide)⟩, ⟨_, rfl⟩,
    ⟨_, 0, _, rfl, Ex.canAppend (x := 0) (y := 0) (n := 2) rfl (by decide) rfl rfl rfl (by decide) (by decide) (fun j p' hj hjk => by
      rcases j with _ | j
      · exact absurd rfl hjk
      · cases hj)⟩, trivial⟩

example : ∃ st rs p lib, MState.run (Ex.cfg 1) Tree.Ex.S ⟨none, fun _ => none⟩ appended = .ok (st, rs) ∧ st.lib = some lib ∧ p.Plain ∧ InBox p.start p.stop [1, 1] ∧
    p.val [1, 1] = [4] ∧ Readable (Ex.cfg 1) Tree.Ex.S st.fs 0 p ∧ ∀ k, ∃ fs', closeCrash (Ex.cfg 1) lib st.fs k = .ok fs' ∧ Readable (Ex.cfg 1) Tree.Ex.S fs' 0 p := by
  obtain ⟨st, rs, h1, h2⟩ := C78_durable_partial (Ex.cfg 1) (Ex.cfg_ok 1) Tree.Ex.S Tree.Ex.Z _ (fun _ => rfl) appended appended_legal
  obtain ⟨st', rs', g1, _, g2⟩ := runW_ok (S := Tree.Ex.S) (Z := Tree.Ex.Z) (Ex.cfg_ok 1) appended (WInv.init (fun _ => rfl)) appended_legal
  rw [h1] at g1; cases g1
  obtain ⟨lib, cs, a1, _⟩ := g2.opened _ rfl
  obtain ⟨k1, k2⟩ := h2 0 _ (List.mem_cons_self) (by decide)
  refine ⟨st, rs, _, lib, h1, a1, fun _ => rfl, Ex.inBox2 (n := 2) (m := 2) (by decide) (by decide), by decide, k1, fun k => ?_⟩
  obtain ⟨fs', q1, q2⟩ := (k2 lib a1 k).1
  exact ⟨fs', q1, q2 fun l e => by cases e; decide⟩

/-- What a program observes that opens the files after a crash. -/
def crashed (C : Cfg) (S : Sorter) (before after : List LOp) : Res (List Out) :=
  (MState.run C S ⟨none, fun _ => none⟩ before).bind fun r => outs (MState.run C S ⟨none, r.1.fs⟩ after)

/-- **C78, negation 1.** A chunk of 2 x 3 elements is registered and flushed; then the axes are swapped (library without cache, so that the new data are
    written at once) and the program crashes.  The index on disk still has the old box: the element (0, 1), which was 2, reads 4, and reading (0, 2), which
    was 3, aborts.  Without the swap both are there. -/
theorem C78_swap_crash :
    let before : List LOp := [.open 0 [1, 1], .register [65] ⟨[2, 3], [1, 2, 3, 4, 5, 6]⟩ [0, 0] [2, 3] 0 false, .flush]
    crashed (Ex.cfg 0) Tree.Ex.S before [.open 0 [1, 1], .get [0, 1], .get [0, 2]] = .ok [.unit, .vec [2], .vec [3]] ∧
    crashed (Ex.cfg 0) Tree.Ex.S (before ++ [.swap 0 1]) [.open 0 [1, 1], .get [0, 1]] = .ok [.unit, .vec [4]] ∧
    crashed (Ex.cfg 0) Tree.Ex.S (before ++ [.swap 0 1]) [.open 0 [1, 1], .get [0, 2]] = .abort := by decide +kernel

/-- **C78, negation 2.** A chunk of 2 x 2 elements is registered and flushed; then the slice (5, 6) is appended and the program crashes.  The index on disk
    lists 2 rows, the file has 3.  The old elements are read correctly; but if the slice (7, 8) is appended then, it ends up in the fourth row of the
    file, and reading (2, 0) returns 5.  Without the crash it returns 7. -/
theorem C78_append_crash :
    let before : List LOp := [.open 0 [1, 1], .register [65] ⟨[2, 2], [1, 2, 3, 4]⟩ [0, 0] [2, 2] 0 false, .flush]
    let after : List LOp := [.open 0 [1, 1], .get [1, 1], .append [2, 0] ⟨[1, 2], [7, 8]⟩, .get [2, 0]]
    crashed (Ex.cfg 0) Tree.Ex.S before after = .ok [.unit, .vec [4], .unit, .vec [7]] ∧
    crashed (Ex.cfg 0) Tree.Ex.S (before ++ [.append [2, 0] ⟨[1, 2], [5, 6]⟩]) after = .ok [.unit, .vec [4], .unit, .vec [5]] := by decide +kernel

end Verif.Dist
