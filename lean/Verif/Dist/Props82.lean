import Verif.Dist.Touch
/-
C82: a crash in the middle of a call.  What survives a crash does so also if the process dies at any point inside a call, with the files the
call was writing in any condition.
-/
namespace Verif.Dist
open Verif Verif.ND Verif.Tree Verif.Bytes Verif.Stream Verif.NullSup
open Verif.Cache (CRel keyGone)

variable {C : Cfg} {S : Sorter} {Z : SlabSize}

/-! ### Specification -/

/-- The files `fs'` may be found after a crash during the call `op` in the state `st`: any file the call may write to can have any contents or be missing,
    whether the write was finished, partial or not begun; all other files are as they were. -/
def MState.CrashIn (C : Cfg) (S : Sorter) (st : MState) (op : LOp) (fs' : FS) : Prop := ∀ f, ¬ st.touches C S op f → fs' f = st.fs f

/-- What must survive a crash during a call: what was there before, except for the chunk a slice is being appended to, the library that is being
    transposed, emptied or moved away, and the library that is being moved into the open one. -/
def Ledger.during (G : Ledger) (w : World) : LOp → Ledger
  | op => match op, w.cur with
    | .flush, _ => G
    | .close, _ => G
    | .move dir, some l => (G.drop l.dir).drop dir
    | .clear, some l => G.drop l.dir
    | .import dir true, some _ => G.drop dir
    | .append start _, some l => ⟨G.listed, upd G.kept l.dir fun p => G.kept l.dir p ∧ start ≠ p.start.set 0 (p.stop.getD 0 0)⟩
    | .swap _ _, some l => ⟨G.listed, upd G.kept l.dir fun _ => False⟩
    | _, _ => G

/-! ### Proof -/

/-- All chunks with outstanding operations have names in `Q`. -/
def Pend (C : Cfg) (Q : List Nat → Prop) (c : Cache.Cache Nat Entry) : Prop :=
  ∃ s, CRel (max 1 C.size) c s ∧ ∀ k e, (k, e) ∈ s → e.stat ≠ .nothing → Q e.info.path

/-- Only chunk files of the directory with names in `Q`. -/
def Within (dir : Nat) (Q : List Nat → Prop) (t : FileId → Prop) : Prop := ∀ f, t f → ∃ n, f = (dir, .chunk n) ∧ Q n

variable {Q : List Nat → Prop}

theorem within_descope {dir : Nat} {e : Entry} (h : e.stat ≠ .nothing → Q e.info.path) : Within dir Q (descopeTouch dir e) :=
  fun _ hf => ⟨e.info.path, hf.2.2, h hf.2.1⟩

theorem within_sync {dir : Nat} {e : Entry} (h : e.stat ≠ .nothing → Q e.info.path) : Within dir Q (syncTouch dir e) :=
  fun _ hf => ⟨e.info.path, hf.2.2, h (by obtain ⟨ax, ha⟩ := hf.2.1; rw [ha]; simp)⟩

theorem Pend.get {c : Cache.Cache Nat Entry} (h : Pend C Q c) {k : Nat} (hc : Cache.contains c k = true) {r : Cache.Cache Nat Entry × Nat} (hr : Cache.get c k = .ok r) :
    ((r.1.payload r.2).stat ≠ .nothing → Q (r.1.payload r.2).info.path) ∧ Pend C Q r.1 ∧
      ∀ v : Entry, (v.stat ≠ .nothing → Q v.info.path) → Pend C Q (Cache.store r.1 r.2 v) := by
  obtain ⟨s, hs, hq⟩ := h
  rw [hs.contains] at hc
  obtain ⟨e0, he0⟩ := mem_of_key (of_decide_eq_true hc)
  obtain ⟨r', g1, g2, g3, g4⟩ := hs.get he0
  rw [hr] at g1; cases g1
  have key : ∀ v : Entry, (v.stat ≠ .nothing → Q v.info.path) → ∀ k' e, (k', e) ∈ keyGone k s ++ [(k, v)] → e.stat ≠ .nothing → Q e.info.path := by
    intro v hv k' e he hne
    rcases List.mem_append.1 he with g | g
    · exact hq _ _ (keyGone_sub g).1 hne
    · rw [List.mem_singleton] at g
      obtain ⟨_, h6⟩ := Prod.ext_iff.1 g
      simp only at h6
      rw [h6] at hne ⊢; exact hv hne
  rw [g2]
  exact ⟨hq _ _ he0, ⟨_, g3, key _ (hq _ _ he0)⟩, fun v hv => ⟨_, g4 v, key v hv⟩⟩

theorem Pend.evict {c : Cache.Cache Nat Entry} (h : Pend C Q c) {k : Nat} {r : Cache.Cache Nat Entry × Nat} (hr : Cache.evict c k = .ok r) :
    ((r.1.payload r.2).stat ≠ .nothing → Q (r.1.payload r.2).info.path) ∧ Pend C Q r.1 := by
  obtain ⟨s, hs, hq⟩ := h
  obtain ⟨e0, he0⟩ := mem_of_key (evict_mem hr hs)
  obtain ⟨r', g1, g2, g3⟩ := hs.evict he0
  rw [hr] at g1; cases g1
  rw [g2]
  exact ⟨hq _ _ he0, ⟨_, g3, fun k e he => hq k e (keyGone_sub he).1⟩⟩

theorem Pend.room {cc : CC} (h : Pend C Q cc.cache) : Within cc.dir Q (makeRoomTouch cc) := by
  obtain ⟨s, hs, hq⟩ := h
  rintro f ⟨hfree, r, hr, hd⟩
  rw [hs.hasFree] at hfree
  have hl := of_decide_eq_false hfree
  have hle := hs.le
  have hpos := hs.pos
  cases s with
  | nil => exact absurd hpos hl
  | cons p s =>
    obtain ⟨r', g1, g2, _⟩ := hs.evictOldest (by omega)
    rw [hr] at g1; cases g1
    exact within_descope (by rw [g2]; exact hq p.1 p.2 (List.mem_cons_self ..)) f hd

theorem Pend.makeRoom {cc : CC} (h : Pend C Q cc.cache) {fs : FS} {q : CC × FS} (hq : makeRoom C cc fs = .ok q) : Pend C Q q.1.cache := by
  obtain ⟨s, hs, hp⟩ := h
  obtain ⟨s', g1, g2, _⟩ := makeRoom_calm hq hs
  exact ⟨s', g1, fun k e he => hp k e (g2 _ he)⟩

theorem Pend.insertInto {cc : CC} (h : Pend C Q cc.cache) {fs : FS} {m : Meta} (hm : Q m.path) {a : Arr} {st : Stat} {q : CC × FS}
    (hq : insertInto C cc fs m a st = .ok q) : Pend C Q q.1.cache ∧ q.1.dir = cc.dir := by
  obtain ⟨s, hs, hp⟩ := h
  unfold Dist.insertInto at hq
  obtain ⟨_, h0, hq⟩ := Res.bind_eq_ok.1 hq
  obtain ⟨_, h1, hq⟩ := Res.bind_eq_ok.1 hq
  obtain ⟨_, h2, hq⟩ := Res.bind_eq_ok.1 hq
  obtain ⟨_, _, hq⟩ := Res.bind_eq_ok.1 hq
  cases hq
  rw [hs.contains] at h0
  have hj : m.id ∉ s.map Prod.fst := fun hm => by rw [decide_eq_true hm] at h0; cases h0
  obtain ⟨s', g1, g2⟩ := insert_calm h1 h2 hs hj
  refine ⟨⟨s', g1, fun k e he hne => ?_⟩, (makeRoom_frame h1).1⟩
  rcases g2 _ he with g | g
  · exact hp _ _ g hne
  · have g' : e = _ := (Prod.ext_iff.1 g).2
    rw [g']; exact hm

theorem Pend.flushOne {q q' : CC × FS} (h : Pend C Q q.1.cache) {k : Nat} (hq : flushOne C k q = .ok q') : Pend C Q q'.1.cache ∧ q'.1.dir = q.1.dir := by
  unfold Dist.flushOne at hq
  obtain ⟨r, h1, hq⟩ := Res.bind_eq_ok.1 hq
  obtain ⟨_, _, hq⟩ := Res.bind_eq_ok.1 hq
  cases hq
  exact ⟨(h.evict h1).2, rfl⟩

/-- Loops whose iterations write only such files. -/
theorem within_loop {α σ : Type} {body : α → σ → Res σ} {t : α → σ → FileId → Prop} {dir : Nat} {I : σ → Prop}
    (ht : ∀ x s, I s → Within dir Q (t x s)) (hI : ∀ x s s', I s → body x s = .ok s' → I s') : ∀ (xs : List α) {s : σ}, I s → Within dir Q (loopTouch body t xs s)
  | [], _, _ => fun _ hf => hf.elim
  | x :: xs, s, hs => fun f hf => by
      rcases hf with hf | ⟨s', h1, hf⟩
      · exact ht x s hs f hf
      · exact within_loop ht hI xs (hI x s s' hs h1) f hf

theorem Pend.flush {cc : CC} (h : Pend C Q cc.cache) (fs : FS) : Within cc.dir Q (flushTouch C cc fs) := by
  refine within_loop (I := fun q : CC × FS => Pend C Q q.1.cache ∧ q.1.dir = cc.dir) (fun k q hq f hf => ?_) (fun k q q' hq h => ?_) _ ⟨h, rfl⟩
  · obtain ⟨r, h1, hf⟩ := hf
    rw [← hq.2]
    exact within_descope (hq.1.evict h1).1 f hf
  · obtain ⟨g1, g2⟩ := hq.1.flushOne h
    exact ⟨g1, g2.trans hq.2⟩

theorem Pend.flushed {cc : CC} (h : Pend C Q cc.cache) {fs : FS} {q : CC × FS} (hq : flushIfUncached C cc fs = .ok q) : Pend C Q q.1.cache ∧ q.1.dir = cc.dir := by
  unfold flushIfUncached at hq
  split at hq
  · refine ⟨?_, flush_dir hq⟩
    have := runLoop_rel (R := fun a b : CC × FS => Pend C Q a.1.cache → Pend C Q b.1.cache) (fun _ h => h) (fun _ _ _ h h' hp => h' (h hp))
      (fun k s s' h hp => (hp.flushOne h).1) _ hq
    exact this h
  · cases hq; exact ⟨h, rfl⟩

theorem Pend.registerTouch {cc : CC} (h : Pend C Q cc.cache) {fs : FS} {m : Meta} (hm : Q m.path) {a : Arr} : Within cc.dir Q (registerNewTouch C cc fs m a) := by
  rintro f (hf | ⟨_, q, h1, hf⟩)
  · exact h.room f hf
  · obtain ⟨g1, g2⟩ := h.insertInto hm h1
    rw [← g2]; exact g1.flush _ f hf

theorem Pend.retrieveTouch {cc : CC} (h : Pend C Q cc.cache) {m : Meta} : Within cc.dir Q (retrieveTouch cc m) := by
  intro f hf
  unfold Dist.retrieveTouch at hf
  split at hf
  · rename_i hc
    obtain ⟨r, h1, hf⟩ := hf
    exact within_sync (h.get hc h1).1 f hf
  · exact h.room f hf

theorem Pend.retrieve {cc : CC} (h : Pend C Q cc.cache) {fs : FS} {m : Meta} {q : CC × FS × Arr} (hq : retrieve C cc fs m = .ok q) :
    Pend C Q q.1.cache ∧ q.1.dir = cc.dir := by
  unfold Dist.retrieve at hq
  split at hq
  · rename_i hc
    obtain ⟨r, h1, hq⟩ := Res.bind_eq_ok.1 hq
    obtain ⟨_, g2, g3⟩ := h.get hc h1
    simp only at hq
    split at hq
    · obtain ⟨x, h2, hq⟩ := Res.bind_eq_ok.1 hq
      cases hq
      refine ⟨g3 _ fun hne => absurd ?_ hne, rfl⟩
      exact (sync_frame (f := (cc.dir + 1, .index)) h2 fun e => by have := (Prod.ext_iff.1 e.2.2).2; cases this).2.2
    · cases hq; exact ⟨g2, rfl⟩
  · rename_i hc
    unfold deserInto at hq
    obtain ⟨_, h1, hq⟩ := Res.bind_eq_ok.1 hq
    obtain ⟨_, h2, hq⟩ := Res.bind_eq_ok.1 hq
    obtain ⟨_, _, hq⟩ := Res.bind_eq_ok.1 hq
    cases hq
    refine ⟨?_, (makeRoom_frame h1).1⟩
    obtain ⟨s, hs, hp⟩ := h
    rw [hs.contains] at hc
    have hj : m.id ∉ s.map Prod.fst := fun hm => hc (decide_eq_true hm)
    obtain ⟨s', g1, g2⟩ := insert_calm h1 h2 hs hj
    refine ⟨s', g1, fun k e he hne => ?_⟩
    rcases g2 _ he with g | g
    · exact hp _ _ g hne
    · have g' : e = _ := (Prod.ext_iff.1 g).2
      rw [g'] at hne; exact absurd rfl hne

theorem Pend.appendFirst {axis : Nat} {cc : CC} (h : Pend C Q cc.cache) {fs : FS} {m : Meta} (hm : Q m.path) {s : Arr} {q : CC × FS}
    (hq : appendFirst C axis cc fs m s = .ok q) : Pend C Q q.1.cache ∧ q.1.dir = cc.dir := by
  unfold Dist.appendFirst at hq
  simp only at hq
  have hm' : Q (m.grow axis (s.shape.getD axis 0)).path := hm
  split at hq
  · rename_i hc
    obtain ⟨r, h1, hq⟩ := Res.bind_eq_ok.1 hq
    obtain ⟨_, g2, g3⟩ := h.get hc h1
    split at hq
    · obtain ⟨r1, h2, hq⟩ := Res.bind_eq_ok.1 hq
      exact Pend.insertInto (cc := { cc with cache := r1.1 }) (g2.evict h2).2 hm' hq
    · obtain ⟨_, _, hq⟩ := Res.bind_eq_ok.1 hq
      cases hq; exact ⟨g3 _ fun _ => hm', rfl⟩
    · obtain ⟨x, h2, hq⟩ := Res.bind_eq_ok.1 hq
      cases hq
      refine ⟨g3 _ fun _ => ?_, rfl⟩
      unfold appendPending at h2
      obtain ⟨_, _, h2⟩ := Res.bind_eq_ok.1 h2
      obtain ⟨_, _, h2⟩ := Res.bind_eq_ok.1 h2
      cases h2; exact hm'
  · exact h.insertInto hm' hq

theorem Pend.appendTouch {axis : Nat} {cc : CC} (h : Pend C Q cc.cache) {fs : FS} {m : Meta} (hm : Q m.path) {s : Arr} :
    Within cc.dir Q (appendChunkTouch C axis cc fs m s) := by
  rintro f (hf | ⟨_, q, h1, hf⟩)
  · unfold appendFirstTouch at hf
    split at hf
    · rename_i hc
      obtain ⟨r, h1, hf⟩ := hf
      obtain ⟨g1, g2, _⟩ := h.get hc h1
      split at hf
      · obtain ⟨r1, h2, hf⟩ := hf
        exact Pend.room (cc := { cc with cache := r1.1 }) (g2.evict h2).2 f hf
      · exact hf.elim
      · exact within_sync g1 f hf.2
    · exact h.room f hf
  · obtain ⟨g1, g2⟩ := h.appendFirst hm h1
    rw [← g2]; exact g1.flush _ f hf

theorem Pend.remove {cc cc' : CC} (h : Pend C Q cc.cache) {m : Meta} (hr : removeChunk cc m = .ok cc') : Pend C Q cc'.cache ∧ cc'.dir = cc.dir := by
  unfold removeChunk at hr
  split at hr
  · obtain ⟨r, h1, hr⟩ := Res.bind_eq_ok.1 hr
    cases hr
    exact ⟨(h.evict h1).2, rfl⟩
  · cases hr; exact ⟨h, rfl⟩

/-- The chunks a call (other than those that move whole directories) is about have names in `Q`. -/
def Concerns (Q : List Nat → Prop) (lib : Lib) : LOp → Prop
  | .register uuid _ _ _ _ _ => Q uuid ∧ Q []
  | .append start _ => ∀ x k m, lib.idx.getChunk (start.set 0 (wsub (start.getD 0 0) 1)) = .ok (x, some (k, m)) → Q m.path
  | .swap _ _ => ∀ n, Q n
  | .move _ => False
  | .clear => False
  | .import _ _ => False
  | _ => True

/-- Not one of the calls that move whole directories. -/
def Inside : LOp → Prop
  | .move _ => False
  | .clear => False
  | .import _ _ => False
  | _ => True

theorem Inside.concerns {op : LOp} (h : Inside op) (lib : Lib) : Concerns (fun _ => True) lib op := by
  cases op <;> first | exact trivial | exact h | exact ⟨trivial, trivial⟩ | exact fun _ => trivial | exact fun _ _ _ _ => trivial

/-- What each call writes to, if the chunks with outstanding operations and those the call is about have names in `Q`. -/
theorem touches_within {st : MState} {lib : Lib} (hlib : st.lib = some lib) (h : Pend C Q lib.cc.cache) (op : LOp)
    (hop : Concerns Q lib op) (f : FileId) (hf : st.touches C S op f) :
    ((op = .flush ∨ op = .close) ∧ f = (lib.idx.dir, .index)) ∨ ∃ n, f = (lib.cc.dir, .chunk n) ∧ Q n := by
  obtain ⟨lib', e, hf⟩ := hf
  rw [hlib] at e; cases e
  have range : ∀ (lib : Lib) lo hi, Pend C Q lib.cc.cache → Within lib.cc.dir Q (lib.loopRangeTouch C st.fs lo hi) := by
    intro lib lo hi h f hf
    obtain ⟨ms, _, hf⟩ := hf
    refine within_loop (I := fun q : CC × FS × List (List Nat × List Nat) => Pend C Q q.1.cache ∧ q.1.dir = lib.cc.dir) (fun k q hq f hf => ?_) (fun k q q' hq h => ?_) _ ⟨h, rfl⟩ f hf
    · rw [← hq.2]; exact hq.1.retrieveTouch f hf
    · unfold loopOne at h
      obtain ⟨_, h3, h⟩ := Res.bind_eq_ok.1 h
      obtain ⟨_, _, h⟩ := Res.bind_eq_ok.1 h
      cases h
      obtain ⟨g1, g2⟩ := hq.1.retrieve h3
      exact ⟨g1, g2.trans hq.2⟩
  cases op with
  | query q => exact hf.elim
  | loop lo hi => exact .inr (range lib _ _ h f hf)
  | loopAll =>
    obtain ⟨r, _, hf⟩ := hf
    exact .inr (range ⟨lib.cc, r.1⟩ _ _ h f hf)
  | «open» d init => exact hf.elim
  | close =>
    rcases hf with hf | hf
    · exact .inl ⟨.inr rfl, hf⟩
    · exact .inr (h.flush _ f hf)
  | register uuid a start stop overlap opt =>
    obtain ⟨ct, r, h1, hf⟩ := hf
    refine .inr (h.registerTouch ?_ f hf)
    unfold Index.register at h1
    obtain ⟨_, _, h1⟩ := Res.bind_eq_ok.1 h1
    cases h1
    show Q (if ct = .specified then uuid else [])
    split
    · exact hop.1
    · exact hop.2
  | append start s =>
    obtain ⟨x, k, m, h1, hf⟩ := hf
    exact .inr (h.appendTouch (hop x k m h1) f hf)
  | get i =>
    obtain ⟨x, k, m, h1, hf⟩ := hf
    exact .inr (h.retrieveTouch f hf)
  | fill P s hd buf lo hi out =>
    obtain ⟨ms, _, hf⟩ := hf
    refine .inr (within_loop (I := fun q : CC × FS × List Nat => Pend C Q q.1.cache ∧ q.1.dir = lib.cc.dir) (fun k q hq f hf => ?_) (fun k q q' hq h => ?_) _ ⟨h, rfl⟩ f hf)
    · rw [← hq.2]; exact hq.1.retrieveTouch f hf.2
    · unfold fillOne at h
      simp only at h
      split at h
      · obtain ⟨_, _, h⟩ := Res.bind_eq_ok.1 h
        cases h; exact hq
      · obtain ⟨_, h3, h⟩ := Res.bind_eq_ok.1 h
        obtain ⟨_, _, h⟩ := Res.bind_eq_ok.1 h
        cases h
        obtain ⟨g1, g2⟩ := hq.1.retrieve h3
        exact ⟨g1, g2.trans hq.2⟩
  | flush =>
    rcases hf with hf | ⟨fs1, _, hf⟩
    · exact .inl ⟨.inl rfl, hf⟩
    · exact .inr (h.flush _ f hf)
  | swap p q =>
    obtain ⟨ms, _, hf⟩ := hf
    refine .inr (within_loop (I := fun q : Lib × FS × Index × Arr => Pend C Q q.1.cc.cache ∧ q.1.cc.dir = lib.cc.dir) (fun k q hq f hf => ?_) (fun k q q' hq h => ?_) _ ⟨h, rfl⟩ f hf)
    · rw [← hq.2]
      rcases hf with hf | ⟨r, b, cc1, h1, _, h2, hf⟩
      · exact hq.1.retrieveTouch f hf
      · obtain ⟨g1, g2⟩ := hq.1.retrieve h1
        obtain ⟨g3, g4⟩ := g1.remove h2
        rw [← g2, ← g4]
        exact g3.registerTouch (hop _) f hf
    · unfold swapOne at h
      obtain ⟨r, h4, h⟩ := Res.bind_eq_ok.1 h
      simp only at h
      obtain ⟨b, _, h⟩ := Res.bind_eq_ok.1 h
      obtain ⟨_, h6, h⟩ := Res.bind_eq_ok.1 h
      obtain ⟨_, _, h⟩ := Res.bind_eq_ok.1 h
      obtain ⟨_, _, h⟩ := Res.bind_eq_ok.1 h
      cases h
      unfold replaceChunk at h6
      obtain ⟨_, _, h6⟩ := Res.bind_eq_ok.1 h6
      obtain ⟨cc1, h7, h6⟩ := Res.bind_eq_ok.1 h6
      unfold registerNew at h6
      obtain ⟨_, h8, h6⟩ := Res.bind_eq_ok.1 h6
      obtain ⟨g1, g2⟩ := hq.1.retrieve h4
      obtain ⟨g3, g4⟩ := g1.remove h7
      obtain ⟨g5, g6⟩ := g3.insertInto (hop _) h8
      obtain ⟨g7, g8⟩ := g5.flushed h6
      exact ⟨g7, by rw [g8, g6, g4, g2, hq.2]⟩
  | move dir => exact hop.elim
  | clear => exact hop.elim
  | «import» dir mv => exact hop.elim

/-- The file of a chunk without outstanding operations is not the file of one that has some. -/
theorem LInv.pend {lib : Lib} {fs : FS} {cs : List (Meta × Arr)} (h : LInv C S Z lib fs cs) {c : Meta × Arr} (hc : c ∈ cs) (hne : c.1.path ≠ [])
    (hq : Quiet C c.1.id lib.cc.cache) : Pend C (· ≠ c.1.path) lib.cc.cache := by
  obtain ⟨s, hs⟩ := h.cache
  refine ⟨s, hs.rel, fun k e he hst hp => hst ?_⟩
  obtain ⟨m, a, h1, h2⟩ := hs.cached _ _ he
  have hk := chunksOf_of_mem h.chunky.ids hc
  have : c.1.id = k := h.chunky.ok.inj _ _ _ _ _ _ hk h1 hne (by rw [← h2.path]; exact hp.symm)
  subst this
  obtain ⟨s', h3, h4⟩ := hq
  exact h4 e (crel_mem hs.rel h3 he)

theorem LInv.pendTrue {lib : Lib} {fs : FS} {cs : List (Meta × Arr)} (h : LInv C S Z lib fs cs) : Pend C (fun _ => True) lib.cc.cache := by
  obtain ⟨s, hs⟩ := h.cache
  exact ⟨s, hs.rel, fun _ _ _ _ => trivial⟩

theorem during_kept {G : Ledger} {w : World} {op : LOp} {d : Nat} {p : Piece} (h : (G.during w op).kept d p) : G.kept d p := by
  have hupd : ∀ (g : Ledger) d', (g.drop d').kept d p → g.kept d p := fun g d' h => by
    have h : upd g.kept d' (fun _ => False) d p := h
    by_cases hd : d = d'
    · subst hd; rw [upd_self] at h; exact h.elim
    · rw [upd_ne _ _ hd] at h; exact h
  unfold Ledger.during at h
  simp only at h
  split at h
  · exact h
  · exact h
  · exact hupd _ _ (hupd _ _ h)
  · exact hupd _ _ h
  · exact hupd _ _ h
  · rename_i l _
    have h : upd G.kept l.dir _ d p := h
    by_cases hd : d = l.dir
    · subst hd; rw [upd_self] at h; exact h.1
    · rw [upd_ne _ _ hd] at h; exact h
  · rename_i l _
    have h : upd G.kept l.dir _ d p := h
    by_cases hd : d = l.dir
    · subst hd; rw [upd_self] at h; exact h.elim
    · rw [upd_ne _ _ hd] at h; exact h
  · exact h

theorem DInv.crash (hC : C.Ok) {st : MState} {w : World} {G : Ledger} (h : DInv C S Z st w G) {op : LOp} (hl : Legal C w op) {st' : MState} {r : Out}
    (hst : st.step C S op = .ok (st', r)) {fs' : FS} (hc : st.CrashIn C S op fs')
    (hi : op = .flush ∨ op = .close → ∀ d, fs' (d, .index) = st.fs (d, .index) ∨ fs' (d, .index) = st'.fs (d, .index)) {d : Nat} {p : Piece}
    (hp : (G.during w op).kept d p) (hn : (G.listed d).length < 2 ^ 64) (hn' : ∀ l, w.cur = some l → l.pieces.length < 2 ^ 64) : Readable C S fs' d p := by
  have hk := during_kept hp
  cases hw : w.cur with
  | none =>
    have hnone := h.inv.closed hw
    have : fs' = st.fs := funext fun f => hc f fun ⟨lib, e, _⟩ => by rw [hnone] at e; cases e
    rw [this]; exact h.readable hC hk hn
  | some l =>
    obtain ⟨lib, cs, a1, a2, a3, a4, a5, _⟩ := h.inv.opened l hw
    have hdir : lib.cc.dir = l.dir := a2.dir.trans a5
    by_cases hd : d = l.dir
    · -- the open library
      subst hd
      obtain ⟨k1, k2, k3, k4⟩ := DInv.now h hw hk
      have hquiet := k4 lib a1
      obtain ⟨s, hs⟩ := a2.cache
      -- the file of a chunk that is not touched still holds the data
      have disk : ∀ c ∈ cs, c.1.id = p.id → (c.1.path ≠ [] → ¬ st.touches C S op (l.dir, .chunk c.1.path)) → OnDisk C l.dir fs' c.1 c.2 := fun c hcm hid hno => by
        have h1 : OnDisk C l.dir st.fs c.1 c.2 := by
          rw [← hdir]; exact LInv.onDisk a2.chunky hs hcm (by rw [hid]; exact hquiet)
        refine h1.frame fun hspec => hc _ (hno ?_)
        exact a2.chunky.ok.spec _ _ _ (chunksOf_of_mem a2.chunky.ids hcm) hspec
      have idx : ¬ st.touches C S op (l.dir, .index) → Lists C fs' l.dir (G.listed l.dir) := fun hno => k3.frame (hc _ hno)
      -- calls that leave the index alone
      have plain : ¬ (op = .flush ∨ op = .close) → (∀ c ∈ cs, c.1.id = p.id → c.1.path ≠ [] → Concerns (· ≠ c.1.path) lib op) → (¬ st.touches C S op (l.dir, .index)) → Readable C S fs' l.dir p := fun hnf hop hidx => by
        refine readable_of hC Z (idx hidx) k2 hn a2.chunky a3 k1 fun c hcm hid => disk c hcm hid fun hne ht => ?_
        rcases touches_within a1 (a2.pend hcm hne (by rw [hid]; exact hquiet)) op (hop c hcm hid hne) _ ht with g | ⟨n, g1, g2⟩
        · exact hnf g.1
        · have g1 : Name.chunk c.1.path = Name.chunk n := (Prod.ext_iff.1 g1).2
          injection g1 with g1
          exact g2 g1.symm
      have noIdx : ¬ (op = .flush ∨ op = .close) →  Inside op →
          ¬ st.touches C S op (l.dir, .index) := fun hnf hop ht => by
        rcases touches_within a1 a2.pendTrue op (hop.concerns lib) _ ht with g | ⟨n, g1, _⟩
        · exact hnf g.1
        · cases (Prod.ext_iff.1 g1).2
      -- calls that rewrite the index
      have rewritten : (op = .flush ∨ op = .close) → st'.fs (l.dir, .index) = some (indexFile C (cs.map Prod.fst)) → Readable C S fs' l.dir p := fun hfl hnew => by
        have hd' : ∀ c ∈ cs, c.1.id = p.id → OnDisk C l.dir fs' c.1 c.2 := fun c hcm hid => disk c hcm hid fun hne ht => by
          rcases touches_within a1 (a2.pend hcm hne (by rw [hid]; exact hquiet)) op (by rcases hfl with rfl | rfl <;> exact trivial) _ ht with g | ⟨n, g1, g2⟩
          · cases (Prod.ext_iff.1 g.2).2
          · have g1 : Name.chunk c.1.path = Name.chunk n := (Prod.ext_iff.1 g1).2
            injection g1 with g1
            exact g2 g1.symm
        rcases hi hfl l.dir with g | g
        · exact readable_of hC Z (k3.frame g) k2 hn a2.chunky a3 k1 hd'
        · exact readable_of hC Z (⟨cs, a2.chunky, g.trans hnew, a3⟩ : Lists C fs' l.dir l.pieces) k1 (hn' l hw) a2.chunky a3 k1 hd'
      cases op with
      | query q => exact plain (by simp) (fun _ _ _ _ => trivial) (noIdx (by simp) trivial)
      | loop lo hi => exact plain (by simp) (fun _ _ _ _ => trivial) (noIdx (by simp) trivial)
      | loopAll => exact plain (by simp) (fun _ _ _ _ => trivial) (noIdx (by simp) trivial)
      | «open» d init => exact plain (by simp) (fun _ _ _ _ => trivial) (noIdx (by simp) trivial)
      | get i => exact plain (by simp) (fun _ _ _ _ => trivial) (noIdx (by simp) trivial)
      | fill P s hd buf lo hi out => exact plain (by simp) (fun _ _ _ _ => trivial) (noIdx (by simp) trivial)
      | close =>
        refine rewritten (.inr rfl) ?_
        simp only [MState.step, a1] at hst
        obtain ⟨q, h1, hst⟩ := Res.bind_eq_ok.1 hst
        cases hst
        obtain ⟨q', e1, e2, _⟩ := destroy_ok hC a2
        rw [h1] at e1; cases e1
        rw [← a5]; exact e2.index
      | flush =>
        refine rewritten (.inl rfl) ?_
        simp only [MState.step, a1] at hst
        obtain ⟨q, h1, hst⟩ := Res.bind_eq_ok.1 hst
        cases hst
        unfold Lib.flush at h1
        rw [index_flush_ok a2.idx] at h1
        simp only [Res.ok_bind] at h1
        obtain ⟨q1, h2, h1⟩ := Res.bind_eq_ok.1 h1
        cases h1
        refine (flush_frame h2 _ fun ht => ?_).trans (by rw [← a5]; exact set_index_self _ _ _)
        obtain ⟨n, g1, _⟩ := a2.pendTrue.flush _ _ ht
        cases (Prod.ext_iff.1 g1).2
      | register uuid a start stop overlap opt =>
        obtain ⟨l₂, e, hr⟩ := hl
        rw [hw] at e; cases e
        refine plain (by simp) (fun c hcm hid hne => ⟨fun e => ?_, fun e => hne e.symm⟩) (noIdx (by simp) trivial)
        obtain ⟨p', p1, p2⟩ := a3.leftMem hcm
        exact hr.uuid.2.2 p' p1 (by rw [← p2.file, e])
      | append start s =>
        obtain ⟨l₂, k, p₀, e, hr⟩ := hl
        rw [hw] at e; cases e
        have hp' : upd G.kept l.dir (fun p => G.kept l.dir p ∧ start ≠ p.start.set 0 (p.stop.getD 0 0)) l.dir p := by
          unfold Ledger.during at hp; rw [hw] at hp; exact hp
        rw [upd_self] at hp'
        refine plain (by simp) (fun c hcm hid hne x k' m hg e => hp'.2 ?_) (noIdx (by simp) trivial)
        obtain ⟨c', c1, c2⟩ := a3.right hr.at_
        obtain ⟨x', hf⟩ := append_found hC a2 (appOk_of hC a2 a3 hr c1 c2)
        rw [hf] at hg
        cases hg
        -- the same file is the same chunk
        have h8 : chunksOf cs c'.1.id = some c' := chunksOf_of_mem a2.chunky.ids (List.mem_of_getElem? c1)
        have h9 : chunksOf cs c.1.id = some c := chunksOf_of_mem a2.chunky.ids hcm
        have h10 := a2.chunky.ok.inj _ _ _ _ _ _ h9 h8 hne e.symm
        rw [h10, h8] at h9; cases h9
        obtain ⟨c₃, n1, n2⟩ := a3.rightMem k1
        have h11 : chunksOf cs c₃.1.id = some c₃ := chunksOf_of_mem a2.chunky.ids n1
        rw [n2.id, ← hid, h8] at h11; cases h11
        rw [hr.start, ← c2.start, ← c2.stop, ← n2.start, ← n2.stop]
      | swap x y =>
        have hp' : upd G.kept l.dir (fun _ => False) l.dir p := by unfold Ledger.during at hp; rw [hw] at hp; exact hp
        rw [upd_self] at hp'; exact hp'.elim
      | move dir =>
        have hp' : ((G.drop l.dir).drop dir).kept l.dir p := by unfold Ledger.during at hp; rw [hw] at hp; exact hp
        have hp' : upd (upd G.kept l.dir (fun _ => False)) dir (fun _ => False) l.dir p := hp'
        by_cases e : l.dir = dir
        · rw [e, upd_self] at hp'; exact hp'.elim
        · rw [upd_ne _ _ e, upd_self] at hp'; exact hp'.elim
      | clear =>
        have hp' : upd G.kept l.dir (fun _ => False) l.dir p := by unfold Ledger.during at hp; rw [hw] at hp; exact hp
        rw [upd_self] at hp'; exact hp'.elim
      | «import» dir mv =>
        obtain ⟨l₂, ps, e, hm⟩ := hl
        rw [hw] at e; cases e
        refine readable_of hC Z (idx ?_) k2 hn a2.chunky a3 k1 fun c hcm hid => disk c hcm hid fun hne ht => ?_
        · rintro ⟨lib', e, ht⟩
          rw [a1] at e; cases e
          rcases ht with ⟨n, _, g | ⟨_, g⟩⟩ | ⟨_, g⟩
          · cases (Prod.ext_iff.1 g).2
          · cases (Prod.ext_iff.1 g).2
          · exact hm.ne (Prod.ext_iff.1 g).1.symm
        · obtain ⟨lib', e, ht⟩ := ht
          rw [a1] at e; cases e
          rcases ht with ⟨n, hn0, g | ⟨_, g⟩⟩ | ⟨_, g⟩
          · have g1 : Name.chunk c.1.path = Name.chunk n := (Prod.ext_iff.1 g).2
            injection g1 with g1
            subst g1
            have := h.inv.names dir c.1.path hn0
            obtain ⟨p', p1, p2⟩ := a3.leftMem hcm
            rw [p2.file] at hne this
            exact hm.files p' p1 hne this
          · exact hm.ne (Prod.ext_iff.1 g).1.symm
          · exact hm.ne (Prod.ext_iff.1 g).1.symm
    · -- another directory
      refine h.closed_readable hC (fun l₂ e => by rw [hw] at e; cases e; exact fun e => hd e.symm) hk hn fun n => hc _ fun ht => ?_
      by_cases hop : Inside op
      · rcases touches_within a1 a2.pendTrue op (hop.concerns lib) _ ht with g | ⟨n, g1, _⟩
        · exact hd ((Prod.ext_iff.1 g.2).1.trans a5)
        · exact hd ((Prod.ext_iff.1 g1).1.trans hdir)
      · obtain ⟨lib', e, ht⟩ := ht
        rw [a1] at e; cases e
        cases op <;> first | exact hop trivial | skip
        case move dir =>
          have hp' : ((G.drop l.dir).drop dir).kept d p := by unfold Ledger.during at hp; rw [hw] at hp; exact hp
          have hp' : upd (upd G.kept l.dir (fun _ => False)) dir (fun _ => False) d p := hp'
          rcases ht with g | g | g
          · exact hd (g.trans hdir)
          · have g : d = dir := g
            rw [g, upd_self] at hp'; exact hp'
          · exact hd ((Prod.ext_iff.1 g).1.trans a5)
        case clear =>
          rcases ht with g | g
          · exact hd (g.trans hdir)
          · exact hd ((Prod.ext_iff.1 g).1.trans a5)
        case «import» dir mv =>
          have key : mv = true → d = dir → False := fun e e' => by
            subst e; subst e'
            have hp' : upd G.kept d (fun _ => False) d p := by unfold Ledger.during at hp; rw [hw] at hp; exact hp
            rw [upd_self] at hp'; exact hp'
          rcases ht with ⟨n, _, g | ⟨e, g⟩⟩ | ⟨e, g⟩
          · exact hd ((Prod.ext_iff.1 g).1.trans hdir)
          · exact key e (Prod.ext_iff.1 g).1
          · exact key e (Prod.ext_iff.1 g).1

/-! ### Result -/

/-- **C82 (part).** After an allowed history, a crash during an allowed call: every chunk that was in its library when this was last flushed, closed or
    moved, and that has been neither appended to nor transposed nor removed since, nor is about to be, can be read with its contents by a library opened
    on what is found on disk, whatever the state of the files the call writes to.  For `FlushLibrary` and destruction, provided that the index file is
    found either as before or as after the call.  (The call itself would have returned, without changing any other file.)

    Missing: a crash while the index file is being written (`C82_torn_index`), and the libraries that are being moved or imported with `move`
    (`C82_move_crash`, `C82_import_crash`). -/
theorem C82_crash_inside_call_partial (C : Cfg) (hC : C.Ok) (S : Sorter) (Z : SlabSize) (fs : FS) (hfs : ∀ d, fs (d, .index) = none) (ops : List LOp) (op : LOp)
    (hops : AllLegal C (World.init fs) ops) (hop : Legal C ((World.init fs).run C ops) op) :
    ∃ st rs st' r, MState.run C S ⟨none, fs⟩ ops = .ok (st, rs) ∧ st.step C S op = .ok (st', r) ∧ st.CrashIn C S op st'.fs ∧
      ∀ fs', st.CrashIn C S op fs' →
        (op = .flush ∨ op = .close → ∀ d, fs' (d, .index) = st.fs (d, .index) ∨ fs' (d, .index) = st'.fs (d, .index)) →
        ∀ d p, ((Ledger.init.run C (World.init fs) ops).during ((World.init fs).run C ops) op).kept d p →
          ((Ledger.init.run C (World.init fs) ops).listed d).length < 2 ^ 64 → (∀ l, ((World.init fs).run C ops).cur = some l → l.pieces.length < 2 ^ 64) →
          Readable C S fs' d p := by
  obtain ⟨st, rs, h1, h2⟩ := DInv.run (S := S) (Z := Z) hC ops (GInv.init hfs) hops
  obtain ⟨st', r, h3, _⟩ := h2.step hC op hop
  exact ⟨st, rs, st', r, h1, h3, fun f hf => touches_frame h3 f hf, fun fs' hc hi d p hp hn hn' => h2.crash hC hop h3 hc hi hp hn hn'⟩

/-! ### The conditions are met -/

namespace Ex82

/-- A chunk is registered and flushed; then a second one is registered, in a library without cache, so that its file is written at once. -/
def before : List LOp := [.open 0 [1, 1], .register [65] ⟨[2, 2], [1, 2, 3, 4]⟩ [0, 0] [2, 2] 0 false, .flush]
def second : LOp := .register [66] ⟨[2, 2], [5, 6, 7, 8]⟩ [2, 0] [4, 2] 0 false

theorem before_legal : AllLegal (Ex.cfg 0) (World.init fun _ => none) before :=
  ⟨⟨rfl, by decide⟩, ⟨_, rfl, Ex.canRegister (n := 2) (m := 2) (x := 0) (y := 0) (by decide) (by decide) rfl (by decide) (by decide) (by decide) (by decide)
      (fun p hp => by cases hp) (by decide)⟩, ⟨_, rfl⟩, trivial⟩

theorem second_legal : Legal (Ex.cfg 0) ((World.init fun _ => none).run (Ex.cfg 0) before) second :=
  ⟨_, rfl, Ex.canRegister (n := 2) (m := 2) (x := 2) (y := 0) (by decide) (by decide) rfl (by decide) (by decide) (by decide) (by decide) (fun p hp => by
    rcases List.mem_cons.1 hp with rfl | hp
    · exact ⟨⟨0, by decide, Or.inl (by decide)⟩, by decide, by decide⟩
    · cases hp) (by decide)⟩

/-- The state before the second chunk is registered, and whether a file is there before and after. -/
def written (f : FileId) : Res (Bool × Bool) :=
  (MState.run (Ex.cfg 0) Tree.Ex.S ⟨none, fun _ => none⟩ before).bind fun r => (r.1.step (Ex.cfg 0) Tree.Ex.S second).bind fun q => .ok ((r.1.fs f).isSome, (q.1.fs f).isSome)

theorem written_second : written (0, .chunk [66]) = .ok (false, true) := by decide +kernel

end Ex82

/-- The call writes the file of the second chunk.  If the process dies meanwhile, the first chunk can be read, whatever is in that file. -/
example : ∃ st rs p, MState.run (Ex.cfg 0) Tree.Ex.S ⟨none, fun _ => none⟩ Ex82.before = .ok (st, rs) ∧ InBox p.start p.stop [1, 1] ∧ p.Plain ∧
    st.touches (Ex.cfg 0) Tree.Ex.S Ex82.second (0, .chunk [66]) ∧ ∀ torn, Readable (Ex.cfg 0) Tree.Ex.S (st.fs.set (0, .chunk [66]) torn) 0 p := by
  obtain ⟨st, rs, st', r, h1, h2, h3, h4⟩ := C82_crash_inside_call_partial (Ex.cfg 0) (Ex.cfg_ok 0) Tree.Ex.S Tree.Ex.Z _ (fun _ => rfl) _ _ Ex82.before_legal Ex82.second_legal
  have ht : st.touches (Ex.cfg 0) Tree.Ex.S Ex82.second (0, .chunk [66]) := by
    by_contra hn
    have e := h3 _ hn
    have w := Ex82.written_second
    unfold Ex82.written at w
    rw [h1] at w
    simp only [Res.ok_bind] at w
    rw [h2] at w
    simp only [Res.ok_bind, e] at w
    have w := Res.ok.inj w
    have w1 := congrArg Prod.fst w
    have w2 := congrArg Prod.snd w
    simp only at w1 w2
    rw [w1] at w2; cases w2
  refine ⟨st, rs, _, h1, Ex.inBox2 (n := 2) (m := 2) (by decide) (by decide), fun _ => rfl, ht, fun torn => h4 _ (fun f hf => ?_) (fun e => by rcases e with e | e <;> cases e) 0 _
    List.mem_cons_self (by decide) fun l e => by cases e; decide⟩
  exact if_neg fun e => hf (by rw [e]; exact ht)

/-! ### Where the property fails -/

/-- What a program observes that opens the files after a crash in which files have been damaged. -/
def crashedWith (C : Cfg) (S : Sorter) (before : List LOp) (damage : FS → FS) (after : List LOp) : Res (List Out) :=
  (MState.run C S ⟨none, fun _ => none⟩ before).bind fun r => outs (MState.run C S ⟨none, damage r.1.fs⟩ after)

/-- The first `n` bytes of a file have been written. -/
def FS.cut (fs : FS) (f : FileId) (n : Nat) : FS := fs.set f ((fs f).map (List.take n))

theorem wopen {st : MState} {w : World} {l : LibSpec} (h : WInv C S Z st w) (hw : w.cur = some l) :
    ∃ lib, st.lib = some lib ∧ lib.cc.dir = l.dir ∧ lib.idx.dir = l.dir := by
  obtain ⟨lib, cs, a1, a2, _, _, a5, _⟩ := h.opened l hw
  exact ⟨lib, a1, a2.dir.trans a5, a5⟩

/-- **C82, negation 1.** A chunk is registered and flushed, and the library is flushed again.  `FlushIndex` truncates the index file before it writes it.  If
    the process dies before all of it is on disk - nothing yet, or the number of chunks, or all but the last byte - then opening the library reads
    undefined data.  Before the second flush the chunk can be read. -/
theorem C82_torn_index :
    ∃ st rs, MState.run (Ex.cfg 0) Tree.Ex.S ⟨none, fun _ => none⟩ Ex82.before = .ok (st, rs) ∧ (∀ n, st.CrashIn (Ex.cfg 0) Tree.Ex.S .flush (st.fs.cut (0, .index) n)) ∧
      outs (MState.run (Ex.cfg 0) Tree.Ex.S ⟨none, st.fs⟩ [.open 0 [1, 1], .get [1, 1]]) = .ok [.unit, .vec [4]] ∧
      ∀ n ∈ [0, 8, 72], MState.run (Ex.cfg 0) Tree.Ex.S ⟨none, st.fs.cut (0, .index) n⟩ [.open 0 [1, 1]] = .ub := by
  obtain ⟨st, rs, h1, _, h3⟩ := runW_ok (S := Tree.Ex.S) (Z := Tree.Ex.Z) (Ex.cfg_ok 0) Ex82.before (WInv.init (fun _ => rfl)) Ex82.before_legal
  obtain ⟨lib, e1, _, e2⟩ := wopen h3 (l := _) rfl
  have key : crashedWith (Ex.cfg 0) Tree.Ex.S Ex82.before id [.open 0 [1, 1], .get [1, 1]] = .ok [.unit, .vec [4]] ∧
    ∀ n ∈ [0, 8, 72], crashedWith (Ex.cfg 0) Tree.Ex.S Ex82.before (·.cut (0, .index) n) [.open 0 [1, 1]] = .ub := by decide +kernel
  unfold crashedWith at key
  rw [h1] at key
  simp only [Res.ok_bind, id] at key
  refine ⟨st, rs, h1, fun n f hf => if_neg fun e => hf ⟨lib, e1, .inl ?_⟩, key.1, fun n hn => ?_⟩
  · rw [e, e2]
  · have := key.2 n hn
    generalize MState.run (Ex.cfg 0) Tree.Ex.S ⟨none, st.fs.cut (0, .index) n⟩ [.open 0 [1, 1]] = x at this ⊢
    cases x <;> first | rfl | cases this

/-- **C82, negation 2.** A chunk is registered and flushed, and the library is moved to another directory.  If the process dies after the chunk file
    has been moved, then neither directory can be read: the old one has an index but not the file, the new one no index.  If it dies later, after the old
    index has been removed and before the new one is written, both libraries are empty. -/
theorem C82_move_crash :
    ∃ st rs, MState.run (Ex.cfg 0) Tree.Ex.S ⟨none, fun _ => none⟩ Ex82.before = .ok (st, rs) ∧
      st.CrashIn (Ex.cfg 0) Tree.Ex.S (.move 1) (moveFiles 0 1 st.fs) ∧ st.CrashIn (Ex.cfg 0) Tree.Ex.S (.move 1) ((moveFiles 0 1 st.fs).set (0, .index) none) ∧
      outs (MState.run (Ex.cfg 0) Tree.Ex.S ⟨none, moveFiles 0 1 st.fs⟩ [.open 0 [1, 1], .get [1, 1]]) = .abort ∧
      outs (MState.run (Ex.cfg 0) Tree.Ex.S ⟨none, moveFiles 0 1 st.fs⟩ [.open 1 [1, 1], .query .shape]) = .ok [.unit, .ind [0, 0]] ∧
      ∀ d ∈ [0, 1], outs (MState.run (Ex.cfg 0) Tree.Ex.S ⟨none, (moveFiles 0 1 st.fs).set (0, .index) none⟩ [.open d [1, 1], .query .shape]) = .ok [.unit, .ind [0, 0]] := by
  obtain ⟨st, rs, h1, _, h3⟩ := runW_ok (S := Tree.Ex.S) (Z := Tree.Ex.Z) (Ex.cfg_ok 0) Ex82.before (WInv.init (fun _ => rfl)) Ex82.before_legal
  obtain ⟨lib, e1, e2, e3⟩ := wopen h3 (l := _) rfl
  have key : crashedWith (Ex.cfg 0) Tree.Ex.S Ex82.before (moveFiles 0 1) [.open 0 [1, 1], .get [1, 1]] = .abort ∧
      crashedWith (Ex.cfg 0) Tree.Ex.S Ex82.before (moveFiles 0 1) [.open 1 [1, 1], .query .shape] = .ok [.unit, .ind [0, 0]] ∧
      ∀ d ∈ [0, 1], crashedWith (Ex.cfg 0) Tree.Ex.S Ex82.before (fun fs => (moveFiles 0 1 fs).set (0, .index) none) [.open d [1, 1], .query .shape] =
        .ok [.unit, .ind [0, 0]] := by decide +kernel
  unfold crashedWith at key
  rw [h1] at key
  simp only [Res.ok_bind] at key
  have moved : st.CrashIn (Ex.cfg 0) Tree.Ex.S (.move 1) (moveFiles 0 1 st.fs) := fun f hf => by
    have n1 : f.1 ≠ 0 := fun e => hf ⟨lib, e1, .inl (by rw [e2]; exact e)⟩
    have n2 : f.1 ≠ 1 := fun e => hf ⟨lib, e1, .inr (.inl e)⟩
    obtain ⟨fd, fn⟩ := f
    cases fn with
    | index => rfl
    | chunk n =>
      show (if fd = 1 then _ else if fd = 0 then none else _) = _
      rw [if_neg n2, if_neg n1]
  refine ⟨st, rs, h1, moved, fun f hf => ?_, key⟩
  have := moved f hf
  rw [← this]
  exact if_neg fun e => hf ⟨lib, e1, .inl (by rw [e2, e])⟩

/-- **C82, negation 3.** A library is written and closed; another one imports it with `move = true`, which removes its index, and the process dies before the
    other library is flushed.  Both libraries are then empty: the chunk file is still there, but no index lists it.  Without the import the chunk can be
    read. -/
theorem C82_import_crash :
    let before : List LOp := Ex82.before ++ [.close, .open 1 [1, 1]]
    crashed (Ex.cfg 0) Tree.Ex.S before [.open 0 [1, 1], .get [1, 1]] = .ok [.unit, .vec [4]] ∧
    ∀ d ∈ [0, 1], crashed (Ex.cfg 0) Tree.Ex.S (before ++ [.import 0 true]) [.open d [1, 1], .query .shape] = .ok [.unit, .ind [0, 0]] := by decide +kernel

end Verif.Dist
