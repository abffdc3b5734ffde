import Verif.Dist.Props78
/-
The files a call writes to, for C82.  A call is not atomic: a chunk file is opened and written piece by piece (`std::fstream`), the index file is
truncated and then written, files are moved one after another.  Here, for every call and every state it starts in, the set of the files that
it may open for writing, create, move or delete, up to any point of its execution.
-/
namespace Verif.Dist
open Verif Verif.ND Verif.Tree Verif.Bytes Verif.Stream Verif.NullSup
open Verif.Cache (CRel keyGone)

variable {C : Cfg} {S : Sorter} {Z : SlabSize}

/-! ### The chunk cache -/

/-- DistributedNDVecArray.hxx 364-409 `descope_cache_element`: the file of the chunk, if there is an outstanding operation. -/
def descopeTouch (dir : Nat) (e : Entry) (f : FileId) : Prop := e.info.path ≠ [] ∧ e.stat ≠ .nothing ∧ f = absPath dir e.info

/-- DistributedNDVecArray.hxx 324-362 `sync_cache_element_with_disk`: the file of the chunk, if something is to be appended. -/
def syncTouch (dir : Nat) (e : Entry) (f : FileId) : Prop := e.info.ctype ≠ .all_null ∧ (∃ ax, e.stat = .append ax) ∧ f = absPath dir e.info

/-- DistributedNDVecArray.hxx 264-268 and 312-316. -/
def makeRoomTouch (cc : CC) (f : FileId) : Prop :=
  Cache.hasFreeSlot cc.cache = false ∧ ∃ r, Cache.evictOldest cc.cache = .ok r ∧ descopeTouch cc.dir (r.1.payload r.2) f

/-- The files written in a loop: those of each iteration, in the state the previous iterations leave. -/
def loopTouch {α σ : Type} (body : α → σ → Res σ) (t : α → σ → FileId → Prop) : List α → σ → FileId → Prop
  | [], _, _ => False
  | x :: xs, s, f => t x s f ∨ ∃ s', body x s = .ok s' ∧ loopTouch body t xs s' f

/-- One iteration of DistributedNDVecArray.hxx 192-195. -/
def flushOneTouch (k : Nat) (q : CC × FS) (f : FileId) : Prop := ∃ r, Cache.evict q.1.cache k = .ok r ∧ descopeTouch q.1.dir (r.1.payload r.2) f

/-- DistributedNDVecArray.hxx 187-196 `FlushCache`. -/
def flushTouch (C : Cfg) (cc : CC) (fs : FS) (f : FileId) : Prop := loopTouch (flushOne C) flushOneTouch (Cache.containedElements cc.cache) (cc, fs) f

/-- DistributedNDVecArray.hxx 44-55 `RegisterNewChunk`. -/
def registerNewTouch (C : Cfg) (cc : CC) (fs : FS) (m : Meta) (a : Arr) (f : FileId) : Prop :=
  makeRoomTouch cc f ∨ (C.size = 0 ∧ ∃ q, insertInto C cc fs m a .serialize = .ok q ∧ flushTouch C q.1 q.2 f)

/-- DistributedNDVecArray.hxx 84-110 `RetrieveChunk`. -/
def retrieveTouch (cc : CC) (m : Meta) (f : FileId) : Prop :=
  if Cache.contains cc.cache m.id then ∃ r, Cache.get cc.cache m.id = .ok r ∧ syncTouch cc.dir (r.1.payload r.2) f
  else makeRoomTouch cc f

/-- DistributedNDVecArray.hxx 130-180: the part of `AppendSlice` before the flush of an uncached library. -/
def appendFirst (C : Cfg) (axis : Nat) (cc : CC) (fs : FS) (m : Meta) (s : Arr) : Res (CC × FS) :=
  let m' := m.grow axis (s.shape.getD axis 0)
  if Cache.contains cc.cache m.id then
    (Cache.get cc.cache m.id).bind fun r =>
    let e := r.1.payload r.2
    match e.stat with
    | .nothing =>
      (Cache.evict r.1 m.id).bind fun r1 => insertInto C { cc with cache := r1.1 } fs m' s (.append axis)
    | .serialize =>
      (appendArr C e.data s axis).bind fun b =>
      .ok ({ cc with cache := Cache.store r.1 r.2 { e with info := m', data := b } }, fs)
    | .append ax =>
      (appendPending C cc.dir fs e ax axis m' s).bind fun q =>
      .ok ({ cc with cache := Cache.store r.1 r.2 q.2 }, q.1)
  else insertInto C cc fs m' s (.append axis)

theorem appendChunk_first (axis : Nat) (cc : CC) (fs : FS) (m : Meta) (s : Arr) : appendChunk C axis cc fs m s =
    if shapeAllowsConcat m.shape s.shape axis = false then .throw
    else (appendFirst C axis cc fs m s).bind fun q => (flushIfUncached C q.1 q.2).bind fun q => .ok (q.1, q.2, m.grow axis (s.shape.getD axis 0)) := rfl

/-- DistributedNDVecArray.hxx 130-180. -/
def appendFirstTouch (axis : Nat) (cc : CC) (m : Meta) (f : FileId) : Prop :=
  if Cache.contains cc.cache m.id then
    ∃ r, Cache.get cc.cache m.id = .ok r ∧
      match (r.1.payload r.2).stat with
      | .nothing => ∃ r1, Cache.evict r.1 m.id = .ok r1 ∧ makeRoomTouch { cc with cache := r1.1 } f
      | .serialize => False
      | .append ax => ax ≠ axis ∧ syncTouch cc.dir (r.1.payload r.2) f
  else makeRoomTouch cc f

/-- DistributedNDVecArray.hxx 112-185 `AppendSlice<axis>`. -/
def appendChunkTouch (C : Cfg) (axis : Nat) (cc : CC) (fs : FS) (m : Meta) (s : Arr) (f : FileId) : Prop :=
  appendFirstTouch axis cc m f ∨ (C.size = 0 ∧ ∃ q, appendFirst C axis cc fs m s = .ok q ∧ flushTouch C q.1 q.2 f)

/-! ### The library -/

/-- DistributedNDVecArray.hxx 831-855 `RegisterChunk` (for either kind of chunk). -/
def Lib.registerTouch (C : Cfg) (S : Sorter) (lib : Lib) (fs : FS) (uuid : List Nat) (a : Arr) (start stop : List Nat) (overlap : Nat) (f : FileId) : Prop :=
  ∃ ct r, lib.idx.register S uuid start (vsub stop start) overlap ct = .ok r ∧ registerNewTouch C lib.cc fs r.2 a f

/-- DistributedNDVecArray.hxx 857-911 `AppendSlice<axis>`. -/
def Lib.appendTouch (C : Cfg) (axis : Nat) (lib : Lib) (fs : FS) (start : List Nat) (s : Arr) (f : FileId) : Prop :=
  ∃ x h m, lib.idx.getChunk (start.set axis (wsub (start.getD axis 0) 1)) = .ok (x, some (h, m)) ∧ appendChunkTouch C axis lib.cc fs m s f

/-- DistributedNDVecArray.hxx 913-925 `operator[]`. -/
def Lib.getTouch (lib : Lib) (i : List Nat) (f : FileId) : Prop :=
  ∃ x h m, lib.idx.getChunk i = .ok (x, some (h, m)) ∧ retrieveTouch lib.cc m f

/-- DistributedNDVecArray.hxx 927-973 `FillArray`. -/
def Lib.fillTouch (C : Cfg) (lib : Lib) (fs : FS) (hd : Hdr) (buf lo hi out : List Nat) (f : FileId) : Prop :=
  ∃ ms, lib.idx.getChunks lo hi = .ok ms ∧
    loopTouch (fillOne C hd lo hi out) (fun m st f => m.ctype = .specified ∧ retrieveTouch st.1 m f) ms (lib.cc, fs, buf) f

/-- DistributedNDVecArray.hxx 1055-1076 `index_loop_over_elements(start, end, worker)`. -/
def Lib.loopRangeTouch (C : Cfg) (lib : Lib) (fs : FS) (lo hi : List Nat) (f : FileId) : Prop :=
  ∃ ms, lib.idx.getChunks lo hi = .ok ms ∧ loopTouch (loopOne C lo hi) (fun m st f => retrieveTouch st.1 m f) ms (lib.cc, fs, []) f

/-- DistributedNDVecArray.hxx 1047-1053 `index_loop_over_elements(worker)`. -/
def Lib.loopAllTouch (C : Cfg) (lib : Lib) (fs : FS) (f : FileId) : Prop :=
  ∃ r, lib.idx.getShape C = .ok r ∧ Lib.loopRangeTouch C { lib with idx := r.1 } fs (List.replicate C.dims 0) r.2 f

/-- DistributedNDVecArray.hxx 1087-1103 and 73-82 `ReplaceChunk`: reading the chunk, then registering the transposed one. -/
def swapOneTouch (C : Cfg) (p q : Nat) (m : Meta) (st : Lib × FS × Index × Arr) (f : FileId) : Prop :=
  retrieveTouch st.1.cc m f ∨
    ∃ r b cc1, retrieve C st.1.cc st.2.1 m = .ok r ∧
      ND.swapAxes C.vd (r.2.2.hdr C.vd) r.2.2.buf (st.2.2.2.hdr C.vd) st.2.2.2.buf p q C.junk = .ok b ∧ removeChunk r.1 m = .ok cc1 ∧
      registerNewTouch C cc1 r.2.1 (m.swap p q) ⟨b.1.shape, b.2⟩ f

/-- DistributedNDVecArray.hxx 975-989 `SwapAxes`. -/
def Lib.swapTouch (C : Cfg) (S : Sorter) (lib : Lib) (fs : FS) (p q : Nat) (f : FileId) : Prop :=
  ∃ ms, lib.idx.all = .ok ms ∧ loopTouch (swapOne C S p q) (swapOneTouch C p q) ms
    (lib, fs, Index.empty C lib.idx.dir, ⟨List.replicate C.dims 1, (List.range (volume C.vd (List.replicate C.dims 1))).map C.junk⟩) f

/-- The files a call may write to, create, move or delete.  `FlushLibrary` (1030-1035) and the destructor: the index and the chunks with outstanding
    operations; `MoveLibrary` (991-1008), `ClearLibrary` (1010-1017): any file of the directories involved; `ImportLibrary` (1038-1045): the chunk files
    of the other directory, their new names, and the index of the other directory if it is to be moved. -/
def MState.touches (C : Cfg) (S : Sorter) (st : MState) (op : LOp) (f : FileId) : Prop :=
  ∃ lib, st.lib = some lib ∧
    match op with
    | .query _ => False
    | .loop lo hi => lib.loopRangeTouch C st.fs lo hi f
    | .loopAll => lib.loopAllTouch C st.fs f
    | .open _ _ => False
    | .close => f = (lib.idx.dir, .index) ∨ flushTouch C lib.cc st.fs f
    | .register uuid a start stop overlap _ => lib.registerTouch C S st.fs uuid a start stop overlap f
    | .append start s => lib.appendTouch C 0 st.fs start s f
    | .get i => lib.getTouch i f
    | .fill _ _ hd buf lo hi out => lib.fillTouch C st.fs hd buf lo hi out f
    | .flush => f = (lib.idx.dir, .index) ∨ ∃ fs1, lib.idx.flush C st.fs = .ok fs1 ∧ flushTouch C lib.cc fs1 f
    | .swap p q => lib.swapTouch C S st.fs p q f
    | .move dir => f.1 = lib.cc.dir ∨ f.1 = dir ∨ f = (lib.idx.dir, .index)
    | .clear => f.1 = lib.cc.dir ∨ f = (lib.idx.dir, .index)
    | .import dir mv => (∃ n, st.fs (dir, .chunk n) ≠ none ∧ (f = (lib.cc.dir, .chunk n) ∨ (mv = true ∧ f = (dir, .chunk n)))) ∨ (mv = true ∧ f = (dir, .index))

/-! ### No other file changes -/

theorem descope_frame {dir : Nat} {fs fs' : FS} {e : Entry} (h : descope C dir fs e = .ok fs') {f : FileId} (hf : ¬ descopeTouch dir e f) : fs' f = fs f := by
  unfold descope at h
  split at h
  · obtain ⟨_, _, h⟩ := Res.bind_eq_ok.1 h
    cases h; rfl
  · rename_i hp
    split at h
    · rename_i hs
      obtain ⟨_, _, h⟩ := Res.bind_eq_ok.1 h
      cases h
      unfold FS.set
      exact if_neg fun e' => hf ⟨hp, by rw [hs]; simp, e'⟩
    · rename_i hs
      split at h
      · cases h
      · obtain ⟨_, _, h⟩ := Res.bind_eq_ok.1 h
        cases h
        unfold FS.set
        exact if_neg fun e' => hf ⟨hp, by rw [hs]; simp, e'⟩
    · cases h; rfl

theorem sync_frame {dir : Nat} {fs : FS} {e : Entry} {q : FS × Entry} (h : sync C dir fs e = .ok q) {f : FileId} (hf : ¬ syncTouch dir e f) :
    q.1 f = fs f ∧ q.2.info = e.info ∧ q.2.stat = .nothing := by
  unfold sync at h
  split at h
  · obtain ⟨_, _, h⟩ := Res.bind_eq_ok.1 h
    obtain ⟨_, h0, h⟩ := Res.bind_eq_ok.1 h
    cases h
    refine ⟨rfl, rfl, ?_⟩
    by_cases h9 : e.stat = .nothing
    · exact h9
    · rw [decide_eq_false h9] at h0; cases h0
  · rename_i hc
    split at h
    · cases h
    · split at h
      · rename_i hs
        obtain ⟨_, _, h⟩ := Res.bind_eq_ok.1 h
        obtain ⟨_, _, h⟩ := Res.bind_eq_ok.1 h
        cases h
        refine ⟨?_, rfl, rfl⟩
        show (if f = _ then _ else _) = _
        exact if_neg fun e' => hf ⟨hc, ⟨_, hs⟩, e'⟩
      · cases h; exact ⟨rfl, rfl, rfl⟩

theorem makeRoom_frame {cc : CC} {fs : FS} {q : CC × FS} (h : makeRoom C cc fs = .ok q) : q.1.dir = cc.dir ∧ ∀ f, ¬ makeRoomTouch cc f → q.2 f = fs f := by
  unfold makeRoom at h
  split at h
  · cases h; exact ⟨rfl, fun _ _ => rfl⟩
  · rename_i hs
    obtain ⟨r, h1, h⟩ := Res.bind_eq_ok.1 h
    obtain ⟨_, h2, h⟩ := Res.bind_eq_ok.1 h
    cases h
    exact ⟨rfl, fun f hf => descope_frame h2 fun e => hf ⟨by simpa using hs, r, h1, e⟩⟩

theorem loop_frame {α σ : Type} {body : α → σ → Res σ} {t : α → σ → FileId → Prop} {file : σ → FS}
    (hb : ∀ x s s', body x s = .ok s' → ∀ f, ¬ t x s f → file s' f = file s f) :
    ∀ (xs : List α) {s s' : σ}, runLoop body xs s = .ok s' → ∀ f, ¬ loopTouch body t xs s f → file s' f = file s f
  | [], s, s', h, f, _ => by cases h; rfl
  | x :: xs, s, s', h, f, hf => by
      obtain ⟨s1, h1, h2⟩ := Res.bind_eq_ok.1 h
      rw [loop_frame hb xs h2 f fun e => hf (.inr ⟨s1, h1, e⟩)]
      exact hb x s s1 h1 f fun e => hf (.inl e)

theorem flushOne_frame {k : Nat} {q q' : CC × FS} (h : flushOne C k q = .ok q') (f : FileId) (hf : ¬ flushOneTouch k q f) : q'.2 f = q.2 f := by
  unfold flushOne at h
  obtain ⟨r, h1, h⟩ := Res.bind_eq_ok.1 h
  obtain ⟨_, h2, h⟩ := Res.bind_eq_ok.1 h
  cases h
  exact descope_frame h2 fun e => hf ⟨r, h1, e⟩

theorem flush_frame {cc : CC} {fs : FS} {q : CC × FS} (h : flush C cc fs = .ok q) (f : FileId) (hf : ¬ flushTouch C cc fs f) : q.2 f = fs f :=
  loop_frame (file := fun s : CC × FS => s.2) (fun _ _ _ h f hf => flushOne_frame h f hf) _ h f hf

theorem flushIf_frame {cc : CC} {fs : FS} {q : CC × FS} (h : flushIfUncached C cc fs = .ok q) (f : FileId) (hf : C.size = 0 → ¬ flushTouch C cc fs f) : q.2 f = fs f := by
  unfold flushIfUncached at h
  split at h
  · rename_i hc; exact flush_frame h f (hf hc)
  · cases h; rfl

theorem insertInto_frame {cc : CC} {fs : FS} {m : Meta} {a : Arr} {st : Stat} {q : CC × FS} (h : insertInto C cc fs m a st = .ok q) (f : FileId) (hf : ¬ makeRoomTouch cc f) :
    q.2 f = fs f := by
  unfold insertInto at h
  obtain ⟨_, _, h⟩ := Res.bind_eq_ok.1 h
  obtain ⟨_, h1, h⟩ := Res.bind_eq_ok.1 h
  obtain ⟨_, _, h⟩ := Res.bind_eq_ok.1 h
  obtain ⟨_, _, h⟩ := Res.bind_eq_ok.1 h
  cases h; exact (makeRoom_frame h1).2 f hf

theorem registerNew_frame {cc : CC} {fs : FS} {m : Meta} {a : Arr} {q : CC × FS} (h : registerNew C cc fs m a = .ok q) (f : FileId) (hf : ¬ registerNewTouch C cc fs m a f) :
    q.2 f = fs f := by
  unfold registerNew at h
  obtain ⟨q1, h1, h⟩ := Res.bind_eq_ok.1 h
  rw [flushIf_frame h f fun hc e => hf (.inr ⟨hc, q1, h1, e⟩)]
  exact insertInto_frame h1 f fun e => hf (.inl e)

theorem retrieve_frame {cc : CC} {fs : FS} {m : Meta} {q : CC × FS × Arr} (h : retrieve C cc fs m = .ok q) (f : FileId) (hf : ¬ retrieveTouch cc m f) : q.2.1 f = fs f := by
  unfold retrieve at h
  unfold retrieveTouch at hf
  split at h
  · rename_i hc
    rw [if_pos hc] at hf
    obtain ⟨r, h1, h⟩ := Res.bind_eq_ok.1 h
    simp only at h
    split at h
    · obtain ⟨x, h2, h⟩ := Res.bind_eq_ok.1 h
      cases h
      exact (sync_frame h2 fun e => hf ⟨r, h1, e⟩).1
    · cases h; rfl
  · rename_i hc
    rw [if_neg hc] at hf
    unfold deserInto at h
    obtain ⟨_, h1, h⟩ := Res.bind_eq_ok.1 h
    obtain ⟨_, _, h⟩ := Res.bind_eq_ok.1 h
    obtain ⟨_, _, h⟩ := Res.bind_eq_ok.1 h
    cases h; exact (makeRoom_frame h1).2 f hf

theorem appendFirst_frame {axis : Nat} {cc : CC} {fs : FS} {m : Meta} {s : Arr} {q : CC × FS} (h : appendFirst C axis cc fs m s = .ok q) (f : FileId)
    (hf : ¬ appendFirstTouch axis cc m f) : q.2 f = fs f := by
  unfold appendFirst at h
  unfold appendFirstTouch at hf
  simp only at h
  split at h
  · rename_i hc
    rw [if_pos hc] at hf
    obtain ⟨r, h1, h⟩ := Res.bind_eq_ok.1 h
    have hf := fun e => hf ⟨r, h1, e⟩
    split at h
    · rename_i hs
      simp only [hs] at hf
      obtain ⟨r1, h2, h⟩ := Res.bind_eq_ok.1 h
      exact insertInto_frame h f fun e => hf ⟨r1, h2, e⟩
    · obtain ⟨_, _, h⟩ := Res.bind_eq_ok.1 h
      cases h; rfl
    · rename_i ax hs
      simp only [hs] at hf
      obtain ⟨_, h2, h⟩ := Res.bind_eq_ok.1 h
      cases h
      unfold appendPending at h2
      obtain ⟨q1, h3, h2⟩ := Res.bind_eq_ok.1 h2
      obtain ⟨_, _, h2⟩ := Res.bind_eq_ok.1 h2
      cases h2
      split at h3
      · rename_i hax
        obtain ⟨_, h4, h3⟩ := Res.bind_eq_ok.1 h3
        cases h3
        exact (sync_frame h4 fun e => hf ⟨hax, e⟩).1
      · cases h3; rfl
  · rename_i hc
    rw [if_neg hc] at hf
    exact insertInto_frame h f hf

theorem appendChunk_frame {axis : Nat} {cc : CC} {fs : FS} {m : Meta} {s : Arr} {q : CC × FS × Meta} (h : appendChunk C axis cc fs m s = .ok q) (f : FileId)
    (hf : ¬ appendChunkTouch C axis cc fs m s f) : q.2.1 f = fs f := by
  rw [appendChunk_first] at h
  split at h
  · cases h
  · obtain ⟨q1, h1, h⟩ := Res.bind_eq_ok.1 h
    obtain ⟨q2, h2, h⟩ := Res.bind_eq_ok.1 h
    cases h
    show q2.2 f = _
    rw [flushIf_frame h2 f fun hc e => hf (.inr ⟨hc, q1, h1, e⟩)]
    exact appendFirst_frame h1 f fun e => hf (.inl e)

theorem indexFlush_frame {x : Index} {fs fs' : FS} (h : x.flush C fs = .ok fs') {f : FileId} (hf : f ≠ (x.dir, .index)) : fs' f = fs f := by
  unfold Index.flush at h
  obtain ⟨_, _, h⟩ := Res.bind_eq_ok.1 h
  cases h
  unfold FS.set
  exact if_neg hf

theorem loopRange_frame {lib : Lib} {fs : FS} {lo hi : List Nat} {q : Lib × FS × List (List Nat × List Nat)} (h : lib.indexLoopRange C fs lo hi = .ok q) (f : FileId)
    (hf : ¬ lib.loopRangeTouch C fs lo hi f) : q.2.1 f = fs f := by
  unfold Lib.indexLoopRange at h
  obtain ⟨ms, h1, h⟩ := Res.bind_eq_ok.1 h
  obtain ⟨_, h2, h⟩ := Res.bind_eq_ok.1 h
  cases h
  refine loop_frame (file := fun s : CC × FS × List (List Nat × List Nat) => s.2.1) (t := fun m st f => retrieveTouch st.1 m f) (fun m s s' h f hf => ?_) _ h2 f
    fun e => hf ⟨ms, h1, e⟩
  unfold loopOne at h
  obtain ⟨_, h3, h⟩ := Res.bind_eq_ok.1 h
  obtain ⟨_, _, h⟩ := Res.bind_eq_ok.1 h
  cases h; exact retrieve_frame h3 f hf

theorem flush_dir {cc : CC} {fs : FS} {q : CC × FS} (h : flush C cc fs = .ok q) : q.1.dir = cc.dir :=
  runLoop_rel (R := fun a b : CC × FS => b.1.dir = a.1.dir) (fun _ => rfl) (fun _ _ _ h h' => h'.trans h) (fun _ _ _ h => by
    unfold flushOne at h
    obtain ⟨r, _, h⟩ := Res.bind_eq_ok.1 h
    obtain ⟨_, _, h⟩ := Res.bind_eq_ok.1 h
    cases h; rfl) _ h

theorem descopeTouch_dir {dir : Nat} {e : Entry} {f : FileId} (h : descopeTouch dir e f) : f.1 = dir := by rw [h.2.2]; rfl

theorem flushTouch_dir {fs : FS} {cc : CC} {f : FileId} (h : flushTouch C cc fs f) : f.1 = cc.dir := by
  unfold flushTouch at h
  generalize Cache.containedElements cc.cache = ks at h
  generalize hq : (cc, fs) = q at h
  have hd : q.1.dir = cc.dir := by rw [← hq]
  clear hq
  induction ks generalizing q with
  | nil => cases h
  | cons k ks ih =>
    rcases h with ⟨r, _, h⟩ | ⟨s', h1, h⟩
    · exact (descopeTouch_dir h).trans hd
    · refine ih _ h ?_
      unfold flushOne at h1
      obtain ⟨r, _, h1⟩ := Res.bind_eq_ok.1 h1
      obtain ⟨_, _, h1⟩ := Res.bind_eq_ok.1 h1
      cases h1; exact hd

/-- A call that returns has changed no file outside this set. -/
theorem touches_frame {st st' : MState} {op : LOp} {r : Out} (h : st.step C S op = .ok (st', r)) (f : FileId) (hf : ¬ st.touches C S op f) : st'.fs f = st.fs f := by
  by_cases hop : ∃ d init, op = .open d init
  · obtain ⟨d, init, rfl⟩ := hop
    simp only [MState.step] at h
    obtain ⟨_, _, h⟩ := Res.bind_eq_ok.1 h
    cases h; rfl
  cases hlib : st.lib with
  | none => cases op <;> first | (simp only [MState.step, hlib] at h; cases h) | exact absurd ⟨_, _, rfl⟩ hop
  | some lib =>
    have hf := fun e => hf ⟨lib, hlib, e⟩
    cases op with
    | query q =>
      simp only [MState.step, hlib] at h
      cases q <;> (simp only at h; obtain ⟨_, _, h⟩ := Res.bind_eq_ok.1 h; cases h; rfl)
    | loop lo hi =>
      simp only [MState.step, hlib] at h
      obtain ⟨q, h1, h⟩ := Res.bind_eq_ok.1 h
      cases h; exact loopRange_frame h1 f hf
    | loopAll =>
      simp only [MState.step, hlib] at h
      obtain ⟨q, h1, h⟩ := Res.bind_eq_ok.1 h
      cases h
      unfold Lib.indexLoopAll at h1
      obtain ⟨r1, h2, h1⟩ := Res.bind_eq_ok.1 h1
      exact loopRange_frame h1 f fun e => hf ⟨r1, h2, e⟩
    | «open» d init => exact absurd ⟨_, _, rfl⟩ hop
    | close =>
      simp only [MState.step, hlib] at h
      obtain ⟨q, h1, h⟩ := Res.bind_eq_ok.1 h
      cases h
      unfold Lib.destroy at h1
      obtain ⟨_, h2, h1⟩ := Res.bind_eq_ok.1 h1
      exact (indexFlush_frame h1 fun e => hf (.inl e)).trans (flush_frame h2 f fun e => hf (.inr e))
    | register uuid a start stop overlap opt =>
      simp only [MState.step, hlib] at h
      obtain ⟨q, h1, h⟩ := Res.bind_eq_ok.1 h
      cases h
      unfold Lib.register at h1
      obtain ⟨_, _, h1⟩ := Res.bind_eq_ok.1 h1
      obtain ⟨ct, _, h1⟩ := Res.bind_eq_ok.1 h1
      obtain ⟨r, h2, h1⟩ := Res.bind_eq_ok.1 h1
      obtain ⟨_, h3, h1⟩ := Res.bind_eq_ok.1 h1
      cases h1
      exact registerNew_frame h3 f fun e => hf ⟨ct, r, h2, e⟩
    | append start s =>
      simp only [MState.step, hlib] at h
      obtain ⟨q, h1, h⟩ := Res.bind_eq_ok.1 h
      cases h
      unfold Lib.append at h1
      simp only at h1
      obtain ⟨⟨x, o⟩, h2, h1⟩ := Res.bind_eq_ok.1 h1
      simp only at h1
      split at h1
      · cases h1
      · rename_i hh m
        split at h1
        · cases h1
        · obtain ⟨_, h3, h1⟩ := Res.bind_eq_ok.1 h1
          obtain ⟨_, _, h1⟩ := Res.bind_eq_ok.1 h1
          cases h1
          exact appendChunk_frame h3 f fun e => hf ⟨_, _, _, h2, e⟩
    | get i =>
      simp only [MState.step, hlib] at h
      obtain ⟨q, h1, h⟩ := Res.bind_eq_ok.1 h
      cases h
      unfold Lib.get at h1
      obtain ⟨⟨x, o⟩, h2, h1⟩ := Res.bind_eq_ok.1 h1
      simp only at h1
      split at h1
      · cases h1
      · obtain ⟨_, h3, h1⟩ := Res.bind_eq_ok.1 h1
        obtain ⟨_, _, h1⟩ := Res.bind_eq_ok.1 h1
        cases h1
        exact retrieve_frame h3 f fun e => hf ⟨_, _, _, h2, e⟩
    | fill P s hd buf lo hi out =>
      simp only [MState.step, hlib] at h
      obtain ⟨q, h1, h⟩ := Res.bind_eq_ok.1 h
      cases h
      unfold Lib.fillArray at h1
      obtain ⟨_, _, h1⟩ := Res.bind_eq_ok.1 h1
      obtain ⟨_, _, h1⟩ := Res.bind_eq_ok.1 h1
      obtain ⟨ms, h2, h1⟩ := Res.bind_eq_ok.1 h1
      obtain ⟨_, h3, h1⟩ := Res.bind_eq_ok.1 h1
      cases h1
      refine loop_frame (file := fun s : CC × FS × List Nat => s.2.1) (t := fun m st f => m.ctype = .specified ∧ retrieveTouch st.1 m f) (fun m s s' h f hf => ?_) _ h3 f
        fun e => hf ⟨ms, h2, e⟩
      unfold fillOne at h
      simp only at h
      split at h
      · obtain ⟨_, _, h⟩ := Res.bind_eq_ok.1 h
        cases h; rfl
      · rename_i hct
        obtain ⟨_, h4, h⟩ := Res.bind_eq_ok.1 h
        obtain ⟨_, _, h⟩ := Res.bind_eq_ok.1 h
        cases h; exact retrieve_frame h4 f fun e => hf ⟨hct, e⟩
    | flush =>
      simp only [MState.step, hlib] at h
      obtain ⟨q, h1, h⟩ := Res.bind_eq_ok.1 h
      cases h
      unfold Lib.flush at h1
      obtain ⟨fs1, h2, h1⟩ := Res.bind_eq_ok.1 h1
      obtain ⟨_, h3, h1⟩ := Res.bind_eq_ok.1 h1
      cases h1
      exact (flush_frame h3 f fun e => hf (.inr ⟨fs1, h2, e⟩)).trans (indexFlush_frame h2 fun e => hf (.inl e))
    | swap p q =>
      simp only [MState.step, hlib] at h
      obtain ⟨q, h1, h⟩ := Res.bind_eq_ok.1 h
      cases h
      unfold Lib.swapAxes at h1
      obtain ⟨ms, h2, h1⟩ := Res.bind_eq_ok.1 h1
      obtain ⟨_, h3, h1⟩ := Res.bind_eq_ok.1 h1
      cases h1
      refine loop_frame (file := fun s : Lib × FS × Index × Arr => s.2.1) (t := swapOneTouch C _ _) (fun m s s' h f hf => ?_) _ h3 f fun e => hf ⟨ms, h2, e⟩
      unfold swapOne at h
      obtain ⟨r, h4, h⟩ := Res.bind_eq_ok.1 h
      simp only at h
      obtain ⟨b, h5, h⟩ := Res.bind_eq_ok.1 h
      obtain ⟨_, h6, h⟩ := Res.bind_eq_ok.1 h
      obtain ⟨_, _, h⟩ := Res.bind_eq_ok.1 h
      obtain ⟨_, _, h⟩ := Res.bind_eq_ok.1 h
      cases h
      unfold replaceChunk at h6
      obtain ⟨_, _, h6⟩ := Res.bind_eq_ok.1 h6
      obtain ⟨cc1, h7, h6⟩ := Res.bind_eq_ok.1 h6
      exact (registerNew_frame h6 f fun e => hf (.inr ⟨r, b, cc1, h4, h5, h7, e⟩)).trans (retrieve_frame h4 f fun e => hf (.inl e))
    | move dir =>
      simp only [MState.step, hlib] at h
      obtain ⟨q, h1, h⟩ := Res.bind_eq_ok.1 h
      cases h
      unfold Lib.move at h1
      obtain ⟨_, h2, h1⟩ := Res.bind_eq_ok.1 h1
      obtain ⟨_, h3, h1⟩ := Res.bind_eq_ok.1 h1
      cases h1
      unfold moveCache at h2
      obtain ⟨_, h4, h2⟩ := Res.bind_eq_ok.1 h2
      cases h2
      unfold Index.move at h3
      obtain ⟨_, _, h3⟩ := Res.bind_eq_ok.1 h3
      obtain ⟨_, h5, h3⟩ := Res.bind_eq_ok.1 h3
      cases h3
      have n1 : f.1 ≠ lib.cc.dir := fun e => hf (.inl e)
      have n2 : f.1 ≠ dir := fun e => hf (.inr (.inl e))
      have n3 : f ≠ (lib.idx.dir, .index) := fun e => hf (.inr (.inr e))
      refine (indexFlush_frame h5 fun e => n2 (by rw [e])).trans ?_
      show (if f = (lib.idx.dir, Name.index) then _ else _) = _
      rw [if_neg n3]
      have hfl := flush_frame h4 f fun e => n1 (flushTouch_dir e)
      have hdir := flush_dir h4
      obtain ⟨fd, fn⟩ := f
      cases fn with
      | index => exact hfl
      | chunk n =>
        show (if fd = dir then _ else if fd = _ then none else _) = _
        rw [if_neg n2, if_neg (by rw [hdir]; exact n1)]; exact hfl
    | clear =>
      simp only [MState.step, hlib] at h
      obtain ⟨q, h1, h⟩ := Res.bind_eq_ok.1 h
      cases h
      unfold Lib.clear at h1
      obtain ⟨_, h2, h1⟩ := Res.bind_eq_ok.1 h1
      cases h1
      unfold clearCache at h2
      obtain ⟨_, h4, h2⟩ := Res.bind_eq_ok.1 h2
      cases h2
      have n1 : f.1 ≠ lib.cc.dir := fun e => hf (.inl e)
      have n3 : f ≠ (lib.idx.dir, .index) := fun e => hf (.inr e)
      have hfl := flush_frame h4 f fun e => n1 (flushTouch_dir e)
      have hfl : _ = st.fs f := hfl.trans (if_neg n3)
      have hdir := flush_dir h4
      show (match f.2 with | .index => _ | .chunk _ => if f.1 = _ then none else _) = _
      split
      · exact hfl
      · rw [if_neg (by rw [hdir]; exact n1)]; exact hfl
    | «import» dir mv =>
      simp only [MState.step, hlib] at h
      obtain ⟨q, h1, h⟩ := Res.bind_eq_ok.1 h
      cases h
      unfold Lib.import at h1
      obtain ⟨_, h2, h1⟩ := Res.bind_eq_ok.1 h1
      cases h1
      unfold Index.import at h2
      obtain ⟨_, _, h2⟩ := Res.bind_eq_ok.1 h2
      obtain ⟨_, _, h2⟩ := Res.bind_eq_ok.1 h2
      cases h2
      have n1 : ∀ n, st.fs (dir, .chunk n) ≠ none → f ≠ (lib.cc.dir, .chunk n) := fun n hn e => hf (.inl ⟨n, hn, .inl e⟩)
      have n2 : mv = true → ∀ n, st.fs (dir, .chunk n) ≠ none → f ≠ (dir, .chunk n) := fun hm n hn e => hf (.inl ⟨n, hn, .inr ⟨hm, e⟩⟩)
      have n3 : mv = true → f ≠ (dir, .index) := fun hm e => hf (.inr ⟨hm, e⟩)
      unfold importCache
      obtain ⟨fd, fn⟩ := f
      cases mv with
      | false =>
        simp only [Bool.false_eq_true, if_false]
        unfold copyFiles
        cases fn with
        | index => rfl
        | chunk n =>
          simp only
          split
          · rename_i hd
            subst hd
            split
            · rename_i g hg
              exact absurd rfl (n1 n (by rw [hg]; simp))
            · rfl
          · rfl
      | true =>
        have n2 := n2 rfl
        have n3 := n3 rfl
        simp only [if_true]
        have hset : ∀ x, x ≠ (dir, Name.index) → (st.fs.set (dir, Name.index) none) x = st.fs x := fun x hx => if_neg hx
        unfold moveFiles
        cases fn with
        | index => exact hset _ n3
        | chunk n =>
          simp only
          rw [hset (dir, .chunk n) (by simp), hset (fd, .chunk n) (by simp)]
          split
          · rename_i hd
            subst hd
            split
            · rename_i g hg
              exact absurd rfl (n1 n (by rw [hg]; simp))
            · rfl
          · split
            · rename_i hd
              subst hd
              by_cases h0 : st.fs (fd, .chunk n) = none
              · exact h0.symm
              · exact absurd rfl (n2 n h0)
            · rfl

end Verif.Dist
