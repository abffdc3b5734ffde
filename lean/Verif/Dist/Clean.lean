import Verif.Dist.Props29
/-
Read-only use of a library: no file changes.
-/
namespace Verif.Dist
open Verif Verif.ND Verif.Tree

variable {C : Cfg} {S : Sorter} {Z : SlabSize}

/-- No cache slot has outstanding operations. -/
def CC.Clean (cc : CC) : Prop := ∀ k, (cc.cache.payload k).stat = .nothing

theorem markAsNewest_payload {c c' : Cache.Cache Nat Entry} {e : Nat} (h : Cache.markAsNewest c e = .ok c') : c'.payload = c.payload := by
  unfold Cache.markAsNewest at h
  split at h
  · cases h; rfl
  · simp only at h
    split at h
    · cases h
    · cases h; rfl

theorem markAsOldest_payload {c c' : Cache.Cache Nat Entry} {e : Nat} (h : Cache.markAsOldest c e = .ok c') : c'.payload = c.payload := by
  unfold Cache.markAsOldest at h
  split at h
  · cases h; rfl
  · simp only at h
    split at h
    · cases h
    · cases h; rfl

theorem get_payload {c : Cache.Cache Nat Entry} {k : Nat} {r : Cache.Cache Nat Entry × Nat} (h : Cache.get c k = .ok r) : r.1.payload = c.payload := by
  unfold Cache.get at h
  split at h
  · cases h
  · obtain ⟨c1, h1, h2⟩ := Res.bind_eq_ok.1 h
    cases h2
    exact markAsNewest_payload h1

theorem insertRef_payload {c : Cache.Cache Nat Entry} {k : Nat} {r : Cache.Cache Nat Entry × Nat} (h : Cache.insertRef c k = .ok r) : r.1.payload = c.payload := by
  unfold Cache.insertRef at h
  obtain ⟨_, _, h⟩ := Res.bind_eq_ok.1 h
  split at h
  · cases h
  · obtain ⟨_, _, h⟩ := Res.bind_eq_ok.1 h
    obtain ⟨c1, h1, h2⟩ := Res.bind_eq_ok.1 h
    cases h2
    have := markAsNewest_payload h1
    exact this

theorem evictOldest_payload {c : Cache.Cache Nat Entry} {r : Cache.Cache Nat Entry × Nat} (h : Cache.evictOldest c = .ok r) : r.1.payload = c.payload := by
  unfold Cache.evictOldest at h
  obtain ⟨_, _, h⟩ := Res.bind_eq_ok.1 h
  split at h
  · cases h
  · cases h; rfl

theorem evict_payload {c : Cache.Cache Nat Entry} {k : Nat} {r : Cache.Cache Nat Entry × Nat} (h : Cache.evict c k = .ok r) : r.1.payload = c.payload := by
  unfold Cache.evict at h
  obtain ⟨_, _, h⟩ := Res.bind_eq_ok.1 h
  split at h
  · cases h
  · obtain ⟨c1, h1, h2⟩ := Res.bind_eq_ok.1 h
    cases h2
    have := markAsOldest_payload h1
    exact this

theorem store_clean {c : Cache.Cache Nat Entry} {k : Nat} {e : Entry} (h : ∀ k, (c.payload k).stat = .nothing) (he : e.stat = .nothing) (j : Nat) :
    ((Cache.store c k e).payload j).stat = .nothing := by
  show (DLL.upd c.payload k e j).stat = _
  unfold DLL.upd
  split
  · exact he
  · exact h j

theorem descope_clean {dir : Nat} {fs fs' : FS} {e : Entry} (he : e.stat = .nothing) (h : descope C dir fs e = .ok fs') : fs' = fs := by
  unfold descope at h
  split at h
  · obtain ⟨_, _, h⟩ := Res.bind_eq_ok.1 h
    cases h; rfl
  · rw [he] at h
    cases h; rfl

/-- After `q`, the files and the directory are the same, and there still is nothing to be written. -/
structure Untouched (cc : CC) (fs : FS) (cc' : CC) (fs' : FS) : Prop where
  fs : fs' = fs
  clean : cc'.Clean
  dir : cc'.dir = cc.dir

theorem Untouched.refl {cc : CC} {fs : FS} (h : cc.Clean) : Untouched cc fs cc fs := ⟨rfl, h, rfl⟩
theorem Untouched.trans {a b c : CC} {x y z : FS} (h : Untouched a x b y) (h' : Untouched b y c z) : Untouched a x c z :=
  ⟨h'.fs.trans h.fs, h'.clean, h'.dir.trans h.dir⟩

theorem makeRoom_clean {cc : CC} {fs : FS} (hc : cc.Clean) {q : CC × FS} (h : makeRoom C cc fs = .ok q) : Untouched cc fs q.1 q.2 := by
  unfold makeRoom at h
  split at h
  · cases h; exact .refl hc
  · obtain ⟨r, h1, h⟩ := Res.bind_eq_ok.1 h
    obtain ⟨fs1, h2, h⟩ := Res.bind_eq_ok.1 h
    cases h
    have hp := evictOldest_payload h1
    refine ⟨descope_clean (by rw [hp]; exact hc _) h2, fun k => ?_, rfl⟩
    show (r.1.payload k).stat = _
    rw [hp]; exact hc k

theorem deserInto_clean {cc : CC} {fs : FS} {m : Meta} (hc : cc.Clean) {q : CC × FS × Arr} (h : deserInto C cc fs m = .ok q) : Untouched cc fs q.1 q.2.1 := by
  unfold deserInto at h
  obtain ⟨q1, h1, h⟩ := Res.bind_eq_ok.1 h
  obtain ⟨r, h2, h⟩ := Res.bind_eq_ok.1 h
  obtain ⟨a, h3, h⟩ := Res.bind_eq_ok.1 h
  cases h
  have u := makeRoom_clean hc h1
  refine ⟨u.fs, store_clean (fun k => ?_) rfl, u.dir⟩
  rw [insertRef_payload h2]; exact u.clean k

theorem retrieve_clean {cc : CC} {fs : FS} {m : Meta} (hc : cc.Clean) {q : CC × FS × Arr} (h : retrieve C cc fs m = .ok q) : Untouched cc fs q.1 q.2.1 := by
  unfold retrieve at h
  split at h
  · obtain ⟨r, h1, h⟩ := Res.bind_eq_ok.1 h
    have hp := get_payload h1
    simp only at h
    rw [hp, hc] at h
    cases h
    refine ⟨rfl, fun k => ?_, rfl⟩
    show (r.1.payload k).stat = _
    rw [hp]; exact hc k
  · exact deserInto_clean hc h

theorem flushOne_clean {k : Nat} {q q' : CC × FS} (hc : q.1.Clean) (h : flushOne C k q = .ok q') : Untouched q.1 q.2 q'.1 q'.2 := by
  unfold flushOne at h
  obtain ⟨r, h1, h⟩ := Res.bind_eq_ok.1 h
  obtain ⟨fs1, h2, h⟩ := Res.bind_eq_ok.1 h
  cases h
  have hp := evict_payload h1
  refine ⟨descope_clean (by rw [hp]; exact hc _) h2, fun k => ?_, rfl⟩
  show (r.1.payload k).stat = _
  rw [hp]; exact hc k

theorem runLoop_clean {α β : Type} {f : α → CC × FS × β → Res (CC × FS × β)}
    (hf : ∀ a q q', q.1.Clean → f a q = .ok q' → Untouched q.1 q.2.1 q'.1 q'.2.1) :
    ∀ (l : List α) {q q' : CC × FS × β}, q.1.Clean → runLoop f l q = .ok q' → Untouched q.1 q.2.1 q'.1 q'.2.1
  | [], q, q', hc, h => by cases h; exact .refl hc
  | a :: l, q, q', hc, h => by
      obtain ⟨q1, h1, h⟩ := Res.bind_eq_ok.1 h
      have u := hf a q q1 hc h1
      exact u.trans (runLoop_clean hf l u.clean h)

theorem flush_clean {cc : CC} {fs : FS} {q : CC × FS} (hc : cc.Clean) (h : flush C cc fs = .ok q) : Untouched cc fs q.1 q.2 := by
  unfold flush at h
  revert h
  generalize Cache.containedElements cc.cache = l
  intro h
  suffices H : ∀ (l : List Nat) {q q' : CC × FS}, q.1.Clean → runLoop (flushOne C) l q = .ok q' → Untouched q.1 q.2 q'.1 q'.2 from H l hc h
  intro l
  induction l with
  | nil => intro q q' hc h; cases h; exact .refl hc
  | cons a l ih =>
    intro q q' hc h
    obtain ⟨q1, h1, h⟩ := Res.bind_eq_ok.1 h
    have u := flushOne_clean hc h1
    exact u.trans (ih u.clean h)

theorem construct_clean {dir : Nat} {init : List Nat} {cc : CC} (h : CC.construct C dir init = .ok cc) : cc.Clean ∧ cc.dir = dir := by
  unfold CC.construct at h
  obtain ⟨c, h1, h⟩ := Res.bind_eq_ok.1 h
  cases h
  unfold Cache.construct at h1
  split at h1
  · cases h1
  · cases h1
    exact ⟨fun _ => rfl, rfl⟩

theorem insertAll_dir : ∀ (ms : List Meta) {x y : Index}, x.insertAll S ms = .ok y → y.dir = x.dir
  | [], x, y, h => by cases h; rfl
  | m :: ms, x, y, h => by
      obtain ⟨z, h1, h⟩ := Res.bind_eq_ok.1 h
      rw [insertAll_dir ms h]
      unfold Index.insert at h1
      obtain ⟨t, _, h1⟩ := Res.bind_eq_ok.1 h1
      cases h1; rfl

theorem open_clean {fs : FS} {dir : Nat} {init : List Nat} {lib : Lib} (h : Lib.open C S fs dir init = .ok lib) : lib.cc.Clean ∧ lib.idx.dir = dir ∧ lib.cc.dir = dir := by
  unfold Lib.open at h
  obtain ⟨x, h4, h⟩ := Res.bind_eq_ok.1 h
  obtain ⟨cc, h5, h⟩ := Res.bind_eq_ok.1 h
  cases h
  refine ⟨(construct_clean h5).1, ?_, (construct_clean h5).2⟩
  show x.dir = dir
  unfold Index.open at h4
  split at h4
  · cases h4; rfl
  · obtain ⟨ms, _, h4⟩ := Res.bind_eq_ok.1 h4
    rw [insertAll_dir ms h4]; rfl

theorem getChunk_dir {x : Index} {p : List Nat} {r : Index × Option (Nat × Meta)} (h : x.getChunk p = .ok r) : r.1.dir = x.dir := by
  unfold Index.getChunk at h
  obtain ⟨t, _, h⟩ := Res.bind_eq_ok.1 h
  split at h
  · cases h; rfl
  · split at h
    · cases h
    · cases h; rfl

theorem ensure_dir {x y : Index} (h : x.ensure C = .ok y) : y.dir = x.dir := by
  unfold Index.ensure at h
  split at h
  · cases h; rfl
  · unfold Index.calc at h
    split at h
    · cases h; rfl
    · obtain ⟨b, _, h⟩ := Res.bind_eq_ok.1 h
      obtain ⟨ms, _, h⟩ := Res.bind_eq_ok.1 h
      cases h; rfl

theorem get_clean {lib : Lib} {fs : FS} {i : List Nat} (hc : lib.cc.Clean) {q : Lib × FS × List Nat} (h : lib.get C fs i = .ok q) :
    Untouched lib.cc fs q.1.cc q.2.1 ∧ q.1.idx.dir = lib.idx.dir := by
  unfold Lib.get at h
  obtain ⟨r, h1, h⟩ := Res.bind_eq_ok.1 h
  split at h
  · cases h
  · obtain ⟨r', h2, h⟩ := Res.bind_eq_ok.1 h
    obtain ⟨v, h3, h⟩ := Res.bind_eq_ok.1 h
    cases h
    exact ⟨retrieve_clean hc h2, getChunk_dir h1⟩

theorem fillArray_clean {lib : Lib} {fs : FS} {hd : Hdr} {buf lo hi out : List Nat} (hc : lib.cc.Clean) {q : Lib × FS × List Nat}
    (h : lib.fillArray C fs hd buf lo hi out = .ok q) : Untouched lib.cc fs q.1.cc q.2.1 ∧ q.1.idx = lib.idx := by
  unfold Lib.fillArray at h
  obtain ⟨_, _, h⟩ := Res.bind_eq_ok.1 h
  obtain ⟨_, _, h⟩ := Res.bind_eq_ok.1 h
  obtain ⟨ms, h1, h⟩ := Res.bind_eq_ok.1 h
  obtain ⟨st, h2, h⟩ := Res.bind_eq_ok.1 h
  cases h
  refine ⟨runLoop_clean (fun m q q' hc h => ?_) ms hc h2, rfl⟩
  unfold fillOne at h
  simp only at h
  split at h
  · obtain ⟨b, h1, h⟩ := Res.bind_eq_ok.1 h
    cases h
    exact .refl hc
  · obtain ⟨r, h1, h⟩ := Res.bind_eq_ok.1 h
    obtain ⟨b, h2, h⟩ := Res.bind_eq_ok.1 h
    cases h
    exact retrieve_clean hc h1

theorem loopRange_clean {lib : Lib} {fs : FS} {lo hi : List Nat} (hc : lib.cc.Clean) {q : Lib × FS × List (List Nat × List Nat)}
    (h : lib.indexLoopRange C fs lo hi = .ok q) : Untouched lib.cc fs q.1.cc q.2.1 ∧ q.1.idx = lib.idx := by
  unfold Lib.indexLoopRange at h
  obtain ⟨ms, h1, h⟩ := Res.bind_eq_ok.1 h
  obtain ⟨st, h2, h⟩ := Res.bind_eq_ok.1 h
  cases h
  refine ⟨runLoop_clean (fun m q q' hc h => ?_) ms hc h2, rfl⟩
  unfold loopOne at h
  obtain ⟨r, h1, h⟩ := Res.bind_eq_ok.1 h
  obtain ⟨b, h2, h⟩ := Res.bind_eq_ok.1 h
  cases h
  exact retrieve_clean hc h1

/-- The calls that only read. -/
def LOp.Reads : LOp → Prop
  | .get _ | .fill _ _ _ _ _ _ _ | .query _ | .loop _ _ | .loopAll => True
  | _ => False

theorem step_clean {st st' : MState} {lib : Lib} (hl : st.lib = some lib) (hc : lib.cc.Clean) {op : LOp} (ho : op.Reads) {o : Out} (h : st.step C S op = .ok (st', o)) :
    ∃ lib', st'.lib = some lib' ∧ Untouched lib.cc st.fs lib'.cc st'.fs ∧ lib'.idx.dir = lib.idx.dir := by
  unfold MState.step at h
  cases op with
  | get i =>
    simp only [hl] at h
    obtain ⟨q, h1, h⟩ := Res.bind_eq_ok.1 h
    cases h
    exact ⟨_, rfl, get_clean hc h1⟩
  | fill a b c d e f g =>
    simp only [hl] at h
    obtain ⟨q, h1, h⟩ := Res.bind_eq_ok.1 h
    cases h
    exact ⟨_, rfl, (fillArray_clean hc h1).1, by rw [(fillArray_clean hc h1).2]⟩
  | loop lo hi =>
    simp only [hl] at h
    obtain ⟨q, h1, h⟩ := Res.bind_eq_ok.1 h
    cases h
    exact ⟨_, rfl, (loopRange_clean hc h1).1, by rw [(loopRange_clean hc h1).2]⟩
  | loopAll =>
    simp only [hl] at h
    obtain ⟨q, h1, h⟩ := Res.bind_eq_ok.1 h
    cases h
    unfold Lib.indexLoopAll at h1
    obtain ⟨r, h2, h1⟩ := Res.bind_eq_ok.1 h1
    obtain ⟨u, v⟩ := loopRange_clean (lib := { lib with idx := r.1 }) hc h1
    unfold Index.getShape at h2
    obtain ⟨x, h3, h2⟩ := Res.bind_eq_ok.1 h2
    cases h2
    exact ⟨_, rfl, u, by rw [v]; exact ensure_dir h3⟩
  | query q =>
    simp only [hl] at h
    cases q with
    | volume =>
      simp only [Index.getVolume, Index.getShape] at h
      obtain ⟨q, h1, h⟩ := Res.bind_eq_ok.1 h
      obtain ⟨q', h4, h2⟩ := Res.bind_eq_ok.1 h1
      obtain ⟨x, h5, h3⟩ := Res.bind_eq_ok.1 h4
      cases h3; cases h2; cases h
      exact ⟨_, rfl, .refl hc, ensure_dir h5⟩
    | _ =>
      simp only [Index.getStart, Index.getStop, Index.getShape] at h
      obtain ⟨q, h1, h⟩ := Res.bind_eq_ok.1 h
      obtain ⟨x, h5, h2⟩ := Res.bind_eq_ok.1 h1
      cases h2; cases h
      exact ⟨_, rfl, .refl hc, ensure_dir h5⟩
  | _ => exact ho.elim

theorem run_clean : ∀ (ops : List LOp) {st st' : MState} {lib : Lib} {rs : List Out}, st.lib = some lib → lib.cc.Clean → (∀ op ∈ ops, op.Reads) →
    st.run C S ops = .ok (st', rs) → ∃ lib', st'.lib = some lib' ∧ Untouched lib.cc st.fs lib'.cc st'.fs ∧ lib'.idx.dir = lib.idx.dir
  | [], st, st', lib, rs, hl, hc, _, h => by
      simp only [MState.run] at h
      cases h
      exact ⟨lib, hl, .refl hc, rfl⟩
  | op :: ops, st, st', lib, rs, hl, hc, ho, h => by
      simp only [MState.run] at h
      obtain ⟨r, h1, h⟩ := Res.bind_eq_ok.1 h
      obtain ⟨r', h2, h⟩ := Res.bind_eq_ok.1 h
      cases h
      obtain ⟨lib1, k1, k2, d2⟩ := step_clean (st' := r.1) (o := r.2) hl hc (ho op List.mem_cons_self) h1
      obtain ⟨lib2, k3, k4, d4⟩ := run_clean ops (st' := r'.1) (rs := r'.2) k1 k2.clean (fun op hop => ho op (List.mem_cons_of_mem _ hop)) h2
      exact ⟨lib2, k3, k2.trans k4, d4.trans d2⟩

/-! ### The records are determined by the chunks -/

theorem Rep.metas {cs cs' : List (Meta × Arr)} {ps : List Piece} (h : Chunky C cs) (h' : Chunky C cs') (hr : Rep C cs ps) (hr' : Rep C cs' ps) :
    cs.map Prod.fst = cs'.map Prod.fst := by
  apply List.ext_getElem
  · rw [List.length_map, List.length_map, hr.1, hr'.1]
  · intro k hk hk'
    rw [List.length_map] at hk hk'
    rw [List.getElem_map, List.getElem_map]
    have hp : k < ps.length := by rw [← hr.1]; exact hk
    have r := hr.2 k _ _ (List.getElem?_eq_getElem hk) (List.getElem?_eq_getElem hp)
    have r' := hr'.2 k _ _ (List.getElem?_eq_getElem hk') (List.getElem?_eq_getElem hp)
    have m := h.placed _ (List.getElem_mem hk)
    have m' := h'.placed _ (List.getElem_mem hk')
    have t := h.ok
    have t' := h'.ok
    have c := chunksOf_of_mem h.ids (List.getElem_mem hk)
    have c' := chunksOf_of_mem h'.ids (List.getElem_mem hk')
    generalize cs[k] = x at *
    generalize cs'[k] = y at *
    have ct : x.1.ctype = y.1.ctype := by
      have e : x.1.path = y.1.path := by rw [r.file, r'.file]
      cases hx : x.1.ctype with
      | specified =>
        cases hy : y.1.ctype with
        | specified => rfl
        | all_null => exact absurd (e.trans (t'.null _ _ _ c' hy).1) (t.spec _ _ _ c hx)
      | all_null =>
        cases hy : y.1.ctype with
        | specified => exact absurd (e.symm.trans (t.null _ _ _ c hx).1) (t'.spec _ _ _ c' hy)
        | all_null => rfl
    have st : x.1.start = y.1.start := by rw [r.start, r'.start]
    have so : x.1.stop = y.1.stop := by rw [r.stop, r'.stop]
    have ov : x.1.overlap = y.1.overlap := by rw [r.overlap, r'.overlap]
    have sh : x.1.shape = y.1.shape := by
      apply ext_getD
      · rw [m.shapeLen, m'.shapeLen]
      · intro d _
        have e1 := m.getD_stop d
        have e2 := m'.getD_stop d
        rw [st, so] at e1
        omega
    have off : x.1.offset = y.1.offset := by rw [m.offset, m'.offset, st, ov]
    have id : x.1.id = y.1.id := by rw [r.id, r'.id]
    have pa : x.1.path = y.1.path := by rw [r.file, r'.file]
    revert ct st so ov sh off id pa
    cases x.1; cases y.1
    simp only
    intros
    simp [*]

theorem next_reads {w : World} {op : LOp} (h : op.Reads) : w.next C op = w := by
  unfold World.next
  cases op <;> first | exact h.elim | (cases w.cur <;> rfl)

theorem run_reads : ∀ {ops : List LOp} {w : World}, (∀ op ∈ ops, op.Reads) → w.run C ops = w
  | [], _, _ => rfl
  | op :: ops, w, h => by
      show (w.next C op).run C ops = w
      rw [next_reads (h op List.mem_cons_self), run_reads fun o ho => h o (List.mem_cons_of_mem _ ho)]

end Verif.Dist
