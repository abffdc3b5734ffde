import Verif.Dist.Hist
/-
Calls on a library read and write only files in the directories they name: for a set `D` of directories, a call on a library in `D` (that names only directories in `D`) gives the same result whatever the
files in the other directories are, and leaves these as they are.  Both is said by one equation: the call commutes with replacing the files in all other directories (`ov`).
-/
namespace Verif.Dist
open Verif Verif.ND Verif.Stream

/-- The files `fs` in the directories of `D`, the files `g` in all others. -/
def ov (D : Nat → Bool) (g fs : FS) : FS := fun p => if D p.1 then fs p else g p

variable {C : Cfg} {S : Tree.Sorter} {D : Nat → Bool} {g : FS}

/-- The two computations have the same result, up to `o`; if this is a value, it has the property `P`. -/
def Loc {α : Type} (o : α → α) (P : α → Prop) (x' x : Res α) : Prop := (x' = x.bind fun a => .ok (o a)) ∧ ∀ a, x = .ok a → P a

theorem Loc.bind {α β : Type} {o : α → α} {P : α → Prop} {x' x : Res α} {o2 : β → β} {P2 : β → Prop} {k' k : α → Res β} (h : Loc o P x' x) (hk : ∀ a, P a → Loc o2 P2 (k' (o a)) (k a)) :
    Loc o2 P2 (x'.bind k') (x.bind k) := by
  obtain ⟨h1, h2⟩ := h
  subst h1
  cases x with
  | ok a => exact hk a (h2 a rfl)
  | _ => exact ⟨rfl, fun a e => by cases e⟩

theorem Loc.free {α β : Type} {x : Res α} {o2 : β → β} {P2 : β → Prop} {k' k : α → Res β} (hk : ∀ a, x = .ok a → Loc o2 P2 (k' a) (k a)) : Loc o2 P2 (x.bind k') (x.bind k) := by
  cases x with
  | ok a => exact hk a rfl
  | _ => exact ⟨rfl, fun a e => by cases e⟩

theorem Loc.ret {α : Type} {o : α → α} {P : α → Prop} {a b : α} (e : b = o a) (h : P a) : Loc o P (.ok b) (.ok a) := ⟨by rw [e]; rfl, fun c hc => by cases hc; exact h⟩
theorem Loc.abort {α : Type} {o : α → α} {P : α → Prop} : Loc o P .abort .abort := ⟨rfl, fun _ e => by cases e⟩
theorem Loc.throw {α : Type} {o : α → α} {P : α → Prop} : Loc o P .throw .throw := ⟨rfl, fun _ e => by cases e⟩
theorem Loc.ub {α : Type} {o : α → α} {P : α → Prop} : Loc o P .ub .ub := ⟨rfl, fun _ e => by cases e⟩

theorem Loc.loop {σ ι : Type} {o : σ → σ} {P : σ → Prop} {f : ι → σ → Res σ} (hf : ∀ i s, P s → Loc o P (f i (o s)) (f i s)) : ∀ (l : List ι) (s : σ), P s → Loc o P (runLoop f l (o s)) (runLoop f l s)
  | [], _, h => Loc.ret rfl h
  | i :: l, s, h => Loc.bind (hf i s h) fun a ha => Loc.loop hf l a ha

theorem ov_at {fs : FS} {d : Nat} (h : D d = true) (m : Name) : ov D g fs (d, m) = fs (d, m) := by unfold ov; rw [if_pos h]

theorem ov_set {fs : FS} {d : Nat} (h : D d = true) (m : Name) (c : Option (List Nat)) : (ov D g fs).set (d, m) c = ov D g (fs.set (d, m) c) := by
  funext p
  unfold ov FS.set
  by_cases e : p = (d, m)
  · subst e; simp [h]
  · simp [e]

/-- The cache, the files and something else. -/
def ovC (D : Nat → Bool) (g : FS) (q : CC × FS) : CC × FS := (q.1, ov D g q.2)
def ovX {β : Type} (D : Nat → Bool) (g : FS) (q : CC × FS × β) : CC × FS × β := (q.1, ov D g q.2.1, q.2.2)
def InC (D : Nat → Bool) (q : CC × FS) : Prop := D q.1.dir = true
def InX {β : Type} (D : Nat → Bool) (q : CC × FS × β) : Prop := D q.1.dir = true

/-! ### The cache -/

theorem descope_loc {dir : Nat} (h : D dir = true) (fs : FS) (e : Entry) : Loc (ov D g) (fun _ => True) (descope C dir (ov D g fs) e) (descope C dir fs e) := by
  unfold descope
  split
  · exact Loc.free fun _ _ => Loc.ret rfl trivial
  · split
    · exact Loc.free fun _ _ => Loc.ret (ov_set h _ _) trivial
    · unfold absPath
      rw [ov_at h]
      split
      · exact Loc.abort
      · exact Loc.free fun _ _ => Loc.ret (ov_set h _ _) trivial
    · exact Loc.ret rfl trivial

theorem sync_loc {dir : Nat} (h : D dir = true) (fs : FS) (e : Entry) : Loc (fun q : FS × Entry => (ov D g q.1, q.2)) (fun _ => True) (sync C dir (ov D g fs) e) (sync C dir fs e) := by
  unfold sync
  split
  · exact Loc.free fun _ _ => Loc.free fun _ _ => Loc.ret rfl trivial
  · unfold absPath
    rw [ov_at h]
    split
    · exact Loc.abort
    · split
      · exact Loc.free fun _ _ => Loc.free fun _ _ => Loc.ret (by rw [ov_set h]) trivial
      · exact Loc.ret rfl trivial

theorem makeRoom_loc {cc : CC} (h : D cc.dir = true) (fs : FS) : Loc (ovC D g) (InC D) (makeRoom C cc (ov D g fs)) (makeRoom C cc fs) := by
  unfold makeRoom
  split
  · exact Loc.ret rfl h
  · exact Loc.free fun _ _ => Loc.bind (descope_loc h fs _) fun _ _ => Loc.ret rfl h

theorem insertInto_loc {cc : CC} (h : D cc.dir = true) (fs : FS) (m : Meta) (a : Arr) (s : Stat) : Loc (ovC D g) (InC D) (insertInto C cc (ov D g fs) m a s) (insertInto C cc fs m a s) :=
  Loc.free fun _ _ => Loc.bind (makeRoom_loc h fs) fun _ hq => Loc.free fun _ _ => Loc.free fun _ _ => Loc.ret rfl hq

theorem deserInto_loc {cc : CC} (h : D cc.dir = true) (fs : FS) (m : Meta) : Loc (ovX D g) (InX D) (deserInto C cc (ov D g fs) m) (deserInto C cc fs m) := by
  unfold deserInto
  refine Loc.bind (makeRoom_loc h fs) fun q hq => Loc.free fun r _ => ?_
  have e : loadChunk C (ovC D g q).1.dir (ovC D g q).2 m (r.1.payload r.2).data = loadChunk C q.1.dir q.2 m (r.1.payload r.2).data := by
    unfold loadChunk ovC absPath
    dsimp only
    rw [ov_at hq]
  rw [e]
  exact Loc.free fun _ _ => Loc.ret rfl hq

theorem flush_loc {cc : CC} (h : D cc.dir = true) (fs : FS) : Loc (ovC D g) (InC D) (flush C cc (ov D g fs)) (flush C cc fs) :=
  Loc.loop (o := ovC D g) (P := InC D) (f := flushOne C) (fun k s hs => by
    unfold flushOne
    exact Loc.free fun r _ => Loc.bind (descope_loc hs s.2 _) fun _ _ => Loc.ret rfl hs) _ (cc, fs) h

theorem flushIf_loc {cc : CC} (h : D cc.dir = true) (fs : FS) : Loc (ovC D g) (InC D) (flushIfUncached C cc (ov D g fs)) (flushIfUncached C cc fs) := by
  unfold flushIfUncached
  split
  · exact flush_loc h fs
  · exact Loc.ret rfl h

theorem registerNew_loc {cc : CC} (h : D cc.dir = true) (fs : FS) (m : Meta) (a : Arr) : Loc (ovC D g) (InC D) (registerNew C cc (ov D g fs) m a) (registerNew C cc fs m a) :=
  Loc.bind (insertInto_loc h fs m a _) fun q hq => flushIf_loc hq q.2

theorem removeChunk_dir {cc cc' : CC} {m : Meta} (h : removeChunk cc m = .ok cc') : cc'.dir = cc.dir := by
  unfold removeChunk at h
  split at h
  · obtain ⟨r, _, h⟩ := Res.bind_eq_ok.1 h
    cases h; rfl
  · cases h; rfl

theorem replaceChunk_loc {cc : CC} (h : D cc.dir = true) (fs : FS) (m m' : Meta) (a : Arr) : Loc (ovC D g) (InC D) (replaceChunk C cc (ov D g fs) m m' a) (replaceChunk C cc fs m m' a) :=
  Loc.free fun _ _ => Loc.free fun c hc => registerNew_loc (by rw [removeChunk_dir hc]; exact h) fs m' a

theorem retrieve_loc {cc : CC} (h : D cc.dir = true) (fs : FS) (m : Meta) : Loc (ovX D g) (InX D) (retrieve C cc (ov D g fs) m) (retrieve C cc fs m) := by
  unfold retrieve
  split
  · refine Loc.free fun r _ => ?_
    dsimp only
    split
    · exact Loc.bind (sync_loc h fs _) fun _ _ => Loc.ret rfl h
    · exact Loc.ret rfl h
  · exact deserInto_loc h fs m

theorem appendPending_loc {dir : Nat} (h : D dir = true) (fs : FS) (e : Entry) (ax axis : Nat) (m : Meta) (s : Arr) :
    Loc (fun q : FS × Entry => (ov D g q.1, q.2)) (fun _ => True) (appendPending C dir (ov D g fs) e ax axis m s) (appendPending C dir fs e ax axis m s) := by
  unfold appendPending
  refine Loc.bind (o := fun q : FS × Entry => (ov D g q.1, q.2)) (P := fun _ => True) ?_ fun _ _ => Loc.free fun _ _ => Loc.ret rfl trivial
  split
  · exact Loc.bind (sync_loc h fs e) fun _ _ => Loc.ret rfl trivial
  · exact Loc.ret rfl trivial

theorem appendChunk_loc {cc : CC} (h : D cc.dir = true) (axis : Nat) (fs : FS) (m : Meta) (s : Arr) : Loc (ovX D g) (InX D) (appendChunk C axis cc (ov D g fs) m s) (appendChunk C axis cc fs m s) := by
  unfold appendChunk
  split
  · exact Loc.throw
  · dsimp only
    refine Loc.bind (o := ovC D g) (P := InC D) ?_ fun q hq => Loc.bind (flushIf_loc hq q.2) fun _ hq' => Loc.ret rfl hq'
    split
    · refine Loc.free fun r _ => ?_
      split
      · exact Loc.free fun r1 _ => insertInto_loc (cc := { cc with cache := r1.1 }) h fs _ _ _
      · exact Loc.free fun _ _ => Loc.ret rfl h
      · exact Loc.bind (appendPending_loc h fs _ _ _ _ _) fun _ _ => Loc.ret rfl h
    · exact insertInto_loc h fs _ _ _

theorem moveFiles_ov {src dst : Nat} (h1 : D src = true) (h2 : D dst = true) (fs : FS) : moveFiles src dst (ov D g fs) = ov D g (moveFiles src dst fs) := by
  funext p
  obtain ⟨d, n⟩ := p
  unfold moveFiles ov
  cases n with
  | index => rfl
  | chunk n =>
    dsimp only
    rw [if_pos h1]
    by_cases e1 : d = dst
    · subst e1; simp only [h2, if_true]
    · by_cases e2 : d = src
      · subst e2; simp only [h1, if_true]
      · simp only [e1, e2, if_false]

theorem copyFiles_ov {src dst : Nat} (h1 : D src = true) (h2 : D dst = true) (fs : FS) : copyFiles src dst (ov D g fs) = ov D g (copyFiles src dst fs) := by
  funext p
  obtain ⟨d, n⟩ := p
  unfold copyFiles ov
  cases n with
  | index => rfl
  | chunk n =>
    dsimp only
    rw [if_pos h1]
    by_cases e1 : d = dst
    · subst e1; simp only [h2, if_true]
    · simp only [e1, if_false]

theorem moveCache_loc {cc : CC} (h : D cc.dir = true) {dir : Nat} (hd : D dir = true) (fs : FS) : Loc (ovC D g) (InC D) (moveCache C cc (ov D g fs) dir) (moveCache C cc fs dir) :=
  Loc.bind (flush_loc h fs) fun _ hq => Loc.ret (Prod.ext rfl (moveFiles_ov hq hd _)) hd

theorem clearCache_loc {cc : CC} (h : D cc.dir = true) (fs : FS) : Loc (ovC D g) (InC D) (clearCache C cc (ov D g fs)) (clearCache C cc fs) := by
  refine Loc.bind (flush_loc h fs) fun q hq => Loc.ret (Prod.ext rfl ?_) hq
  funext p
  obtain ⟨d, n⟩ := p
  unfold ovC ov
  cases n with
  | index => rfl
  | chunk n =>
    dsimp only
    by_cases e : d = q.1.dir
    · have hq : D q.1.dir = true := hq
      subst e; simp only [hq, if_true]
    · simp only [e, if_false]

theorem importCache_ov {cc : CC} (h : D cc.dir = true) {dir : Nat} (hd : D dir = true) (fs : FS) (move : Bool) : importCache cc (ov D g fs) dir move = ovC D g (importCache cc fs dir move) := by
  unfold importCache ovC
  cases move
  · simp only [Bool.false_eq_true, if_false]; rw [copyFiles_ov hd h]
  · simp only [if_true]; rw [moveFiles_ov hd h]

/-! ### The library -/

/-- The library works in `D`. -/
def Lib.In (D : Nat → Bool) (l : Lib) : Prop := D l.cc.dir = true ∧ D l.idx.dir = true

def ovL (D : Nat → Bool) (g : FS) (q : Lib × FS) : Lib × FS := (q.1, ov D g q.2)
def ovLX {β : Type} (D : Nat → Bool) (g : FS) (q : Lib × FS × β) : Lib × FS × β := (q.1, ov D g q.2.1, q.2.2)

theorem loadEntries_ov {dir : Nat} (h : D dir = true) (fs : FS) : loadEntries C (ov D g fs) dir = loadEntries C fs dir := by
  unfold loadEntries
  rw [ov_at h]

theorem indexOpen_ov {dir : Nat} (h : D dir = true) (fs : FS) : Index.open C S (ov D g fs) dir = Index.open C S fs dir := by
  unfold Index.open
  rw [ov_at h, loadEntries_ov h]

theorem insertAll_dir' : ∀ (ms : List Meta) {x y : Index}, x.insertAll S ms = .ok y → y.dir = x.dir
  | [], x, y, h => by cases h; rfl
  | m :: ms, x, y, h => by
      obtain ⟨x', h1, h2⟩ := Res.bind_eq_ok.1 h
      obtain ⟨t, _, h3⟩ := Res.bind_eq_ok.1 h1
      cases h3
      exact (insertAll_dir' ms h2).trans rfl

theorem insert_dir' {x y : Index} {m : Meta} (h : x.insert S m = .ok y) : y.dir = x.dir := by
  obtain ⟨t, _, h3⟩ := Res.bind_eq_ok.1 h
  cases h3; rfl

theorem open_dir' {fs : FS} {dir : Nat} {x : Index} (h : Index.open C S fs dir = .ok x) : x.dir = dir := by
  unfold Index.open at h
  split at h
  · cases h; rfl
  · obtain ⟨ms, _, h⟩ := Res.bind_eq_ok.1 h
    exact insertAll_dir' ms h

theorem libOpen_loc {dir : Nat} (h : D dir = true) (fs : FS) (init : List Nat) : Loc id (Lib.In D) (Lib.open C S (ov D g fs) dir init) (Lib.open C S fs dir init) := by
  unfold Lib.open
  rw [indexOpen_ov h]
  refine Loc.free fun x hx => Loc.free fun cc hc => Loc.ret rfl ⟨?_, ?_⟩
  · obtain ⟨c, _, hc⟩ := Res.bind_eq_ok.1 hc
    cases hc
    exact h
  · show D x.dir = true
    rw [open_dir' hx]; exact h

theorem indexFlush_loc {x : Index} (h : D x.dir = true) (fs : FS) : Loc (ov D g) (fun _ => True) (x.flush C (ov D g fs)) (x.flush C fs) :=
  Loc.free fun _ _ => Loc.ret (ov_set h _ _) trivial

theorem register_dir {x : Index} {uuid start shape : List Nat} {o : Nat} {ct : CType} {r : Index × Meta} (h : x.register S uuid start shape o ct = .ok r) : r.1.dir = x.dir := by
  obtain ⟨x', h1, h2⟩ := Res.bind_eq_ok.1 h
  cases h2
  exact (insert_dir' h1).trans rfl

theorem updateBox_dir {x y : Index} {p : List Nat} {m : Meta} (h : x.updateBox p m = .ok y) : y.dir = x.dir := by
  obtain ⟨t, _, h⟩ := Res.bind_eq_ok.1 h
  cases h; rfl

theorem getChunk_dir' {x : Index} {p : List Nat} {r : Index × Option (Nat × Meta)} (h : x.getChunk p = .ok r) : r.1.dir = x.dir := by
  obtain ⟨t, _, h⟩ := Res.bind_eq_ok.1 h
  split at h
  · cases h; rfl
  · split at h
    · cases h
    · cases h; rfl

theorem calc_dir' {x y : Index} (h : x.calc C = .ok y) : y.dir = x.dir := by
  unfold Index.calc at h
  split at h
  · cases h; rfl
  · obtain ⟨_, _, h⟩ := Res.bind_eq_ok.1 h
    obtain ⟨_, _, h⟩ := Res.bind_eq_ok.1 h
    cases h; rfl

theorem ensure_dir' {x y : Index} (h : x.ensure C = .ok y) : y.dir = x.dir := by
  unfold Index.ensure at h
  split at h
  · cases h; rfl
  · exact calc_dir' h

theorem libRegister_loc {l : Lib} (h : l.In D) (fs : FS) (uuid : List Nat) (a : Arr) (start stop : List Nat) (o : Nat) (opt : Bool) :
    Loc (ovL D g) (fun q => q.1.In D) (l.register C S (ov D g fs) uuid a start stop o opt) (l.register C S fs uuid a start stop o opt) :=
  Loc.free fun _ _ => Loc.free fun _ _ => Loc.free fun r hr => Loc.bind (registerNew_loc h.1 fs _ a) fun _ hq => Loc.ret rfl ⟨hq, by show D r.1.dir = true; rw [register_dir hr]; exact h.2⟩

theorem libAppend_loc {l : Lib} (h : l.In D) (axis : Nat) (fs : FS) (start : List Nat) (s : Arr) : Loc (ovL D g) (fun q => q.1.In D) (l.append C axis (ov D g fs) start s) (l.append C axis fs start s) := by
  unfold Lib.append
  refine Loc.free fun r hr => ?_
  split
  · exact Loc.ub
  · split
    · exact Loc.throw
    · refine Loc.bind (appendChunk_loc h.1 axis fs _ s) fun q hq => Loc.free fun x hx => Loc.ret rfl ⟨hq, ?_⟩
      show D x.dir = true
      rw [updateBox_dir hx]
      show D r.1.dir = true
      rw [getChunk_dir' hr]; exact h.2

theorem libGet_loc {l : Lib} (h : l.In D) (fs : FS) (i : List Nat) : Loc (ovLX D g) (fun q => q.1.In D) (l.get C (ov D g fs) i) (l.get C fs i) := by
  unfold Lib.get
  refine Loc.free fun r hr => ?_
  split
  · exact Loc.ub
  · refine Loc.bind (retrieve_loc h.1 fs _) fun q hq => Loc.free fun v _ => Loc.ret rfl ⟨hq, ?_⟩
    show D r.1.dir = true
    rw [getChunk_dir' hr]; exact h.2

theorem fillOne_loc (hd : Hdr) (lo hi out : List Nat) (m : Meta) (st : CC × FS × List Nat) (h : InX D st) : Loc (ovX D g) (InX D) (fillOne C hd lo hi out m (ovX D g st)) (fillOne C hd lo hi out m st) := by
  unfold fillOne
  dsimp only
  split
  · exact Loc.free fun _ _ => Loc.ret rfl h
  · exact Loc.bind (retrieve_loc h st.2.1 m) fun _ hq => Loc.free fun _ _ => Loc.ret rfl hq

theorem libFill_loc {l : Lib} (h : l.In D) (fs : FS) (hd : Hdr) (buf lo hi out : List Nat) : Loc (ovLX D g) (fun q => q.1.In D) (l.fillArray C (ov D g fs) hd buf lo hi out) (l.fillArray C fs hd buf lo hi out) :=
  Loc.free fun _ _ => Loc.free fun _ _ => Loc.free fun _ _ => Loc.bind (Loc.loop (o := ovX D g) (P := InX D) (fun m st => fillOne_loc hd lo hi out m st) _ (l.cc, fs, buf) h.1) fun _ hq => Loc.ret rfl ⟨hq, h.2⟩

theorem libFlush_loc {l : Lib} (h : l.In D) (fs : FS) : Loc (ovL D g) (fun q => q.1.In D) (l.flush C (ov D g fs)) (l.flush C fs) :=
  Loc.bind (indexFlush_loc h.2 fs) fun f _ => Loc.bind (flush_loc h.1 f) fun _ hq => Loc.ret rfl ⟨hq, h.2⟩

theorem libDestroy_loc {l : Lib} (h : l.In D) (fs : FS) : Loc (ov D g) (fun _ => True) (l.destroy C (ov D g fs)) (l.destroy C fs) :=
  Loc.bind (flush_loc h.1 fs) fun q _ => indexFlush_loc h.2 q.2

theorem indexMove_loc {x : Index} (h : D x.dir = true) {dir : Nat} (hd : D dir = true) (fs : FS) :
    Loc (fun q : Index × FS => (q.1, ov D g q.2)) (fun q => D q.1.dir = true) (x.move C (ov D g fs) dir) (x.move C fs dir) := by
  refine Loc.free fun _ _ => ?_
  rw [ov_set h]
  exact Loc.bind (indexFlush_loc (x := { x with dir }) hd _) fun _ _ => Loc.ret rfl hd

theorem libMove_loc {l : Lib} (h : l.In D) {dir : Nat} (hd : D dir = true) (fs : FS) : Loc (ovL D g) (fun q => q.1.In D) (l.move C (ov D g fs) dir) (l.move C fs dir) :=
  Loc.bind (moveCache_loc h.1 hd fs) fun q hq => Loc.bind (indexMove_loc h.2 hd q.2) fun _ hr => Loc.ret rfl ⟨hq, hr⟩

theorem libClear_loc {l : Lib} (h : l.In D) (fs : FS) : Loc (ovL D g) (fun q => q.1.In D) (l.clear C (ov D g fs)) (l.clear C fs) := by
  unfold Lib.clear Index.clear
  dsimp only
  rw [ov_set h.2]
  exact Loc.bind (clearCache_loc h.1 _) fun _ hq => Loc.ret rfl ⟨hq, h.2⟩

theorem libImport_loc {l : Lib} (h : l.In D) {dir : Nat} (hd : D dir = true) (fs : FS) (move : Bool) : Loc (ovL D g) (fun q => q.1.In D) (l.import C S (ov D g fs) dir move) (l.import C S fs dir move) := by
  unfold Lib.import
  refine Loc.bind (o := fun q : Index × FS => (q.1, ov D g q.2)) (P := fun q => D q.1.dir = true) ?_ fun r hr => ?_
  · unfold Index.import
    rw [loadEntries_ov hd]
    refine Loc.free fun ms _ => Loc.free fun x' hx => Loc.ret ?_ (by show D x'.dir = true; rw [insertAll_dir' _ hx]; exact h.2)
    cases move
    · rfl
    · simp only [if_true, ov_set hd]
  · dsimp only
    rw [importCache_ov h.1 hd]
    exact Loc.ret rfl ⟨h.1, hr⟩

theorem loopRange_loc {l : Lib} (h : l.In D) (fs : FS) (lo hi : List Nat) : Loc (ovLX D g) (fun q => q.1.In D) (l.indexLoopRange C (ov D g fs) lo hi) (l.indexLoopRange C fs lo hi) :=
  Loc.free fun _ _ => Loc.bind (Loc.loop (o := ovX D g) (P := InX D) (f := loopOne C lo hi) (fun m st hst => by
    unfold loopOne
    exact Loc.bind (retrieve_loc hst st.2.1 m) fun _ hq => Loc.free fun _ _ => Loc.ret rfl hq) _ (l.cc, fs, []) h.1) fun _ hq => Loc.ret rfl ⟨hq, h.2⟩

theorem loopAll_loc {l : Lib} (h : l.In D) (fs : FS) : Loc (ovLX D g) (fun q => q.1.In D) (l.indexLoopAll C (ov D g fs)) (l.indexLoopAll C fs) := by
  refine Loc.free fun r hr => loopRange_loc (l := { l with idx := r.1 }) ⟨h.1, ?_⟩ fs _ _
  obtain ⟨x, hx, hr⟩ := Res.bind_eq_ok.1 hr
  cases hr
  show D x.dir = true
  rw [ensure_dir' hx]; exact h.2

theorem libSwap_loc {l : Lib} (h : l.In D) (fs : FS) (p q : Nat) : Loc (ovL D g) (fun q => q.1.In D) (l.swapAxes C S (ov D g fs) p q) (l.swapAxes C S fs p q) :=
  Loc.free fun _ _ => Loc.bind (Loc.loop (o := ovLX (β := Index × Arr) D g) (P := fun st => st.1.In D) (f := swapOne C S p q) (fun m st hst => by
    unfold swapOne
    refine Loc.bind (retrieve_loc hst.1 st.2.1 m) fun r hr => Loc.free fun b _ => Loc.bind (replaceChunk_loc hr _ _ _ _) fun c hc => Loc.free fun x hx => Loc.free fun _ _ => Loc.ret rfl ⟨hc, ?_⟩
    show D x.dir = true
    rw [updateBox_dir hx]; exact hst.2) _ (l, fs, _) h) fun _ hq => Loc.ret rfl ⟨hq.1, hq.2⟩

/-! ### Calls -/

/-- The directory that a call names. -/
def LOp.names : LOp → Option Nat
  | .open d _ => some d
  | .move d => some d
  | .import d _ => some d
  | _ => none

/-- The call names only directories in `D`. -/
def LOp.In (D : Nat → Bool) (op : LOp) : Prop := ∀ d, op.names = some d → D d = true

/-- The object, if there is one, works in `D`. -/
def MState.In (D : Nat → Bool) (st : MState) : Prop := ∀ l, st.lib = some l → l.In D

def ovM {β : Type} (D : Nat → Bool) (g : FS) (r : MState × β) : MState × β := (⟨r.1.lib, ov D g r.1.fs⟩, r.2)

theorem some_in {l : Lib} {fs : FS} (h : l.In D) : MState.In D ⟨some l, fs⟩ := fun l' e => by cases e; exact h

/-- A call of a library in `D`. -/
theorem step_loc {st : MState} (h : st.In D) {op : LOp} (hop : op.In D) : Loc (ovM D g) (fun r => r.1.In D) (MState.step C S ⟨st.lib, ov D g st.fs⟩ op) (st.step C S op) := by
  obtain ⟨lib, fs⟩ := st
  cases op with
  | «open» d init =>
    exact Loc.bind (libOpen_loc (hop d rfl) fs init) fun l hl => Loc.ret rfl (some_in hl)
  | query q =>
    cases lib with
    | none => exact Loc.ub
    | some l =>
      have hl := h l rfl
      cases q <;> refine Loc.free fun r hr => Loc.ret rfl (some_in ⟨hl.1, ?_⟩)
      · obtain ⟨x, hx, hr⟩ := Res.bind_eq_ok.1 hr
        cases hr
        show D x.dir = true
        rw [ensure_dir' hx]; exact hl.2
      · obtain ⟨x, hx, hr⟩ := Res.bind_eq_ok.1 hr
        cases hr
        show D x.dir = true
        rw [ensure_dir' hx]; exact hl.2
      · obtain ⟨x, hx, hr⟩ := Res.bind_eq_ok.1 hr
        cases hr
        show D x.dir = true
        rw [ensure_dir' hx]; exact hl.2
      · obtain ⟨y, hy, hr⟩ := Res.bind_eq_ok.1 hr
        obtain ⟨x, hx, hy⟩ := Res.bind_eq_ok.1 hy
        cases hy
        cases hr
        show D x.dir = true
        rw [ensure_dir' hx]; exact hl.2
  | loop lo hi =>
    cases lib with
    | none => exact Loc.ub
    | some l => exact Loc.bind (loopRange_loc (h l rfl) fs lo hi) fun q hq => Loc.ret rfl (some_in hq)
  | loopAll =>
    cases lib with
    | none => exact Loc.ub
    | some l => exact Loc.bind (loopAll_loc (h l rfl) fs) fun q hq => Loc.ret rfl (some_in hq)
  | close =>
    cases lib with
    | none => exact Loc.ub
    | some l => exact Loc.bind (libDestroy_loc (h l rfl) fs) fun q _ => Loc.ret rfl fun l' e => by cases e
  | register uuid a start stop o opt =>
    cases lib with
    | none => exact Loc.ub
    | some l => exact Loc.bind (libRegister_loc (h l rfl) fs uuid a start stop o opt) fun q hq => Loc.ret rfl (some_in hq)
  | append start s =>
    cases lib with
    | none => exact Loc.ub
    | some l => exact Loc.bind (libAppend_loc (h l rfl) 0 fs start s) fun q hq => Loc.ret rfl (some_in hq)
  | get i =>
    cases lib with
    | none => exact Loc.ub
    | some l => exact Loc.bind (libGet_loc (h l rfl) fs i) fun q hq => Loc.ret rfl (some_in hq)
  | fill P st hd buf lo hi out =>
    cases lib with
    | none => exact Loc.ub
    | some l => exact Loc.bind (libFill_loc (h l rfl) fs hd buf lo hi out) fun q hq => Loc.ret rfl (some_in hq)
  | flush =>
    cases lib with
    | none => exact Loc.ub
    | some l => exact Loc.bind (libFlush_loc (h l rfl) fs) fun q hq => Loc.ret rfl (some_in hq)
  | swap p q =>
    cases lib with
    | none => exact Loc.ub
    | some l => exact Loc.bind (libSwap_loc (h l rfl) fs p q) fun q hq => Loc.ret rfl (some_in hq)
  | move d =>
    cases lib with
    | none => exact Loc.ub
    | some l => exact Loc.bind (libMove_loc (h l rfl) (hop d rfl) fs) fun q hq => Loc.ret rfl (some_in hq)
  | clear =>
    cases lib with
    | none => exact Loc.ub
    | some l => exact Loc.bind (libClear_loc (h l rfl) fs) fun q hq => Loc.ret rfl (some_in hq)
  | «import» d mv =>
    cases lib with
    | none => exact Loc.ub
    | some l => exact Loc.bind (libImport_loc (h l rfl) (hop d rfl) fs mv) fun q hq => Loc.ret rfl (some_in hq)

end Verif.Dist
