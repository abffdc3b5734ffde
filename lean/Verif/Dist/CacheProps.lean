import Verif.Dist.File
import Verif.Dist.Model
import Verif.Dist.CacheRel
/-
The chunk cache holds, together with the files, exactly the contents of every chunk: the invariant behind C27.
-/
namespace Verif.Dist
open Verif Verif.ND Verif.Bytes Verif.Stream
open Verif.Cache (CRel keyGone)

variable {C : Cfg}

/-- The contents of all chunks, as if they were kept in memory: identifier to metadata and data. -/
abbrev Chunks := Nat → Option (Meta × Arr)

def Chunks.put (M : Chunks) (k : Nat) (v : Option (Meta × Arr)) : Chunks := fun j => if j = k then v else M j

/-- The array of zeros of the given shape. -/
def zeros (vd : Nat) (sh : List Nat) : Arr := ⟨sh, List.replicate (volume vd sh) 0⟩

/-- A well-formed set of chunks: identifiers as recorded, arrays in memory, different files for different chunks, and all-zero chunks are
    zero, have no file and no padding. -/
structure Chunks.Ok (C : Cfg) (M : Chunks) : Prop where
  id : ∀ k m a, M k = some (m, a) → m.id = k
  arr : ∀ k m a, M k = some (m, a) → a.Ok C
  spec : ∀ k m a, M k = some (m, a) → m.ctype = .specified → m.path ≠ []
  null : ∀ k m a, M k = some (m, a) → m.ctype = .all_null → m.path = [] ∧ AEq C.vd (zeros C.vd m.shape) a
  inj : ∀ k m a k' m' a', M k = some (m, a) → M k' = some (m', a') → m.path ≠ [] → m.path = m'.path → k = k'

/-- The file of the chunk holds its contents. -/
def OnDisk (C : Cfg) (dir : Nat) (fs : FS) (m : Meta) (a : Arr) : Prop :=
  m.ctype = .specified → ∃ f, fs (absPath dir m) = some f ∧ FileHolds C f a

/-- A cache entry stands for the contents `a` of a chunk. -/
structure EntryOk (C : Cfg) (dir : Nat) (fs : FS) (e : Entry) (m : Meta) (a : Arr) : Prop where
  id : e.info.id = m.id
  path : e.info.path = m.path
  ctype : e.info.ctype = m.ctype
  ok : e.data.Ok C
  stat : match e.stat with
    | .nothing => AEq C.vd e.data a ∧ OnDisk C dir fs m a
    | .serialize => AEq C.vd e.data a
    | .append ax => ax = 0 ∧ m.ctype = .specified ∧
        ∃ b f, b.Ok C ∧ fs (absPath dir m) = some f ∧ FileHolds C f b ∧ Extends C b e.data ∧ AEq C.vd (b.cat e.data) a

/-- The cache with contents `s` and the files stand for the chunks `M`. -/
structure CInv (C : Cfg) (M : Chunks) (cc : CC) (fs : FS) (s : List (Nat × Entry)) : Prop where
  rel : CRel (max 1 C.size) cc.cache s
  cached : ∀ k e, (k, e) ∈ s → ∃ m a, M k = some (m, a) ∧ EntryOk C cc.dir fs e m a
  disk : ∀ k m a, M k = some (m, a) → k ∉ s.map Prod.fst → OnDisk C cc.dir fs m a

/-- Only files of chunks in `M` differ. -/
def SameBut (dir : Nat) (M : Chunks) (fs fs' : FS) : Prop :=
  ∀ p, (∀ k m a, M k = some (m, a) → m.path ≠ [] → p ≠ absPath dir m) → fs' p = fs p

theorem SameBut.refl {dir : Nat} {M : Chunks} (fs : FS) : SameBut dir M fs fs := fun _ _ => rfl
theorem SameBut.trans {dir : Nat} {M : Chunks} {a b c : FS} (h : SameBut dir M a b) (h' : SameBut dir M b c) : SameBut dir M a c :=
  fun p hp => (h' p hp).trans (h p hp)
theorem SameBut.mono {dir : Nat} {M M' : Chunks} {a b : FS} (h : SameBut dir M a b) (hM : ∀ k m a, M k = some (m, a) → ∃ k' m' a', M' k' = some (m', a') ∧ m'.path = m.path) : SameBut dir M' a b := by
  intro p hp
  refine h p fun k m a hk hne => ?_
  obtain ⟨k', m', a', h1, h2⟩ := hM k m a hk
  have := hp k' m' a' h1 (by rw [h2]; exact hne)
  unfold absPath at this ⊢
  rw [h2] at this; exact this

/-! ### Frames -/

theorem OnDisk.frame {dir : Nat} {fs fs' : FS} {m : Meta} {a : Arr} (h : OnDisk C dir fs m a)
    (hf : m.ctype = .specified → fs' (absPath dir m) = fs (absPath dir m)) : OnDisk C dir fs' m a := by
  intro hs
  obtain ⟨f, h1, h2⟩ := h hs
  exact ⟨f, by rw [hf hs]; exact h1, h2⟩

theorem EntryOk.frame {dir : Nat} {fs fs' : FS} {e : Entry} {m : Meta} {a : Arr} (h : EntryOk C dir fs e m a)
    (hf : m.ctype = .specified → fs' (absPath dir m) = fs (absPath dir m)) : EntryOk C dir fs' e m a where
  id := h.id
  path := h.path
  ctype := h.ctype
  ok := h.ok
  stat := by
    have hs := h.stat
    split at hs
    · exact ⟨hs.1, hs.2.frame hf⟩
    · exact hs
    · obtain ⟨h1, h2, b, f, h3, h4, h5⟩ := hs
      exact ⟨h1, h2, b, f, h3, by rw [hf h2]; exact h4, h5⟩

theorem EntryOk.info {dir : Nat} {fs : FS} {e : Entry} {m : Meta} {a : Arr} (h : EntryOk C dir fs e m a) :
    absPath dir e.info = absPath dir m := by unfold absPath; rw [h.path]

/-- DistributedNDVecArray.hxx 364-409: after the outstanding operation, the file holds the contents. -/
theorem descope_ok (hC : C.Ok) {M : Chunks} (hM : M.Ok C) {dir : Nat} {fs : FS} {e : Entry} {k : Nat} {m : Meta} {a : Arr}
    (hk : M k = some (m, a)) (h : EntryOk C dir fs e m a) :
    ∃ fs', descope C dir fs e = .ok fs' ∧ OnDisk C dir fs' m a ∧ ∀ p, m.path = [] ∨ p ≠ absPath dir m → fs' p = fs p := by
  unfold descope
  by_cases hp : e.info.path = []
  · rw [if_pos hp]
    have hns : m.ctype ≠ .specified := fun hs => hM.spec k m a hk hs (by rw [← h.path]; exact hp)
    refine ⟨fs, ?_, fun hs => absurd hs hns, fun _ _ => rfl⟩
    rw [h.ctype]; simp [hns]
  · rw [if_neg hp]
    have hst := h.stat
    cases hs : e.stat with
    | nothing => rw [hs] at hst; exact ⟨fs, rfl, hst.2, fun _ _ => rfl⟩
    | serialize =>
      rw [hs] at hst
      obtain ⟨f, h1, h2⟩ := ser_holds hC h.ok
      refine ⟨fs.set (absPath dir e.info) (some f), ?_, ?_, ?_⟩
      · simp only [h1, Res.ok_bind]
      · intro _; exact ⟨f, by rw [h.info]; simp [FS.set], holds_congr h2 hst⟩
      · rintro p (h3 | h3)
        · rw [h.path] at hp; exact absurd h3 hp
        · rw [h.info]; simp [FS.set, h3]
    | append ax =>
      rw [hs] at hst
      obtain ⟨rfl, h2, b, f, h3, h4, h5, h6, h7⟩ := hst
      obtain ⟨f', g1, g2⟩ := app_holds hC h3 h.ok h6 h5
      refine ⟨fs.set (absPath dir e.info) (some f'), ?_, ?_, ?_⟩
      · simp only [h.info, h4, g1, Res.ok_bind]
      · intro _; exact ⟨f', by rw [h.info]; simp [FS.set], holds_congr g2 h7⟩
      · rintro p (h3 | h3)
        · rw [h.path] at hp; exact absurd h3 hp
        · rw [h.info]; simp [FS.set, h3]

theorem absPath_ne {M : Chunks} (hM : M.Ok C) {dir : Nat} {k k' : Nat} {m m' : Meta} {a a' : Arr} (h : M k = some (m, a)) (h' : M k' = some (m', a'))
    (hs : m'.ctype = .specified) (hkk : k' ≠ k) : absPath dir m' ≠ absPath dir m := by
  intro he
  have : m'.path = m.path := by
    unfold absPath at he
    simpa using he
  exact hkk (hM.inj k' m' a' k m a h' h (hM.spec k' m' a' h' hs) this)

theorem keyGone_sub {K V : Type} [DecidableEq K] {k : K} {s : List (K × V)} {p : K × V} (h : p ∈ keyGone k s) : p ∈ s ∧ p.1 ≠ k := by
  unfold keyGone at h; simpa using h
theorem mem_keyGone' {K V : Type} [DecidableEq K] {k : K} {s : List (K × V)} {p : K × V} (h : p ∈ s) (hk : p.1 ≠ k) : p ∈ keyGone k s := by
  unfold keyGone; simp [h, hk]
theorem keyGone_key {K V : Type} [DecidableEq K] {k : K} {s : List (K × V)} {j : K} : j ∈ (keyGone k s).map Prod.fst ↔ j ∈ s.map Prod.fst ∧ j ≠ k := by
  simp only [List.mem_map]
  constructor
  · rintro ⟨p, h1, rfl⟩; have := keyGone_sub h1; exact ⟨⟨p, this.1, rfl⟩, this.2⟩
  · rintro ⟨⟨p, h1, rfl⟩, h2⟩; exact ⟨p, mem_keyGone' h1 h2, rfl⟩

/-- Dropping an entry whose operation has been carried out. -/
theorem CInv.drop {M : Chunks} (hM : M.Ok C) {cc cc' : CC} {fs fs' : FS} {s s' : List (Nat × Entry)} (h : CInv C M cc fs s) {k : Nat} {m : Meta} {a : Arr}
    (hk : M k = some (m, a)) (hdir : cc'.dir = cc.dir) (hrel : CRel (max 1 C.size) cc'.cache s') (hsub : ∀ p ∈ s', p ∈ s ∧ p.1 ≠ k)
    (hkeys : ∀ p ∈ s, p.1 ≠ k → p ∈ s') (hd : OnDisk C cc.dir fs' m a) (hf : ∀ p, m.path = [] ∨ p ≠ absPath cc.dir m → fs' p = fs p) :
    CInv C M cc' fs' s' where
  rel := hrel
  cached := by
    intro j e hj
    obtain ⟨h1, h2⟩ := hsub _ hj
    obtain ⟨mj, aj, h3, h4⟩ := h.cached j e h1
    exact ⟨mj, aj, h3, by rw [hdir]; exact h4.frame fun hs => hf _ (Or.inr (absPath_ne hM hk h3 hs h2))⟩
  disk := by
    intro j mj aj hj hn
    rw [hdir]
    by_cases hjk : j = k
    · subst hjk; rw [hk] at hj; cases hj; exact hd
    · refine (h.disk j mj aj hj fun hm => hn ?_).frame fun hs => hf _ (Or.inr (absPath_ne hM hk hj hs hjk))
      obtain ⟨p, h1, rfl⟩ := List.mem_map.1 hm
      exact List.mem_map.2 ⟨p, hkeys p h1 hjk, rfl⟩

theorem sameBut_of {M : Chunks} {dir : Nat} {fs fs' : FS} {k : Nat} {m : Meta} {a : Arr} (hk : M k = some (m, a))
    (hf : ∀ p, m.path = [] ∨ p ≠ absPath dir m → fs' p = fs p) : SameBut dir M fs fs' := by
  intro p hp
  by_cases hm : m.path = []
  · exact hf p (Or.inl hm)
  · exact hf p (Or.inr (hp k m a hk hm))

theorem makeRoom_ok (hC : C.Ok) {M : Chunks} (hM : M.Ok C) {cc : CC} {fs : FS} {s : List (Nat × Entry)} (h : CInv C M cc fs s) :
    ∃ cc' fs' s', makeRoom C cc fs = .ok (cc', fs') ∧ cc'.dir = cc.dir ∧ CInv C M cc' fs' s' ∧ s'.length < max 1 C.size ∧ (∀ p ∈ s', p ∈ s) ∧
      SameBut cc.dir M fs fs' := by
  unfold makeRoom
  rw [h.rel.hasFree]
  by_cases hl : s.length < max 1 C.size
  · exact ⟨cc, fs, s, by simp [hl], rfl, h, hl, fun _ hp => hp, .refl _⟩
  · rw [if_neg (by simpa using hl)]
    have hle := h.rel.le
    have hpos := h.rel.pos
    cases s with
    | nil => simp at hl
    | cons p s =>
      obtain ⟨r, h1, h2, h3⟩ := h.rel.evictOldest (by omega)
      obtain ⟨m, a, h4, h5⟩ := h.cached p.1 p.2 (by simp)
      obtain ⟨fs', h6, h7, h8⟩ := descope_ok hC hM h4 h5
      have hnd := h.rel.nodup
      rw [List.map_cons, List.nodup_cons] at hnd
      refine ⟨{ cc with cache := r.1 }, fs', s, ?_, rfl, ?_, by simp only [List.length_cons] at hle; omega, fun q hq => List.mem_cons_of_mem _ hq, sameBut_of h4 h8⟩
      · simp only [h1, Res.ok_bind, h2, h6]
      · refine h.drop hM h4 rfl h3 ?_ ?_ h7 h8
        · intro q hq
          exact ⟨List.mem_cons_of_mem _ hq, fun he => hnd.1 (he ▸ List.mem_map.2 ⟨q, hq, rfl⟩)⟩
        · intro q hq hne
          rcases List.mem_cons.1 hq with rfl | hq
          · exact absurd rfl hne
          · exact hq

theorem Chunks.put_self (M : Chunks) (k : Nat) (v) : M.put k v k = v := by simp [Chunks.put]
theorem Chunks.put_ne (M : Chunks) {k j : Nat} (v) (h : j ≠ k) : M.put k v j = M j := by simp [Chunks.put, h]

theorem Chunks.Ok.erase {M : Chunks} (h : M.Ok C) (k : Nat) : (M.put k none).Ok C := by
  have key : ∀ j v, M.put k none j = some v → M j = some v := by
    intro j v; unfold Chunks.put; split <;> simp
  exact ⟨fun j m a hj => h.id j m a (key _ _ hj), fun j m a hj => h.arr j m a (key _ _ hj), fun j m a hj => h.spec j m a (key _ _ hj),
    fun j m a hj => h.null j m a (key _ _ hj), fun j m a j' m' a' hj hj' => h.inj j m a j' m' a' (key _ _ hj) (key _ _ hj')⟩

/-- Forgetting a chunk that is not in the cache. -/
theorem CInv.erase {M : Chunks} {cc : CC} {fs : FS} {s : List (Nat × Entry)} (h : CInv C M cc fs s) {k : Nat} (hk : k ∉ s.map Prod.fst) :
    CInv C (M.put k none) cc fs s where
  rel := h.rel
  cached := by
    intro j e hj
    have : j ≠ k := fun he => hk (he ▸ List.mem_map.2 ⟨_, hj, rfl⟩)
    rw [Chunks.put_ne _ _ this]; exact h.cached j e hj
  disk := by
    intro j m a hj
    have : j ≠ k := by rintro rfl; rw [Chunks.put_self] at hj; cases hj
    rw [Chunks.put_ne _ _ this] at hj; exact h.disk j m a hj

/-- A new entry is added to the cache. -/
theorem CInv.add {M : Chunks} {cc cc' : CC} {fs : FS} {s : List (Nat × Entry)} (h : CInv C M cc fs s) {k : Nat} {e : Entry} {m : Meta} {a : Arr}
    (hk : k ∉ s.map Prod.fst) (hdir : cc'.dir = cc.dir) (hrel : CRel (max 1 C.size) cc'.cache (s ++ [(k, e)])) (he : EntryOk C cc.dir fs e m a) :
    CInv C (M.put k (some (m, a))) cc' fs (s ++ [(k, e)]) where
  rel := hrel
  cached := by
    intro j e' hj
    rw [hdir]
    rcases List.mem_append.1 hj with hj | hj
    · have : j ≠ k := fun he => hk (he ▸ List.mem_map.2 ⟨_, hj, rfl⟩)
      rw [Chunks.put_ne _ _ this]; exact h.cached j e' hj
    · rw [List.mem_singleton] at hj; cases hj
      exact ⟨m, a, Chunks.put_self _ _ _, he⟩
  disk := by
    intro j mj aj hj hn
    have : j ≠ k := by rintro rfl; simp at hn
    rw [Chunks.put_ne _ _ this] at hj
    rw [hdir]; exact h.disk j mj aj hj fun hm => hn (by rw [List.map_append]; exact List.mem_append_left _ hm)

/-- `insert_into_cache`; the chunk may be known under other metadata with the same file. -/
theorem insertInto_ok' (hC : C.Ok) {M : Chunks} {cc : CC} {fs : FS} {s : List (Nat × Entry)} (h : CInv C M cc fs s) {m m' : Meta} {a : Arr} {v : Arr}
    {st : Stat} (hM' : (M.put m.id (some (m', a))).Ok C) (hM : M.Ok C) (hk : m.id ∉ s.map Prod.fst) (hv : v.Ok C)
    (he : ∀ b, b.Ok C → AEq C.vd v b → EntryOk C cc.dir fs ⟨m, b, st⟩ m' a) (hnone : M m.id = none) :
    ∃ cc' fs' s', insertInto C cc fs m v st = .ok (cc', fs') ∧ cc'.dir = cc.dir ∧ CInv C (M.put m.id (some (m', a))) cc' fs' s' ∧
      SameBut cc.dir M fs fs' := by
  obtain ⟨cc1, fs1, s1, h1, h2, h3, h4, h5, h6⟩ := makeRoom_ok hC hM h
  have hk1 : m.id ∉ s1.map Prod.fst := by
    intro hm; obtain ⟨p, hp, he⟩ := List.mem_map.1 hm
    exact hk (he ▸ List.mem_map.2 ⟨p, h5 p hp, rfl⟩)
  obtain ⟨r, g1, g2⟩ := h3.rel.insertRef hk1 h4
  obtain ⟨b, g3, g4, g5⟩ := assign_spec hC hv (r.1.payload r.2).data
  refine ⟨{ cc1 with cache := Cache.store r.1 r.2 ⟨m, b, st⟩ }, fs1, s1 ++ [(m.id, ⟨m, b, st⟩)], ?_, h2, ?_, h6⟩
  · unfold insertInto assignArr
    rw [h.rel.contains]
    simp only [hk, decide_false, Bool.not_false, Res.assert_true, Res.ok_bind, h1, g1, g3]; rfl
  · refine h3.add hk1 rfl (g2 _) ?_
    rw [h2]
    refine (he b g4 g5).frame fun hs => h6 _ fun j mj aj hj hp heq => ?_
    have hjk : j ≠ m.id := by rintro rfl; rw [hnone] at hj; cases hj
    have hsame : m'.path = mj.path := by unfold absPath at heq; simpa using heq
    exact hjk (hM'.inj _ _ _ _ _ _ (by rw [Chunks.put_ne _ _ hjk]; exact hj) (Chunks.put_self M m.id _) hp hsame.symm)

theorem insertInto_ok (hC : C.Ok) {M : Chunks} {cc : CC} {fs : FS} {s : List (Nat × Entry)} (h : CInv C M cc fs s) {m : Meta} {a : Arr} {v : Arr}
    {st : Stat} (hM' : (M.put m.id (some (m, a))).Ok C) (hM : M.Ok C) (hk : m.id ∉ s.map Prod.fst) (hv : v.Ok C)
    (he : ∀ b, b.Ok C → AEq C.vd v b → EntryOk C cc.dir fs ⟨m, b, st⟩ m a) (hnone : M m.id = none) :
    ∃ cc' fs' s', insertInto C cc fs m v st = .ok (cc', fs') ∧ cc'.dir = cc.dir ∧ CInv C (M.put m.id (some (m, a))) cc' fs' s' ∧
      SameBut cc.dir M fs fs' := insertInto_ok' hC h hM' hM hk hv he hnone

/-- `deserialize_into_cache`. -/
theorem deserInto_ok (hC : C.Ok) {M : Chunks} {cc : CC} {fs : FS} {s : List (Nat × Entry)} (hM : M.Ok C) (h : CInv C M cc fs s) {m : Meta} {a : Arr}
    (hm : M m.id = some (m, a)) (hk : m.id ∉ s.map Prod.fst) :
    ∃ cc' fs' s' b, deserInto C cc fs m = .ok (cc', fs', b) ∧ cc'.dir = cc.dir ∧ CInv C M cc' fs' s' ∧ b.Ok C ∧ AEq C.vd a b ∧
      SameBut cc.dir M fs fs' := by
  obtain ⟨cc1, fs1, s1, h1, h2, h3, h4, h5, h6⟩ := makeRoom_ok hC hM h
  have hk1 : m.id ∉ s1.map Prod.fst := by
    intro hm; obtain ⟨p, hp, he⟩ := List.mem_map.1 hm
    exact hk (he ▸ List.mem_map.2 ⟨p, h5 p hp, rfl⟩)
  obtain ⟨r, g1, g2⟩ := h3.rel.insertRef hk1 h4
  have hd := h3.disk _ _ _ hm hk1
  have hao := hM.arr _ _ _ hm
  obtain ⟨b, g3, g4, g5⟩ : ∃ b, loadChunk C cc1.dir fs1 m (r.1.payload r.2).data = .ok b ∧ b.Ok C ∧ AEq C.vd a b := by
    unfold loadChunk loadFile
    cases hct : m.ctype with
    | specified =>
      obtain ⟨f, k1, k2⟩ := hd hct
      obtain ⟨b, k3, k4, k5⟩ := des_holds hC hao k2 (r.1.payload r.2).data
      refine ⟨b, ?_, k4, k5⟩
      simp only [k1, k3, Res.ok_bind]; rfl
    | all_null =>
      obtain ⟨_, k2⟩ := hM.null _ _ _ hm hct
      exact ⟨_, rfl, k2.symm.ok hC hao (by simp [zeros]), k2.symm⟩
  refine ⟨{ cc1 with cache := Cache.store r.1 r.2 ⟨m, b, .nothing⟩ }, fs1, s1 ++ [(m.id, ⟨m, b, .nothing⟩)], b, ?_, h2, ?_, g4, g5, h6⟩
  · unfold deserInto
    simp only [h1, g1, g3, Res.ok_bind]
  · have := h3.add (cc' := { cc1 with cache := Cache.store r.1 r.2 ⟨m, b, .nothing⟩ }) (m := m) (a := a) hk1 rfl (g2 _)
      ⟨rfl, rfl, rfl, g4, g5.symm, hd⟩
    have e : M.put m.id (some (m, a)) = M := by
      funext j; unfold Chunks.put; split
      · rename_i hj; rw [hj, hm]
      · rfl
    rw [e] at this; exact this

/-- `FlushCache`. -/
theorem flush_loop (hC : C.Ok) {M : Chunks} (hM : M.Ok C) : ∀ (ks : List Nat) {cc : CC} {fs : FS} {s : List (Nat × Entry)}, CInv C M cc fs s →
    ks.Perm (s.map Prod.fst) → ∃ cc' fs', runLoop (flushOne C) ks (cc, fs) = .ok (cc', fs') ∧ cc'.dir = cc.dir ∧ CInv C M cc' fs' [] ∧ SameBut cc.dir M fs fs'
  | [], cc, fs, s, h, hp => by
      have : s = [] := by
        have := hp.length_eq; simp at this; exact List.length_eq_zero_iff.1 this.symm
      subst this
      exact ⟨cc, fs, rfl, rfl, h, .refl _⟩
  | k :: ks, cc, fs, s, h, hp => by
      obtain ⟨⟨k', e⟩, hmem, heq⟩ := List.mem_map.1 (hp.mem_iff.1 (List.mem_cons_self ..))
      simp only at heq; subst heq
      obtain ⟨r, h1, h2, h3⟩ := h.rel.evict hmem
      obtain ⟨m, a, h4, h5⟩ := h.cached _ _ hmem
      obtain ⟨fs1, h6, h7, h8⟩ := descope_ok hC hM h4 h5
      have hinv : CInv C M { cc with cache := r.1 } fs1 (keyGone k' s) :=
        h.drop hM h4 rfl h3 (fun p hp => keyGone_sub hp) (fun p hp hne => mem_keyGone' hp hne) h7 h8
      have hperm : ks.Perm ((keyGone k' s).map Prod.fst) := by
        have hnd := h.rel.nodup
        have hnk : (k' :: ks).Nodup := hp.nodup_iff.2 hnd
        rw [List.nodup_cons] at hnk
        rw [List.perm_ext_iff_of_nodup hnk.2 (hinv.rel.nodup)]
        intro j
        rw [keyGone_key, ← hp.mem_iff, List.mem_cons]
        constructor
        · intro hj; exact ⟨Or.inr hj, fun he => hnk.1 (he ▸ hj)⟩
        · rintro ⟨hj | hj, hne⟩
          · exact absurd hj hne
          · exact hj
      obtain ⟨cc', fs', g1, g2, g3, g4⟩ := flush_loop hC hM ks hinv hperm
      refine ⟨cc', fs', ?_, g2, g3, (sameBut_of h4 h8).trans g4⟩
      rw [runLoop]
      unfold flushOne
      simp only [h1, h2, h6, Res.ok_bind]
      exact g1

theorem flush_ok (hC : C.Ok) {M : Chunks} (hM : M.Ok C) {cc : CC} {fs : FS} {s : List (Nat × Entry)} (h : CInv C M cc fs s) :
    ∃ cc' fs', flush C cc fs = .ok (cc', fs') ∧ cc'.dir = cc.dir ∧ CInv C M cc' fs' [] ∧ SameBut cc.dir M fs fs' :=
  flush_loop hC hM _ h h.rel.contained

theorem flushIf_ok (hC : C.Ok) {M : Chunks} (hM : M.Ok C) {cc : CC} {fs : FS} {s : List (Nat × Entry)} (h : CInv C M cc fs s) :
    ∃ cc' fs' s', flushIfUncached C cc fs = .ok (cc', fs') ∧ cc'.dir = cc.dir ∧ CInv C M cc' fs' s' ∧ SameBut cc.dir M fs fs' ∧ (C.size = 0 → s' = []) := by
  unfold flushIfUncached
  split
  · obtain ⟨cc', fs', h1, h2, h3, h4⟩ := flush_ok hC hM h
    exact ⟨cc', fs', [], h1, h2, h3, h4, fun _ => rfl⟩
  · rename_i hz
    exact ⟨cc, fs, s, rfl, rfl, h, .refl _, fun h => absurd h hz⟩

end Verif.Dist
