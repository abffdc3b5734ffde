import Verif.Dist.Props29
/-
C48: crashes while a library is written to disk.  A crash loses the objects in memory and keeps the files; each file is written as a whole, so the
crash points are the moments between two file operations.
-/
namespace Verif.Dist
open Verif Verif.ND Verif.Tree Verif.Bytes Verif.Stream Verif.NullSup

variable {C : Cfg} {S : Sorter} {Z : SlabSize}

/-! ### The program, stopped -/

/-- The files after the first `n` steps of the destructor of a library (see `Lib.destroy`): one step per chunk in the cache
    (DistributedNDVecArray.hxx 192-195), then the index. -/
def closeCrash (C : Cfg) (lib : Lib) (fs : FS) (n : Nat) : Res FS :=
  if n ≤ (Cache.containedElements lib.cc.cache).length then
    (runLoop (flushOne C) ((Cache.containedElements lib.cc.cache).take n) (lib.cc, fs)).bind fun q => .ok q.2
  else lib.destroy C fs

/-- The files after the first `n` steps of `FlushLibrary` (see `Lib.flush`): the index, then one step per chunk in the cache. -/
def flushCrash (C : Cfg) (lib : Lib) (fs : FS) : Nat → Res FS
  | 0 => .ok fs
  | n + 1 => (lib.idx.flush C fs).bind fun fs1 =>
      (runLoop (flushOne C) ((Cache.containedElements lib.cc.cache).take n) (lib.cc, fs1)).bind fun q => .ok q.2

/-! ### Specification -/

/-- The index file of the directory, if there is one, is the serialization of records (which a library opened now reads), and the file of every
    chunk that has one according to its record exists. -/
def IndexBacked (C : Cfg) (fs : FS) (d : Nat) : Prop :=
  fs (d, .index) = none ∨ ∃ ms : List Meta, fs (d, .index) = some ((vector C.hst (metaCodec C.hst C.dims)).ser ms) ∧
    (ms.length < 2 ^ 64 → loadEntries C fs d = .ok ms) ∧ ∀ m ∈ ms, m.ctype = .specified → fs (d, .chunk m.path) ≠ none

/-! ### Proof: files only appear -/

/-- No file disappears and no index changes. -/
def Grows (fs fs' : FS) : Prop := (∀ p, fs p ≠ none → fs' p ≠ none) ∧ ∀ d, fs' (d, .index) = fs (d, .index)

theorem Grows.refl (fs : FS) : Grows fs fs := ⟨fun _ h => h, fun _ => rfl⟩
theorem Grows.trans {a b c : FS} (h : Grows a b) (h' : Grows b c) : Grows a c := ⟨fun p hp => h'.1 p (h.1 p hp), fun d => (h'.2 d).trans (h.2 d)⟩

theorem Grows.set (fs : FS) (d : Nat) (m : Meta) (f : List Nat) : Grows fs (fs.set (absPath d m) (some f)) := by
  refine ⟨fun p hp => ?_, fun d' => ?_⟩
  · unfold FS.set
    split
    · simp
    · exact hp
  · unfold FS.set absPath
    rw [if_neg (fun e => by cases e)]

theorem descope_grows {d : Nat} {fs fs' : FS} {e : Entry} (h : descope C d fs e = .ok fs') : Grows fs fs' := by
  unfold descope at h
  split at h
  · obtain ⟨_, _, h⟩ := Res.bind_eq_ok.1 h; cases h; exact .refl _
  · split at h
    · obtain ⟨f, _, h⟩ := Res.bind_eq_ok.1 h; cases h; exact .set _ _ _ _
    · split at h
      · cases h
      · obtain ⟨f, _, h⟩ := Res.bind_eq_ok.1 h; cases h; exact .set _ _ _ _
    · cases h; exact .refl _

theorem sync_grows {d : Nat} {fs : FS} {e : Entry} {q : FS × Entry} (h : sync C d fs e = .ok q) : Grows fs q.1 := by
  unfold sync at h
  split at h
  · obtain ⟨_, _, h⟩ := Res.bind_eq_ok.1 h
    obtain ⟨_, _, h⟩ := Res.bind_eq_ok.1 h; cases h; exact .refl _
  · split at h
    · cases h
    · split at h
      · obtain ⟨f, _, h⟩ := Res.bind_eq_ok.1 h
        obtain ⟨_, _, h⟩ := Res.bind_eq_ok.1 h; cases h; exact .set _ _ _ _
      · cases h; exact .refl _

theorem makeRoom_grows {cc : CC} {fs : FS} {q : CC × FS} (h : makeRoom C cc fs = .ok q) : Grows fs q.2 := by
  unfold makeRoom at h
  split at h
  · cases h; exact .refl _
  · obtain ⟨_, _, h⟩ := Res.bind_eq_ok.1 h
    obtain ⟨_, h1, h⟩ := Res.bind_eq_ok.1 h; cases h; exact descope_grows h1

theorem insertInto_grows {cc : CC} {fs : FS} {m : Meta} {a : Arr} {s : Stat} {q : CC × FS} (h : insertInto C cc fs m a s = .ok q) : Grows fs q.2 := by
  unfold insertInto at h
  obtain ⟨_, _, h⟩ := Res.bind_eq_ok.1 h
  obtain ⟨_, h1, h⟩ := Res.bind_eq_ok.1 h
  obtain ⟨_, _, h⟩ := Res.bind_eq_ok.1 h
  obtain ⟨_, _, h⟩ := Res.bind_eq_ok.1 h
  cases h; have := makeRoom_grows h1; exact this

theorem deserInto_grows {cc : CC} {fs : FS} {m : Meta} {q : CC × FS × Arr} (h : deserInto C cc fs m = .ok q) : Grows fs q.2.1 := by
  unfold deserInto at h
  obtain ⟨_, h1, h⟩ := Res.bind_eq_ok.1 h
  obtain ⟨_, _, h⟩ := Res.bind_eq_ok.1 h
  obtain ⟨_, _, h⟩ := Res.bind_eq_ok.1 h
  cases h; exact makeRoom_grows h1

theorem runLoop_rel {σ ι : Type} {f : ι → σ → Res σ} {R : σ → σ → Prop} (hr : ∀ s, R s s) (ht : ∀ a b c, R a b → R b c → R a c)
    (hf : ∀ i s s', f i s = .ok s' → R s s') : ∀ (is : List ι) {s s' : σ}, runLoop f is s = .ok s' → R s s'
  | [], s, s', h => by cases h; exact hr _
  | i :: is, s, s', h => by
      obtain ⟨s1, h1, h2⟩ := Res.bind_eq_ok.1 h
      exact ht _ _ _ (hf i s s1 h1) (runLoop_rel hr ht hf is h2)

theorem flushOne_grows {k : Nat} {q q' : CC × FS} (h : flushOne C k q = .ok q') : Grows q.2 q'.2 := by
  unfold flushOne at h
  obtain ⟨_, _, h⟩ := Res.bind_eq_ok.1 h
  obtain ⟨_, h1, h⟩ := Res.bind_eq_ok.1 h
  cases h; exact descope_grows h1

theorem flushLoop_grows {ks : List Nat} {q q' : CC × FS} (h : runLoop (flushOne C) ks q = .ok q') : Grows q.2 q'.2 :=
  runLoop_rel (R := fun a b => Grows a.2 b.2) (fun _ => .refl _) (fun a b c (h : Grows a.2 b.2) (h' : Grows b.2 c.2) => h.trans h') (fun _ _ _ h => flushOne_grows h) ks h

theorem flushIf_grows {cc : CC} {fs : FS} {q : CC × FS} (h : flushIfUncached C cc fs = .ok q) : Grows fs q.2 := by
  unfold flushIfUncached at h
  split at h
  · exact flushLoop_grows h
  · cases h; exact .refl _

theorem registerNew_grows {cc : CC} {fs : FS} {m : Meta} {a : Arr} {q : CC × FS} (h : registerNew C cc fs m a = .ok q) : Grows fs q.2 := by
  unfold registerNew at h
  obtain ⟨_, h1, h⟩ := Res.bind_eq_ok.1 h
  exact (insertInto_grows h1).trans (flushIf_grows h)

theorem replaceChunk_grows {cc : CC} {fs : FS} {m m' : Meta} {a : Arr} {q : CC × FS} (h : replaceChunk C cc fs m m' a = .ok q) : Grows fs q.2 := by
  unfold replaceChunk at h
  obtain ⟨_, _, h⟩ := Res.bind_eq_ok.1 h
  obtain ⟨_, _, h⟩ := Res.bind_eq_ok.1 h
  exact registerNew_grows h

theorem retrieve_grows {cc : CC} {fs : FS} {m : Meta} {q : CC × FS × Arr} (h : retrieve C cc fs m = .ok q) : Grows fs q.2.1 := by
  unfold retrieve at h
  split at h
  · obtain ⟨_, _, h⟩ := Res.bind_eq_ok.1 h
    simp only at h
    split at h
    · obtain ⟨_, h1, h⟩ := Res.bind_eq_ok.1 h
      cases h; exact sync_grows h1
    · cases h; exact .refl _
  · exact deserInto_grows h

theorem appendPending_grows {d : Nat} {fs : FS} {e : Entry} {ax axis : Nat} {m : Meta} {s : Arr} {q : FS × Entry}
    (h : appendPending C d fs e ax axis m s = .ok q) : Grows fs q.1 := by
  unfold appendPending at h
  obtain ⟨q1, h1, h⟩ := Res.bind_eq_ok.1 h
  obtain ⟨_, _, h⟩ := Res.bind_eq_ok.1 h
  cases h
  split at h1
  · obtain ⟨_, h2, h1⟩ := Res.bind_eq_ok.1 h1
    cases h1; have := sync_grows h2; exact this
  · cases h1; exact .refl _

theorem appendChunk_grows {axis : Nat} {cc : CC} {fs : FS} {m : Meta} {s : Arr} {q : CC × FS × Meta} (h : appendChunk C axis cc fs m s = .ok q) : Grows fs q.2.1 := by
  unfold appendChunk at h
  split at h
  · cases h
  · obtain ⟨q1, h1, h⟩ := Res.bind_eq_ok.1 h
    obtain ⟨q2, h2, h⟩ := Res.bind_eq_ok.1 h
    cases h
    refine Grows.trans ?_ (flushIf_grows h2)
    split at h1
    · obtain ⟨_, _, h1⟩ := Res.bind_eq_ok.1 h1
      simp only at h1
      split at h1
      · obtain ⟨_, _, h1⟩ := Res.bind_eq_ok.1 h1
        exact insertInto_grows h1
      · obtain ⟨_, _, h1⟩ := Res.bind_eq_ok.1 h1
        cases h1; exact .refl _
      · obtain ⟨_, h3, h1⟩ := Res.bind_eq_ok.1 h1
        cases h1; exact appendPending_grows h3
    · exact insertInto_grows h1

theorem libRegister_grows {lib : Lib} {fs : FS} {uuid : List Nat} {a : Arr} {start stop : List Nat} {o : Nat} {opt : Bool} {q : Lib × FS}
    (h : lib.register C S fs uuid a start stop o opt = .ok q) : Grows fs q.2 := by
  unfold Lib.register at h
  obtain ⟨_, _, h⟩ := Res.bind_eq_ok.1 h
  obtain ⟨_, _, h⟩ := Res.bind_eq_ok.1 h
  obtain ⟨_, _, h⟩ := Res.bind_eq_ok.1 h
  obtain ⟨_, h1, h⟩ := Res.bind_eq_ok.1 h
  cases h; exact registerNew_grows h1

theorem libAppend_grows {axis : Nat} {lib : Lib} {fs : FS} {start : List Nat} {s : Arr} {q : Lib × FS} (h : lib.append C axis fs start s = .ok q) : Grows fs q.2 := by
  unfold Lib.append at h
  obtain ⟨_, _, h⟩ := Res.bind_eq_ok.1 h
  split at h
  · cases h
  · split at h
    · cases h
    · obtain ⟨_, h1, h⟩ := Res.bind_eq_ok.1 h
      obtain ⟨_, _, h⟩ := Res.bind_eq_ok.1 h
      cases h; exact appendChunk_grows h1

theorem libGet_grows {lib : Lib} {fs : FS} {i : List Nat} {q : Lib × FS × List Nat} (h : lib.get C fs i = .ok q) : Grows fs q.2.1 := by
  unfold Lib.get at h
  obtain ⟨_, _, h⟩ := Res.bind_eq_ok.1 h
  split at h
  · cases h
  · obtain ⟨_, h1, h⟩ := Res.bind_eq_ok.1 h
    obtain ⟨_, _, h⟩ := Res.bind_eq_ok.1 h
    cases h; exact retrieve_grows h1

theorem libFill_grows {lib : Lib} {fs : FS} {hd : Hdr} {buf lo hi out : List Nat} {q : Lib × FS × List Nat} (h : lib.fillArray C fs hd buf lo hi out = .ok q) :
    Grows fs q.2.1 := by
  unfold Lib.fillArray at h
  obtain ⟨_, _, h⟩ := Res.bind_eq_ok.1 h
  obtain ⟨_, _, h⟩ := Res.bind_eq_ok.1 h
  obtain ⟨_, _, h⟩ := Res.bind_eq_ok.1 h
  obtain ⟨_, h1, h⟩ := Res.bind_eq_ok.1 h
  cases h
  refine runLoop_rel (R := fun a b => Grows a.2.1 b.2.1) (fun _ => .refl _) (fun a b c (h : Grows a.2.1 b.2.1) (h' : Grows b.2.1 c.2.1) => h.trans h') (fun m s s' h => ?_) _ h1
  unfold fillOne at h
  simp only at h
  split at h
  · obtain ⟨_, _, h⟩ := Res.bind_eq_ok.1 h
    cases h; exact .refl _
  · obtain ⟨_, h2, h⟩ := Res.bind_eq_ok.1 h
    obtain ⟨_, _, h⟩ := Res.bind_eq_ok.1 h
    cases h; exact retrieve_grows h2

theorem libSwap_grows {lib : Lib} {fs : FS} {x y : Nat} {q : Lib × FS} (h : lib.swapAxes C S fs x y = .ok q) : Grows fs q.2 := by
  unfold Lib.swapAxes at h
  obtain ⟨_, _, h⟩ := Res.bind_eq_ok.1 h
  obtain ⟨_, h1, h⟩ := Res.bind_eq_ok.1 h
  cases h
  refine runLoop_rel (R := fun a b => Grows a.2.1 b.2.1) (fun _ => .refl _) (fun a b c (h : Grows a.2.1 b.2.1) (h' : Grows b.2.1 c.2.1) => h.trans h') (fun m s s' h => ?_) _ h1
  unfold swapOne at h
  obtain ⟨_, h2, h⟩ := Res.bind_eq_ok.1 h
  obtain ⟨_, _, h⟩ := Res.bind_eq_ok.1 h
  obtain ⟨_, h3, h⟩ := Res.bind_eq_ok.1 h
  obtain ⟨_, _, h⟩ := Res.bind_eq_ok.1 h
  obtain ⟨_, _, h⟩ := Res.bind_eq_ok.1 h
  cases h; exact (retrieve_grows h2).trans (replaceChunk_grows h3)

theorem libLoop_grows {lib : Lib} {fs : FS} {lo hi : List Nat} {q : Lib × FS × List (List Nat × List Nat)} (h : lib.indexLoopRange C fs lo hi = .ok q) : Grows fs q.2.1 := by
  unfold Lib.indexLoopRange at h
  obtain ⟨_, _, h⟩ := Res.bind_eq_ok.1 h
  obtain ⟨_, h1, h⟩ := Res.bind_eq_ok.1 h
  cases h
  refine runLoop_rel (R := fun a b => Grows a.2.1 b.2.1) (fun _ => .refl _) (fun a b c (h : Grows a.2.1 b.2.1) (h' : Grows b.2.1 c.2.1) => h.trans h') (fun m s s' h => ?_) _ h1
  unfold loopOne at h
  obtain ⟨_, h2, h⟩ := Res.bind_eq_ok.1 h
  obtain ⟨_, _, h⟩ := Res.bind_eq_ok.1 h
  cases h; exact retrieve_grows h2

/-! ### Proof: every history -/

theorem IndexBacked.grows {fs fs' : FS} {d : Nat} (h : IndexBacked C fs d) (hg : Grows fs fs') : IndexBacked C fs' d := by
  rcases h with h | ⟨ms, h1, h2, h3⟩
  · exact .inl (by rw [hg.2]; exact h)
  · refine .inr ⟨ms, by rw [hg.2]; exact h1, fun hn => ?_, fun m hm hs => hg.1 _ (h3 m hm hs)⟩
    have := h2 hn
    unfold loadEntries at this ⊢
    rw [hg.2]; exact this

theorem IndexBacked.frame {fs fs' : FS} {d : Nat} (h : IndexBacked C fs d) (hf : ∀ n, fs' (d, n) = fs (d, n)) : IndexBacked C fs' d := by
  rcases h with h | ⟨ms, h1, h2, h3⟩
  · exact .inl (by rw [hf]; exact h)
  · refine .inr ⟨ms, by rw [hf]; exact h1, fun hn => ?_, fun m hm hs => by rw [hf]; exact h3 m hm hs⟩
    have := h2 hn
    unfold loadEntries at this ⊢
    rw [hf]; exact this

theorem Saved.backed {fs : FS} {d : Nat} {cs : List (Meta × Arr)} (h : Saved C fs d cs) : IndexBacked C fs d := by
  refine .inr ⟨cs.map Prod.fst, h.index, fun hn => load_ok h.chunky (by rw [List.length_map] at hn; exact hn) h.index, fun m hm hs => ?_⟩
  obtain ⟨c, hc, rfl⟩ := List.mem_map.1 hm
  have hk : chunksOf cs c.1.id = some (c.1, c.2) := chunksOf_of_mem h.chunky.ids hc
  obtain ⟨f, hf, _⟩ := h.disk _ _ _ hk hs
  show fs (absPath d c.1) ≠ none
  rw [hf]; simp

/-- All indices on disk. -/
structure BInv (C : Cfg) (S : Sorter) (Z : SlabSize) (st : MState) (w : World) : Prop where
  inv : WInv C S Z st w
  cur : ∀ l, w.cur = some l → IndexBacked C st.fs l.dir

theorem BInv.backed {st : MState} {w : World} (h : BInv C S Z st w) (d : Nat) : IndexBacked C st.fs d := by
  by_cases hd : ∃ l, w.cur = some l ∧ l.dir = d
  · obtain ⟨l, h1, h2⟩ := hd
    rw [← h2]; exact h.cur l h1
  · cases hk : w.disk d with
    | none => exact .inl (h.inv.index d hk fun l e e' => hd ⟨l, e, e'⟩)
    | some ps =>
      obtain ⟨cs, g, _⟩ := h.inv.disk d ps hk
      exact g.backed

theorem import_grows {lib : Lib} {fs : FS} {dir : Nat} {mv : Bool} {q : Lib × FS} (h : lib.import C S fs dir mv = .ok q) {d : Nat} (hd : lib.cc.dir = d) (hne : d ≠ dir) :
    q.2 (d, .index) = fs (d, .index) ∧ ∀ n, fs (d, .chunk n) ≠ none → q.2 (d, .chunk n) ≠ none := by
  unfold Lib.import at h
  obtain ⟨r, h1, h⟩ := Res.bind_eq_ok.1 h
  cases h
  unfold Index.import at h1
  obtain ⟨_, _, h1⟩ := Res.bind_eq_ok.1 h1
  obtain ⟨_, _, h1⟩ := Res.bind_eq_ok.1 h1
  cases h1
  have hidx : ∀ n, (if mv = true then fs.set (dir, .index) none else fs) (d, n) = fs (d, n) := by
    intro n
    split
    · unfold FS.set
      rw [if_neg (fun e => hne (Prod.ext_iff.1 e).1)]
    · rfl
  have hch : ∀ (g : Option (List Nat)) (f : Option (List Nat)), f ≠ none → (match g with | some x => some x | none => f) ≠ none := by
    intro g f hf; cases g
    · exact hf
    · simp
  subst hd
  constructor
  · show (importCache lib.cc _ dir mv).2 (lib.cc.dir, .index) = _
    unfold importCache
    simp only
    rw [← hidx .index]
    cases mv <;> rfl
  · intro n hn
    rw [← hidx (.chunk n)] at hn
    show (importCache lib.cc _ dir mv).2 (lib.cc.dir, .chunk n) ≠ none
    unfold importCache
    simp only
    cases mv
    · simp only [Bool.false_eq_true, if_false] at hn ⊢
      unfold copyFiles
      simp only [if_true]
      exact hch _ _ hn
    · simp only [if_true] at hn ⊢
      unfold moveFiles
      simp only [if_true]
      exact hch _ _ hn

theorem BInv.step (hC : C.Ok) {st : MState} {w : World} (h : BInv C S Z st w) (op : LOp) (hl : Legal C w op) :
    ∃ st' r, st.step C S op = .ok (st', r) ∧ Answer C w op r ∧ BInv C S Z st' (w.next C op) := by
  obtain ⟨st', r, e1, e2, e3⟩ := stepW_ok hC h.inv op hl
  refine ⟨st', r, e1, e2, e3, fun l' hl' => ?_⟩
  -- calls that only add files
  have grow : ∀ l, w.cur = some l → l'.dir = l.dir → Grows st.fs st'.fs → IndexBacked C st'.fs l'.dir := fun l h1 h2 h3 => by
    rw [h2]; exact (h.cur l h1).grows h3
  cases op with
  | «open» dir init =>
    have hfs : st'.fs = st.fs := by
      simp only [MState.step] at e1
      obtain ⟨_, _, e1⟩ := Res.bind_eq_ok.1 e1
      cases e1; rfl
    rw [hfs]; exact h.backed _
  | query q =>
    obtain ⟨l, h1, _⟩ := hl
    obtain ⟨lib, cs, a1, _⟩ := h.inv.opened l h1
    unfold World.next at hl'; rw [h1] at hl'; cases hl'
    have hfs : st'.fs = st.fs := by
      cases q <;>
      · simp only [MState.step, a1] at e1
        obtain ⟨_, _, e1⟩ := Res.bind_eq_ok.1 e1
        cases e1; rfl
    rw [hfs]; exact h.backed _
  | loop lo hi =>
    obtain ⟨l, h1, _⟩ := hl
    obtain ⟨lib, cs, a1, _⟩ := h.inv.opened l h1
    unfold World.next at hl'; rw [h1] at hl'; cases hl'
    simp only [MState.step, a1] at e1
    obtain ⟨_, g, e1⟩ := Res.bind_eq_ok.1 e1; cases e1
    exact grow l' h1 rfl (libLoop_grows g)
  | loopAll =>
    obtain ⟨l, _, h1, _⟩ := hl
    obtain ⟨lib, cs, a1, _⟩ := h.inv.opened l h1
    unfold World.next at hl'; rw [h1] at hl'; cases hl'
    simp only [MState.step, a1] at e1
    obtain ⟨_, g, e1⟩ := Res.bind_eq_ok.1 e1; cases e1
    unfold Lib.indexLoopAll at g
    obtain ⟨_, _, g⟩ := Res.bind_eq_ok.1 g
    exact grow l' h1 rfl (libLoop_grows (lib := { lib with idx := _ }) g)
  | close =>
    obtain ⟨l, h1⟩ := hl
    unfold World.next at hl'; rw [h1] at hl'; cases hl'
  | register uuid a start stop o opt =>
    obtain ⟨l, h1, _⟩ := hl
    obtain ⟨lib, cs, a1, _⟩ := h.inv.opened l h1
    unfold World.next at hl'; rw [h1] at hl'; cases hl'
    simp only [MState.step, a1] at e1
    obtain ⟨_, g, e1⟩ := Res.bind_eq_ok.1 e1; cases e1
    exact grow l h1 rfl (libRegister_grows g)
  | append start s =>
    obtain ⟨l, _, _, h1, _⟩ := hl
    obtain ⟨lib, cs, a1, _⟩ := h.inv.opened l h1
    unfold World.next at hl'; rw [h1] at hl'; cases hl'
    simp only [MState.step, a1] at e1
    obtain ⟨_, g, e1⟩ := Res.bind_eq_ok.1 e1; cases e1
    exact grow l h1 rfl (libAppend_grows g)
  | get i =>
    obtain ⟨l, _, h1, _⟩ := hl
    obtain ⟨lib, cs, a1, _⟩ := h.inv.opened l h1
    unfold World.next at hl'; rw [h1] at hl'
    cases hl'
    simp only [MState.step, a1] at e1
    obtain ⟨_, g, e1⟩ := Res.bind_eq_ok.1 e1; cases e1
    exact grow l' h1 rfl (libGet_grows g)
  | fill P s hd buf lo hi out =>
    obtain ⟨l, h1, _⟩ := hl
    obtain ⟨lib, cs, a1, _⟩ := h.inv.opened l h1
    unfold World.next at hl'; rw [h1] at hl'
    cases hl'
    simp only [MState.step, a1] at e1
    obtain ⟨_, g, e1⟩ := Res.bind_eq_ok.1 e1; cases e1
    exact grow l' h1 rfl (libFill_grows g)
  | flush =>
    obtain ⟨l, h1⟩ := hl
    obtain ⟨lib, cs, a1, a2, _, _, a5, _⟩ := h.inv.opened l h1
    unfold World.next at hl'; rw [h1] at hl'
    cases hl'
    obtain ⟨lib', fs', g1, _, _, g2, _⟩ := flushLib_ok hC a2
    simp only [MState.step, a1, g1, Res.ok_bind] at e1
    cases e1
    rw [← a5]; exact g2.backed
  | swap x y =>
    obtain ⟨l, h1, _⟩ := hl
    obtain ⟨lib, cs, a1, _⟩ := h.inv.opened l h1
    unfold World.next at hl'; rw [h1] at hl'; cases hl'
    simp only [MState.step, a1] at e1
    obtain ⟨_, g, e1⟩ := Res.bind_eq_ok.1 e1; cases e1
    exact grow l h1 rfl (libSwap_grows g)
  | move dir =>
    obtain ⟨l, h1, hd, _⟩ := hl
    obtain ⟨lib, cs, a1, a2, _, _, a5, _⟩ := h.inv.opened l h1
    unfold World.next at hl'; rw [h1] at hl'; cases hl'
    obtain ⟨lib', fs', g1, _, _, _, _, _, g2, _⟩ := moveLib_ok hC a2 (dir := dir) (by rw [a5]; exact hd)
    simp only [MState.step, a1, g1, Res.ok_bind] at e1
    cases e1
    exact g2.backed
  | clear =>
    obtain ⟨l, h1⟩ := hl
    obtain ⟨lib, cs, a1, a2, _, _, a5, _⟩ := h.inv.opened l h1
    unfold World.next at hl'; rw [h1] at hl'; cases hl'
    obtain ⟨lib', fs', g1, _, _, _, g2, _⟩ := clearLib_ok hC a2
    simp only [MState.step, a1, g1, Res.ok_bind] at e1
    cases e1
    rw [← a5]; exact .inl (g2 _)
  | «import» dir mv =>
    obtain ⟨l, ps, h1, hi⟩ := hl
    obtain ⟨lib, cs, a1, a2, _, _, a5, _⟩ := h.inv.opened l h1
    unfold World.next at hl'; rw [h1] at hl'; cases hl'
    simp only [MState.step, a1] at e1
    obtain ⟨q, g, e1⟩ := Res.bind_eq_ok.1 e1; cases e1
    obtain ⟨k1, k2⟩ := import_grows g (d := l.dir) (by rw [a2.dir, a5]) (fun e => hi.ne e.symm)
    show IndexBacked C q.2 l.dir
    rcases h.cur l h1 with b | ⟨ms, b1, b2, b3⟩
    · exact .inl (by rw [k1]; exact b)
    · refine .inr ⟨ms, by rw [k1]; exact b1, fun hn => ?_, fun m hm hs => k2 _ (b3 m hm hs)⟩
      have := b2 hn
      unfold loadEntries at this ⊢
      rw [k1]; exact this

theorem BInv.run (hC : C.Ok) : ∀ (ops : List LOp) {st : MState} {w : World}, BInv C S Z st w → AllLegal C w ops →
    ∃ st' rs, st.run C S ops = .ok (st', rs) ∧ BInv C S Z st' (w.run C ops)
  | [], st, _, h, _ => ⟨st, [], rfl, h⟩
  | op :: ops, st, w, h, hl => by
      obtain ⟨st1, r, e1, e2, e3⟩ := h.step hC op hl.1
      obtain ⟨st2, rs, g1, g3⟩ := BInv.run hC ops e3 hl.2
      exact ⟨st2, r :: rs, by simp only [MState.run, e1, g1, Res.ok_bind], g3⟩

theorem runLoop_take {σ ι : Type} {f : ι → σ → Res σ} : ∀ (is : List ι) (n : Nat) {s s' : σ}, runLoop f is s = .ok s' → ∃ s1, runLoop f (is.take n) s = .ok s1
  | [], n, s, s', _ => ⟨s, by rw [List.take_nil]; rfl⟩
  | i :: is, 0, s, s', _ => ⟨s, rfl⟩
  | i :: is, n + 1, s, s', h => by
      obtain ⟨s1, h1, h2⟩ := Res.bind_eq_ok.1 h
      obtain ⟨s2, h3⟩ := runLoop_take is n h2
      exact ⟨s2, by rw [List.take_succ_cons, runLoop, h1]; exact h3⟩

/-! ### Results -/

/-- **C48 (part).** A crash between two calls of an allowed history, or at any moment of the destruction of the library that ends it, leaves only
    indices on disk that list chunks whose files exist.

    Missing: `FlushLibrary` writes the index first, and a crash after that leaves an index listing chunks without files
    (`C48_flush_crash_loses_chunk`). -/
theorem C48_crash_safe_partial (C : Cfg) (hC : C.Ok) (S : Sorter) (Z : SlabSize) (fs : FS) (hfs : ∀ d, fs (d, .index) = none) (ops : List LOp)
    (hops : AllLegal C (World.init fs) ops) :
    ∃ st rs, MState.run C S ⟨none, fs⟩ ops = .ok (st, rs) ∧ (∀ d, IndexBacked C st.fs d) ∧
      ∀ lib, st.lib = some lib → ∀ n, ∃ fs', closeCrash C lib st.fs n = .ok fs' ∧ ∀ d, IndexBacked C fs' d := by
  obtain ⟨st, rs, h1, h2⟩ := BInv.run (Z := Z) hC ops ⟨WInv.init hfs, fun l e => by cases e⟩ hops
  refine ⟨st, rs, h1, h2.backed, fun lib hlib n => ?_⟩
  have hcur : ∃ l, ((World.init fs).run C ops).cur = some l := by
    cases e : ((World.init fs).run C ops).cur with
    | none => rw [h2.inv.closed e] at hlib; cases hlib
    | some l => exact ⟨l, rfl⟩
  obtain ⟨l, hl⟩ := hcur
  obtain ⟨lib', cs, a1, a2, _⟩ := h2.inv.opened l hl
  rw [a1] at hlib; cases hlib
  unfold closeCrash
  split
  · obtain ⟨s, hs⟩ := a2.cache
    obtain ⟨cc', fs', e1, _⟩ := flush_ok hC a2.chunky.ok hs
    obtain ⟨q, e2⟩ := runLoop_take _ n e1
    refine ⟨q.2, by rw [e2]; rfl, fun d => (h2.backed d).grows ?_⟩
    exact flushLoop_grows e2
  · obtain ⟨fs', e1, e2, e3⟩ := destroy_ok hC a2
    refine ⟨fs', e1, fun d => ?_⟩
    by_cases hd : d = lib.idx.dir
    · rw [hd]; exact e2.backed
    · exact (h2.backed d).frame fun n => e3 _ (fun e => hd (Prod.ext_iff.1 e).1) fun k m a _ _ e => hd (Prod.ext_iff.1 e).1

/-- The history of Props29 meets the hypotheses. -/
example : ∃ st rs, MState.run (Ex.cfg 1) Tree.Ex.S ⟨none, fun _ => none⟩ Ex.hist = .ok (st, rs) ∧ ∀ d, IndexBacked (Ex.cfg 1) st.fs d := by
  obtain ⟨st, rs, h1, h2, _⟩ := C48_crash_safe_partial (Ex.cfg 1) (Ex.cfg_ok 1) Tree.Ex.S Tree.Ex.Z _ (fun _ => rfl) Ex.hist Ex.hist_legal
  exact ⟨st, rs, h1, h2⟩

/-- Files after `n` steps of `FlushLibrary` at the end of a history. -/
def crashDuringFlush (C : Cfg) (S : Sorter) (ops : List LOp) (n : Nat) : Res FS :=
  (MState.run C S ⟨none, fun _ => none⟩ ops).bind fun r =>
    match r.1.lib with
    | none => .ub
    | some lib => flushCrash C lib r.1.fs n

/-- **C48, negation.** One chunk is registered and `FlushLibrary` is called.  Before the call there is no index; after the first file has been
    written the index lists the chunk, whose file does not exist; a library opened after a crash at this point aborts when the chunk is read.  After
    the second file the chunk is readable. -/
theorem C48_flush_crash_loses_chunk :
    let ops : List LOp := [.open 0 [1, 1], .register [65] ⟨[2, 2], [1, 2, 3, 4]⟩ [0, 0] [2, 2] 0 false]
    let after := fun n => (crashDuringFlush (Ex.cfg 4) Tree.Ex.S ops n).bind fun fs => .ok (fs (0, .index)).isSome
    let files := fun n => (crashDuringFlush (Ex.cfg 4) Tree.Ex.S ops n).bind fun fs => .ok (fs (0, .chunk [65])).isSome
    let reading := fun n => (crashDuringFlush (Ex.cfg 4) Tree.Ex.S ops n).bind fun fs => outs (MState.run (Ex.cfg 4) Tree.Ex.S ⟨none, fs⟩ [.open 0 [1, 1], .get [0, 1]])
    (after 0, files 0) = (.ok false, .ok false) ∧ (after 1, files 1) = (.ok true, .ok false) ∧ reading 1 = .abort ∧
    (after 2, files 2) = (.ok true, .ok true) ∧ reading 2 = .ok [.unit, .vec [2]] := by decide +kernel

end Verif.Dist
